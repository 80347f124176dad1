import Verif.Rrwire.Descr
import Verif.Dname.Spec
/-!
# Specification of resource records in a message (independent of the model)

RFC 1035, 3.2.1, 4.1.3 and 4.1.4; RFC 3597 for unknown types.
-/
namespace Knot.Rrwire
open Knot.Dname (Name NameAt Valid wire lowerName)

/-- A piece of RDATA: a domain name or uninterpreted octets. -/
inductive Field where
  | name (ls : Name)
  | raw (d : List UInt8)
  deriving DecidableEq

/-- The octets of a piece of RDATA, names being uncompressed. -/
def Field.enc : Field → List UInt8
  | .name ls => wire ls
  | .raw d => d

/-- The octets of RDATA. -/
def encAll (fs : List Field) : List UInt8 := fs.flatMap Field.enc

def Field.lower : Field → Field
  | .name ls => .name (lowerName ls)
  | .raw d => .raw d

/-- The octets of `mem` from `pos`, `k` of them. -/
def slice (mem : List UInt8) (pos k : Nat) : List UInt8 := (mem.drop pos).take k

/-- The fixed part of a NAPTR record: two 16-bit numbers and three character strings, `n`
octets in all (RFC 3403, 4.1). -/
def NaptrAt (mem : List UInt8) (pos endp n : Nat) : Prop :=
  ∃ a b c : UInt8, mem[pos + 4]? = some a ∧ mem[pos + 5 + a.toNat]? = some b ∧
    mem[pos + 6 + a.toNat + b.toNat]? = some c ∧
    n = 7 + a.toNat + b.toNat + c.toNat ∧ pos + n ≤ endp

def Block.isName : Block → Bool
  | .comprName => true
  | .decomprName => true
  | .fixedName => true
  | _ => false

/-- `RdAt mem endp blocks pos fs stop`: from `pos` to `stop`, not beyond `endp`, the message
`mem` holds RDATA of the given layout, its pieces being `fs`; names may be compressed. -/
inductive RdAt (mem : List UInt8) (endp : Nat) : List Block → Nat → List Field → Nat → Prop
  | done {pos} : RdAt mem endp [] pos [] pos
  | name {b bs pos ls n fs stop} : b.isName = true →
      NameAt mem endp true pos ls n → Valid ls → RdAt mem endp bs (pos + n) fs stop →
      RdAt mem endp (b :: bs) pos (.name ls :: fs) stop
  | naptr {bs pos n fs stop} : NaptrAt mem pos endp n → RdAt mem endp bs (pos + n) fs stop →
      RdAt mem endp (.naptr :: bs) pos (.raw (slice mem pos n) :: fs) stop
  | remainder {bs pos fs stop} : pos ≤ endp → RdAt mem endp bs endp fs stop →
      RdAt mem endp (.remainder :: bs) pos (.raw (slice mem pos (endp - pos)) :: fs) stop
  | fixed {k bs pos fs stop} : pos + k ≤ endp → RdAt mem endp bs (pos + k) fs stop →
      RdAt mem endp (.fixed k :: bs) pos (.raw (slice mem pos k) :: fs) stop

/-- Big-endian number. -/
def num (d : List UInt8) : Nat := d.foldl (fun a b => a * 256 + b.toNat) 0

/-- A resource record. -/
structure Rec where
  owner : Name
  type : Nat
  rclass : Nat
  ttl : Nat
  rdata : List Field

/-- Types for which RDATA of no octets is acceptable: everything in a class other than IN
(dynamic updates), APL, NULL and unknown types. -/
def emptyAllowed (type rclass : Nat) : Prop :=
  rclass ≠ 1 ∨ type = 42 ∨ type = 10 ∨ (parseDesc type).named = false

/-- `HeadAt mem size pos r k p`: at `pos` a record's owner, type, class, TTL and RDLENGTH `k`
are stored, and `k` octets of RDATA fit behind them at `p`. -/
def HeadAt (mem : List UInt8) (size pos : Nat) (r : Rec) (k p : Nat) : Prop :=
  ∃ n, NameAt mem size true pos r.owner n ∧ Valid r.owner ∧ p = pos + n + 10 ∧
    r.type = num (slice mem (pos + n) 2) ∧ r.rclass = num (slice mem (pos + n + 2) 2) ∧
    r.ttl = num (slice mem (pos + n + 4) 4) ∧ k = num (slice mem (pos + n + 8) 2) ∧
    p + k ≤ size

/-- `RRAt mem size pos r stop`: the message `mem[0..size)` holds at `pos` the record `r`,
ending at `stop`, RDLENGTH being exactly the length of the RDATA. -/
def RRAt (mem : List UInt8) (size pos : Nat) (r : Rec) (stop : Nat) : Prop :=
  ∃ k p, HeadAt mem size pos r k p ∧ stop = p + k ∧
    ((k = 0 ∧ r.rdata = [] ∧ emptyAllowed r.type r.rclass) ∨
     (0 < k ∧ RdAt mem stop (parseDesc r.type).blocks p r.rdata stop))

/-- What the parser accepts: like `RRAt`, but the RDATA may end at `q` before `stop`, as long
as the octets left over are no more than what decompression adds. -/
def AcceptAt (mem : List UInt8) (size pos : Nat) (r : Rec) (stop : Nat) : Prop :=
  ∃ k p, HeadAt mem size pos r k p ∧ stop = p + k ∧
    ((k = 0 ∧ r.rdata = [] ∧ emptyAllowed r.type r.rclass) ∨
     (0 < k ∧ (∃ q, RdAt mem stop (parseDesc r.type).blocks p r.rdata q) ∧
       k ≤ (encAll r.rdata).length ∧ (encAll r.rdata).length ≤ 65535))

/-- The types whose RDATA names are lower-cased in the canonical form: RFC 4034, 6.2 as
amended by RFC 6840, 5.1 (which removes NSEC), without HINFO, which has no names, and A6. -/
def rfc4034Types : List Nat :=
  [2, 3, 4, 5, 6, 7, 8, 9, 12, 14, 15, 17, 18, 21, 24, 26, 30, 33, 35, 36, 39, 46]

/-- Canonical form of a record: RFC 4034, 6.2. -/
def Rec.canon (r : Rec) : Rec :=
  { r with owner := lowerName r.owner,
           rdata := if r.type ∈ rfc4034Types then r.rdata.map Field.lower else r.rdata }

end Knot.Rrwire
