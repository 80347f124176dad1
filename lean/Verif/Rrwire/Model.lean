import Verif.Rrwire.Descr
import Verif.Dname.Model
import Verif.WireCtx.Model
/-!
# Model of resource record parsing (src/libknot/packet/rrset-wire.c, src/libknot/rrset.c)

A message is a byte list `mem`; positions are offsets from the start of the message.
Allocation failure is not modelled.
-/
namespace Knot.Rrwire
open Knot

abbrev Bytes := List UInt8

/-- A resource record as held in memory: the owner and the RDATA are byte strings, names in
them being uncompressed. Source: src/libknot/rrset.h:36-44 (with one record in `rrs`). -/
structure RR where
  owner : Bytes
  type : Nat
  rclass : Nat
  ttl : Nat
  rdata : Bytes
  deriving DecidableEq, Repr

/-- `k` character strings from `off`. The sticky error of the reader is an early return.
Source: src/libknot/rrtype/naptr.c:35-44. -/
def skipStrings (mem : Bytes) (endp : Nat) : Nat → Nat → Res Nat
  | 0, off => .ok off
  | k + 1, off =>
    if off + 1 > endp then .err .emalf
    else do
      let b ← Res.rd mem off
      if off + 1 + b.toNat > endp then .err .emalf
      else skipStrings mem endp k (off + 1 + b.toNat)

/-- `knot_naptr_header_size`. Source: src/libknot/rrtype/naptr.c:23-47. -/
def naptrHeaderSize (mem : Bytes) (src endp : Nat) : Res Nat :=
  if src ≥ endp then .err .einval
  else if src + 4 > endp then .err .emalf
  else do
    let e ← skipStrings mem endp 3 (src + 4)
    .ok (e - src)

/-- The source and destination of RDATA being parsed: `src`, `avail` in the message, `out`
the bytes already written to the destination, `room` what is left there. -/
structure RdSt where
  src : Nat
  avail : Nat
  out : Bytes
  room : Nat
  deriving DecidableEq, Repr

/-- `write_rdata_fixed` when parsing. Source: src/libknot/packet/rrset-wire.c:118-145. -/
def parseFixed (mem : Bytes) (k : Nat) (s : RdSt) : Res RdSt :=
  if k > s.avail then .err .emalf
  else if k > s.room then .err .espace
  else do
    let d ← WireCtx.load mem s.src k
    .ok ⟨s.src + k, s.avail - k, s.out ++ d, s.room - k⟩

/-- `write_rdata_naptr_header` when parsing.
Source: src/libknot/packet/rrset-wire.c:147-162. -/
def parseNaptr (mem : Bytes) (s : RdSt) : Res RdSt := do
  let k ← naptrHeaderSize mem s.src (s.src + s.avail)
  parseFixed mem k s

/-- `decompress_rdata_dname`. Source: src/libknot/packet/rrset-wire.c:576-603. -/
def parseName (mem : Bytes) (s : RdSt) : Res RdSt := do
  let n ← Dname.wireCheck mem (s.src + s.avail) true s.src
  let d ← Dname.unpack mem s.room s.src
  .ok ⟨s.src + n, s.avail - n, s.out ++ d, s.room - d.length⟩

/-- One step of `rdata_traverse_parse`. Source: src/libknot/packet/rrset-wire.c:612-630. -/
def parseBlock (mem : Bytes) (b : Block) (s : RdSt) : Res RdSt :=
  match b with
  | .comprName => parseName mem s
  | .decomprName => parseName mem s
  | .fixedName => parseName mem s
  | .naptr => parseNaptr mem s
  | .remainder => parseFixed mem s.avail s
  | .fixed k => parseFixed mem k s

/-- `rdata_traverse_parse`. Source: src/libknot/packet/rrset-wire.c:605-637. -/
def traverseParse (mem : Bytes) : List Block → RdSt → Res RdSt
  | [], s => .ok s
  | b :: bs, s => do
    let s' ← parseBlock mem b s
    traverseParse mem bs s'

/-- `allow_zero_rdata`. Source: src/libknot/packet/rrset-wire.c:639-646. -/
def allowZeroRdata (type rclass : Nat) (desc : Desc) : Bool :=
  rclass != 1 || type == 42 || type == 10 || !desc.named

/-- The error of any failure of the RDATA parser is `KNOT_EMALF`.
Source: src/libknot/packet/rrset-wire.c:681-684. -/
def asMalf {α : Type} : Res α → Res α
  | .ok a => .ok a
  | .err _ => .err .emalf
  | .ub => .ub

/-- `parse_rdata`: the RDATA and the new position.
Source: src/libknot/packet/rrset-wire.c:648-703. -/
def parseRdata (mem : Bytes) (pos size type rclass rdlength : Nat) : Res (Bytes × Nat) :=
  let desc := parseDesc type
  if rdlength = 0 then
    if allowZeroRdata type rclass desc then .ok ([], pos) else .err .emalf
  else if size - pos < rdlength then .err .emalf
  else do
    let s ← asMalf (traverseParse mem desc.blocks ⟨pos, rdlength, [], 65535⟩)
    if 65535 - s.room < rdlength then .err .emalf
    else .ok (s.out, pos + rdlength)

/-- Big-endian number at a position (`wire_ctx_read_u16`, `wire_ctx_read_u32`). -/
def readBE (mem : Bytes) (pos k : Nat) : Res Nat := do
  let d ← WireCtx.load mem pos k
  .ok (d.foldl (fun a b => a * 256 + b.toNat) 0)

/-- `parse_header`: owner, type, class, TTL, RDLENGTH and the position after them. The four
reads share one bounds check: the reader's error is sticky and all failures are reported
alike. Source: src/libknot/packet/rrset-wire.c:527-574. -/
def parseHeader (mem : Bytes) (pos size : Nat) : Res (Bytes × Nat × Nat × Nat × Nat × Nat) := do
  let n ← asMalf (Dname.wireCheck mem size true pos)
  let owner ← asMalf (Dname.unpack mem 255 pos)
  let p := pos + n
  if p + 10 > size then .err .emalf
  else do
    let type ← readBE mem p 2
    let rclass ← readBE mem (p + 2) 2
    let ttl ← readBE mem (p + 4) 4
    let rdlen ← readBE mem (p + 8) 2
    if size - (p + 10) < rdlen then .err .emalf
    else .ok (owner, type, rclass, ttl, rdlen, p + 10)

/-- `knot_dname_to_lower` on a name inside a larger object, and the object behind it.
Source: src/libknot/dname.c:475-488. -/
def lowerFront (d : Bytes) : Res (Bytes × Bytes) := do
  let l ← Dname.copyLower d
  .ok (l, d.drop l.length)

/-- The loop of `knot_rrset_rr_to_canonical` over the RDATA.
Source: src/libknot/rrset.c:168-199. -/
def canonRdata : List Block → Bytes → Res Bytes
  | [], d => .ok d
  | .comprName :: bs, d => do
    let (l, r) ← lowerFront d
    let r' ← canonRdata bs r
    .ok (l ++ r')
  | .decomprName :: bs, d => do
    let (l, r) ← lowerFront d
    let r' ← canonRdata bs r
    .ok (l ++ r')
  | .fixedName :: bs, d => do
    let (l, r) ← lowerFront d
    let r' ← canonRdata bs r
    .ok (l ++ r')
  | .naptr :: bs, d => do
    let k ← naptrHeaderSize d 0 d.length
    let r' ← canonRdata bs (d.drop k)
    .ok (d.take k ++ r')
  | .remainder :: bs, d => canonRdata bs d
  | .fixed k :: bs, d =>
    if k > d.length then .ub
    else do
      let r' ← canonRdata bs (d.drop k)
      .ok (d.take k ++ r')

/-- `knot_rrset_rr_to_canonical`. Source: src/libknot/rrset.c:139-202. -/
def canonical (r : RR) : Res RR := do
  let o ← Dname.copyLower r.owner
  if lowercased r.type = false then .ok { r with owner := o }
  else if r.rdata.length = 0 then .ok { r with owner := o }
  else do
    let d ← canonRdata (parseDesc r.type).blocks r.rdata
    .ok { r with owner := o, rdata := d }

/-- `knot_rrset_rr_from_wire`: the record and the position after it. A failed conversion to
the canonical format leaves an empty record and still reports success; it is `none` here.
Source: src/libknot/packet/rrset-wire.c:705-735. -/
def fromWire (mem : Bytes) (pos size : Nat) (canon : Bool) : Res (Option RR × Nat) :=
  if pos > size then .err .einval
  else do
    let (owner, type, rclass, ttl, rdlen, p) ← parseHeader mem pos size
    let (rdata, p') ← parseRdata mem p size type rclass rdlen
    if canon then
      match canonical ⟨owner, type, rclass, ttl, rdata⟩ with
      | .ok r => .ok (some r, p')
      | .err _ => .ok (none, p')
      | .ub => .ub
    else .ok (some ⟨owner, type, rclass, ttl, rdata⟩, p')

end Knot.Rrwire
