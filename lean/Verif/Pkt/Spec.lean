import Verif.Rrwire.Spec
/-!
# Specification of message writing (independent of the model)
-/
namespace Knot.Pkt
open Knot.Dname (Name Valid lowerName)
open Knot.Rrwire (Block Field Rec NaptrAt parseDesc emptyAllowed encAll slice num RRAt)

/-- RDATA of a given layout, cut into pieces. -/
inductive Fits : List Block → List Field → Prop
  | nil : Fits [] []
  | name {b bs ls fs} : b.isName = true → Valid ls → Fits bs fs → Fits (b :: bs) (.name ls :: fs)
  | naptr {bs d fs} : NaptrAt d 0 d.length d.length → Fits bs fs → Fits (.naptr :: bs) (.raw d :: fs)
  | remainder {d} : Fits [.remainder] [.raw d]
  | fixed {k bs d fs} : d.length = k → Fits bs fs → Fits (.fixed k :: bs) (.raw d :: fs)

/-- A set of records with the same owner, type, class and TTL. -/
structure RSet where
  owner : Name
  type : Nat
  rclass : Nat
  ttl : Nat
  rdatas : List (List Field)

/-- The set can be sent at all: the sizes of its parts are within the limits of the format, and the
RDATA have the layout of the type. -/
def RSet.Good (r : RSet) : Prop :=
  Valid r.owner ∧ r.type < 65536 ∧ r.rclass < 65536 ∧ r.ttl < 4294967296 ∧
  ∀ fs ∈ r.rdatas, (fs = [] ∧ emptyAllowed r.type r.rclass) ∨
    (Fits (parseDesc r.type).blocks fs ∧ 0 < (encAll fs).length ∧ (encAll fs).length ≤ 65535)

/-- Minimum field of an SOA record. -/
def soaMin : List Field → Nat
  | [_, _, .raw d] => num (slice d 16 4)
  | _ => 0

/-- The TTL to be sent. Flag 6 asks for the original TTL of an RRSIG (RFC 4034, 3.1.4), flag 7 for
the negative caching TTL of an SOA (RFC 2308, 3). -/
def ttlOf (flags : Nat) (r : RSet) (fs : List Field) : Nat :=
  if flags.testBit 6 = true ∧ r.type = 46 then num (slice (encAll fs) 4 4)
  else if flags.testBit 7 = true ∧ r.type = 6 then min (soaMin fs) r.ttl
  else r.ttl

/-- The list starting with its `k`-th element, the ones before that at the end. -/
def rotl {α : Type} (k : Nat) (l : List α) : List α := l.drop (k % l.length) ++ l.take (k % l.length)

/-- The records of a set in the order in which they are sent. -/
def RSet.recs (r : RSet) (rotate flags : Nat) : List Rec :=
  (rotl rotate r.rdatas).map (fun fs => ⟨r.owner, r.type, r.rclass, ttlOf flags r fs, fs⟩)

/-- Octets needed for the set without compression. -/
def RSet.wireLen (r : RSet) : Nat := (r.rdatas.map (fun fs => (Dname.wire r.owner).length + 10 + (encAll fs).length)).sum

/-- The types with a name in the RDATA that may be sent compressed: those of RFC 1035 that the
program knows (RFC 3597, 4). -/
def comprTypes : List Nat := [2, 5, 6, 12, 14, 15]

/-- The record received says the same as the one sent: names are the same up to letter case, and
names in RDATA exactly the same unless they may be compressed. -/
structure Same (sent got : Rec) : Prop where
  owner : lowerName got.owner = lowerName sent.owner
  type : got.type = sent.type
  rclass : got.rclass = sent.rclass
  ttl : got.ttl = sent.ttl
  rdata : got.rdata.map Field.lower = sent.rdata.map Field.lower
  exact : sent.type ∉ comprTypes → got.rdata = sent.rdata

/-- Lists related element by element. -/
inductive Each {α β : Type} (R : α → β → Prop) : List α → List β → Prop
  | nil : Each R [] []
  | cons {a b s t} : R a b → Each R s t → Each R (a :: s) (b :: t)

/-- The message `mem[0..size)` holds from `pos` to `stop` the records `rs`, one after the other. -/
inductive RRsAt (mem : List UInt8) (size : Nat) : Nat → List Rec → Nat → Prop
  | nil {pos} : RRsAt mem size pos [] pos
  | cons {pos r mid rs stop} : RRAt mem size pos r mid → RRsAt mem size mid rs stop → RRsAt mem size pos (r :: rs) stop

/-- The names in RDATA. -/
def namesOf : List Field → List Name
  | [] => []
  | .name ls :: fs => ls :: namesOf fs
  | .raw _ :: fs => namesOf fs

/-- What is needed of the flags: the TTL is taken from RDATA that are there. -/
def FlagsOk (flags : Nat) (fs : List Field) : Prop := (flags.testBit 6 = true ∨ flags.testBit 7 = true) → fs ≠ []

/-- The names hints of a set refer to: the owner, and the names in the RDATA. -/
def ownOf (r : RSet) : Nat → List Name
  | 0 => [r.owner]
  | k + 1 => namesOf (r.rdatas.getD k [])

/-- A set of records as put in a message: the section (0 answer, 1 authority, 2 additional), the
set, the rotation of its records asked for and the flags. -/
structure Item where
  sec : Nat
  set : RSet
  rotate : Nat
  flags : Nat

/-- A question: name, class and type. -/
structure Question where
  name : Name
  rclass : Nat
  type : Nat

/-- The octets of the question section. -/
def Question.enc (q : Question) : List UInt8 :=
  Dname.wire q.name ++ [UInt8.ofNat (q.type / 256), UInt8.ofNat q.type, UInt8.ofNat (q.rclass / 256), UInt8.ofNat q.rclass]

/-- The octets of the question section of a message with one question or none. -/
def qBytes : Option Question → List UInt8
  | some q => q.enc
  | none => []

/-- All records in the order in which they are to appear in the message. -/
def allRecs (log : List Item) : List Rec := log.flatMap (fun it => it.set.recs it.rotate it.flags)

/-- Number of records in a section. -/
def countIn (sec : Nat) (log : List Item) : Nat := ((log.filter (fun it => it.sec == sec)).map (fun it => it.set.rdatas.length)).sum

/-- The four counts in the header of the message. -/
def Counts (mem : List UInt8) (qd an ns ar : Nat) : Prop :=
  num (slice mem 4 2) = qd ∧ num (slice mem 6 2) = an ∧ num (slice mem 8 2) = ns ∧ num (slice mem 10 2) = ar

end Knot.Pkt
