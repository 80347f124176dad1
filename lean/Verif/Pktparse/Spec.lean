import Verif.Rrwire.Spec
/-!
# Specification of messages (independent of the model)

RFC 1035, 4.1; RFC 6891, 6.1.1 (OPT); RFC 8945, 4.2 and 5.1 (TSIG).
-/
namespace Knot.Pktparse
open Knot.Dname (Name NameAt Valid wire)
open Knot.Rrwire (Rec AcceptAt encAll slice num)

/-- The message `mem[0..size)` holds from `pos` to `stop` the records `rs`, one after the other. -/
inductive RecsAt (mem : List UInt8) (size : Nat) : Nat → List Rec → Nat → Prop
  | nil {pos} : RecsAt mem size pos [] pos
  | cons {pos r mid rs stop} : AcceptAt mem size pos r mid → RecsAt mem size mid rs stop →
      RecsAt mem size pos (r :: rs) stop

/-- The question section: empty, or one question with an uncompressed name. -/
def QuestionAt (mem : List UInt8) (size : Nat) (q : Option Name) (stop : Nat) : Prop :=
  match q with
  | none => num (slice mem 4 2) = 0 ∧ stop = 12
  | some ls => num (slice mem 4 2) = 1 ∧ ∃ n, NameAt mem size false 12 ls n ∧ Valid ls ∧
      stop = 12 + n + 4 ∧ stop ≤ size

/-- Big-endian 16-bit number. -/
def be16 (v : Nat) : List UInt8 := [UInt8.ofNat (v / 256), UInt8.ofNat v]

/-- RDATA of TSIG: algorithm, time signed and fudge, MAC, original id and error, other data. -/
def TsigRdata (d : List UInt8) : Prop :=
  ∃ (alg : Name) (time mac err other : List UInt8), Valid alg ∧ time.length = 8 ∧ err.length = 4 ∧
    mac.length < 65536 ∧ other.length < 65536 ∧
    d = wire alg ++ time ++ be16 mac.length ++ mac ++ err ++ be16 other.length ++ other

/-- RDATA of OPT: options, each with a code, a length and that many octets. -/
def OptRdata (d : List UInt8) : Prop :=
  ∃ os : List (Nat × List UInt8), (∀ o ∈ os, o.1 < 65536 ∧ o.2.length < 65536) ∧
    d = os.flatMap (fun o => be16 o.1 ++ be16 o.2.length ++ o.2)

/-- `Message mem size q an ns ar`: the first `size` octets of `mem` are a message with the question
`q` and the records of the three sections. -/
structure Message (mem : List UInt8) (size : Nat) (q : Option Name) (an ns ar : List Rec) : Prop where
  header : 12 ≤ size
  records : ∃ pos, QuestionAt mem size q pos ∧ RecsAt mem size pos (an ++ ns ++ ar) size
  ancount : num (slice mem 6 2) = an.length
  nscount : num (slice mem 8 2) = ns.length
  arcount : num (slice mem 10 2) = ar.length
  /-- OPT and TSIG belong to the additional section only. -/
  special : ∀ r ∈ an ++ ns, r.type ≠ 41 ∧ r.type ≠ 250
  /-- There is one OPT at most, with well-formed options. -/
  opt : ∀ pre r post, ar = pre ++ r :: post → r.type = 41 →
    (∀ x ∈ pre ++ post, x.type ≠ 41) ∧ OptRdata (encAll r.rdata)
  /-- TSIG is the last record of the message, if present, and its RDATA are well-formed. -/
  tsig : ∀ pre r post, ar = pre ++ r :: post → r.type = 250 → post = [] ∧ TsigRdata (encAll r.rdata)

end Knot.Pktparse
