import Verif.Tsig.Model
import Verif.Dname.Spec
/-!
# TSIG: specification

RFC 8945: the record, the data covered by the signature, and when a message is accepted.
-/
namespace Knot.Tsig
open Dname (Name Valid lowerName)
open WireCtx (beBytes beVal)

/-- The fields of a TSIG record (RFC 8945, 4.2). -/
structure Tsig where
  key : Name
  cls : Nat
  ttl : Nat
  alg : Name
  time : Nat
  fudge : Nat
  mac : Bytes
  id : Nat
  error : Nat
  other : Bytes

/-- Names are valid and numbers fit in their fields. -/
structure Tsig.Ok (t : Tsig) : Prop where
  key : Valid t.key
  cls : t.cls < 2 ^ 16
  ttl : t.ttl < 2 ^ 32
  alg : Valid t.alg
  time : t.time < 2 ^ 48
  fudge : t.fudge < 2 ^ 16
  mac : t.mac.length < 2 ^ 16
  id : t.id < 2 ^ 16
  error : t.error < 2 ^ 16
  other : t.other.length < 2 ^ 16

/-- RDATA (RFC 8945, 4.2). -/
def Tsig.rdata (t : Tsig) : Bytes :=
  Dname.wire t.alg ++ beBytes 6 t.time ++ beBytes 2 t.fudge ++ beBytes 2 t.mac.length ++ t.mac ++ beBytes 2 t.id ++
    beBytes 2 t.error ++ beBytes 2 t.other.length ++ t.other

/-- The record as delivered by the parser of messages. -/
def Tsig.rr (t : Tsig) : Rr := ⟨Dname.wire t.key, t.cls, t.ttl, t.rdata⟩

/-- The names of algorithms (RFC 8945, 6). -/
def algName : Alg → Name
  | .md5 => [[104, 109, 97, 99, 45, 109, 100, 53], [115, 105, 103, 45, 97, 108, 103], [114, 101, 103], [105, 110, 116]]
  | .sha1 => [[104, 109, 97, 99, 45, 115, 104, 97, 49]]
  | .sha224 => [[104, 109, 97, 99, 45, 115, 104, 97, 50, 50, 52]]
  | .sha256 => [[104, 109, 97, 99, 45, 115, 104, 97, 50, 53, 54]]
  | .sha384 => [[104, 109, 97, 99, 45, 115, 104, 97, 51, 56, 52]]
  | .sha512 => [[104, 109, 97, 99, 45, 115, 104, 97, 53, 49, 50]]

/-- The record names this algorithm. -/
def Tsig.Names (t : Tsig) (a : Alg) : Prop := lowerName t.alg = algName a

/-- The message with the ID it was signed with. -/
def withId (msg : Bytes) (id : Nat) : Bytes := beBytes 2 id ++ msg.drop 2

/-- The TSIG variables (RFC 8945, 4.3.3). -/
def Tsig.variables (t : Tsig) : Bytes :=
  Dname.wire t.key ++ beBytes 2 t.cls ++ beBytes 4 t.ttl ++ Dname.wire (lowerName t.alg) ++ beBytes 6 t.time ++ beBytes 2 t.fudge ++
    beBytes 2 t.error ++ beBytes 2 t.other.length ++ t.other

/-- The data covered by the MAC: of a request (`mac = []`) or of the first message of a response (RFC 8945, 4.3). -/
def Tsig.covered (t : Tsig) (msg mac : Bytes) : Bytes :=
  (if mac = [] then [] else beBytes 2 mac.length ++ mac) ++ withId msg t.id ++ t.variables

/-- The data covered by the MAC in later messages of a response (RFC 8945, 5.3.1). -/
def Tsig.coveredNext (t : Tsig) (msg mac : Bytes) : Bytes :=
  beBytes 2 mac.length ++ mac ++ withId msg t.id ++ (beBytes 6 t.time ++ beBytes 2 t.fudge)

/-- The time is within the window of the clock, and not before the previous one. -/
def Tsig.Fresh (t : Tsig) (now prev : Nat) : Prop :=
  0 < t.time ∧ 0 < t.fudge ∧ now ≤ t.time + t.fudge ∧ t.time ≤ now + t.fudge ∧ prev ≤ t.time

/-- A name of a key in wire format, as in `Key`. -/
def Key.Is (k : Key) (n : Name) : Prop := k.name = Dname.wire n ∧ Valid n

/-- The octets of the record in a message. -/
def Tsig.octets (t : Tsig) : Bytes :=
  Dname.wire t.key ++ beBytes 2 250 ++ beBytes 2 t.cls ++ beBytes 4 t.ttl ++ beBytes 2 t.rdata.length ++ t.rdata

/-- A message with the record after it. -/
def Carries (w msg : Bytes) (t : Tsig) : Prop :=
  ∃ ar : Nat, msg.drop 10 = beBytes 2 ar ++ msg.drop 12 ∧ ar < 65536 ∧
    w = msg.take 10 ++ beBytes 2 ((ar + 1) % 65536) ++ msg.drop 12 ++ t.octets

/-- The ID of a message. -/
def idOf (msg : Bytes) : Nat := beVal (msg.take 2)

/-- The clocks of the server and of the client when a message is signed and verified. -/
def Clocks (s c : Nat) : Prop := 0 < s ∧ s < 2 ^ 48 ∧ s ≤ c + 300 ∧ c ≤ s + 300

/-- The messages as given to the client. -/
def given (l : List (Nat × Bytes × Option Tsig)) : List (Nat × Bytes × Option Rr) :=
  l.map fun x => (x.1, x.2.1, x.2.2.map Tsig.rr)

/-- A response in several messages, each with the clock of the client and the TSIG record if there is one, is genuine:
every record covers the previous MAC (at first of the request) and all the messages since then (`pend`), less than 100
messages go without a record and the last one has it. -/
def Chain (hmac : Alg → Bytes → Bytes → Bytes) (key : Key) (k : Name) (mac : Bytes) (prev : Nat) (pend : List Bytes) :
    List (Nat × Bytes × Option Tsig) → Prop
  | [] => pend = []
  | (_, m, none) :: l => (pend ++ [m]).length < 100 ∧ (pend ++ [m]).flatten.length ≤ 65535 * 100 ∧
      Chain hmac key k mac prev (pend ++ [m]) l
  | (now, m, some t) :: l => (pend ++ [m]).flatten.length ≤ 65535 * 100 ∧ t.key = k ∧ t.Names key.alg ∧
      t.mac = hmac key.alg key.secret (if prev = 0 then t.covered (pend ++ [m]).flatten mac
        else t.coveredNext (pend ++ [m]).flatten mac) ∧
      t.Fresh now prev ∧ Chain hmac key k t.mac t.time [] l

end Knot.Tsig
