import Verif.Ctl.Model
/-!
# Control protocol: specification
-/
namespace Knot.Ctl
open WireCtx (beBytes beVal)

/-- A unit of the protocol: the type and the 12 items. -/
structure Unit' where
  kind : Kind
  items : List (Option Bytes)
  deriving DecidableEq, Repr

/-- Units that can be sent: only data units have items, and these are not longer than 65535 octets. -/
def Unit'.Ok (u : Unit') : Prop :=
  u.items.length = 12 ∧ (∀ d, some d ∈ u.items → d.length ≤ 65535) ∧ (u.kind.isData = false → ∀ x ∈ u.items, x = none)

/-- The items with their codes and lengths, from item `i` on. -/
def itemOctets (i : Nat) : List (Option Bytes) → Bytes
  | [] => []
  | none :: l => itemOctets (i + 1) l
  | some d :: l => beBytes 1 (16 + i) ++ beBytes 2 d.length ++ d ++ itemOctets (i + 1) l

/-- A unit as octets. -/
def Unit'.octets (u : Unit') : Bytes := beBytes 1 u.kind.code ++ itemOctets 0 u.items

/-- Send units in turn. -/
def sendAll (N : Nat) (s : St) : List Unit' → Res (Option Err × St)
  | [] => .ok (none, s)
  | u :: l => do
    let (e, s) ← send N s u.kind u.items
    match e with
    | some e => .ok (some e, s)
    | none => sendAll N s l

/-- Receive `n` units in turn. -/
def receiveAll (N : Nat) (s : St) : Nat → Res (Option Err × List Unit' × St)
  | 0 => .ok (none, [], s)
  | n + 1 => do
    let (e, k, d, s) ← receive N s
    match e with
    | some e => .ok (some e, [], s)
    | none => do
      let (e, us, s) ← receiveAll N s n
      .ok (e, ⟨k, d⟩ :: us, s)

/-- What a reader makes of a stream of octets. -/
inductive Parsed where
  | unit (k : Kind) (items : List (Option Bytes)) (rest : Bytes)
  | invalid
  | short
  deriving DecidableEq, Repr

/-- The types by their codes. -/
def kindOf (c : Nat) : Option Kind := [Kind.fin, .data, .extra, .block][c]?

/-- The 12 items have codes 16 to 27. -/
def itemOf (c : Nat) : Option Nat := if 16 ≤ c ∧ c ≤ 27 then some (c - 16) else none

/-- Read a unit from the octets; `have` is the type seen so far. A data unit ends at the next type. -/
def parse : Nat → Option Kind → List (Option Bytes) → Bytes → Parsed
  | 0, _, _, _ => .short
  | _, _, _, [] => .short
  | fuel + 1, hv, items, c :: s =>
    match kindOf c.toNat with
    | some k =>
      match hv with
      | some t => .unit t items (c :: s)
      | none => if k.isData then parse fuel (some k) items s else .unit k items s
    | none =>
      match itemOf c.toNat with
      | none => .invalid
      | some i =>
        if s.length < 2 then .short
        else if (s.drop 2).length < beVal (s.take 2) then .short
        else parse fuel hv (items.set i (some ((s.drop 2).take (beVal (s.take 2))))) ((s.drop 2).drop (beVal (s.take 2)))

/-- A buffer of the declared size with the input inside. -/
structure Sane (N : Nat) (s : St) : Prop where
  outMem : s.out.mem.length = N
  outSize : s.out.size = N
  outPos : s.out.pos ≤ N
  outErr : s.out.error = none
  outRw : s.out.readonly = false
  inMem : s.inp.mem.length = N
  inSize : s.inp.size ≤ N
  inPos : s.inp.pos ≤ s.inp.size
  inErr : s.inp.error = none
  chunks : ∀ c ∈ s.net, c ≠ []

end Knot.Ctl
