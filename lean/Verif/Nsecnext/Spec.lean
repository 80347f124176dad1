import Verif.Dname.Spec
/-!
# Specification of the online-signing successor
-/
namespace Knot.Nsecnext
open Dname

/-- `x` comes after `a` in canonical order. -/
def After (a x : Name) : Prop := canonCmp a x = .lt

/-- `x` lies strictly between `a` and `b` in canonical order. -/
def Between (a x b : Name) : Prop := After a x ∧ After x b

/-- The zone with the given apex contains the name. -/
def InZone (apex x : Name) : Prop := ∃ p, x = p ++ apex

/-- The name is in the canonical (lower-case) form. -/
def Lower (x : Name) : Prop := ∀ l ∈ x, ∀ c ∈ l, ¬ (65 ≤ c.toNat ∧ c.toNat ≤ 90)

/-- The octet following `c` when upper-case letters are left out. -/
def nextOctet (c : UInt8) : UInt8 := if c = 0x40 then 0x5b else c + 1

/-- How a name too long for another label is increased: the last octet of the first label
that is not 0xff is increased and those behind it become zero; a label of 0xff octets gets
one zero octet more if both limits allow it; otherwise the label is removed and the rest is
increased; the apex follows the last name. -/
inductive Increased (apex : Name) : Name → Name → Prop
  | apex : Increased apex apex apex
  | octet {a : Label} {c : UInt8} {k : Nat} {q p : Name} : q = p ++ apex → c ≠ 0xff →
      Increased apex ((a ++ c :: List.replicate k 0xff) :: q)
        ((a ++ nextOctet c :: List.replicate k 0) :: q)
  | append {k : Nat} {q p : Name} : q = p ++ apex → k < 63 →
      nameLen (List.replicate k 0xff :: q) < 255 →
      Increased apex (List.replicate k 0xff :: q) ((List.replicate k 0xff ++ [0]) :: q)
  | strip {k : Nat} {q p n : Name} : q = p ++ apex →
      (k = 63 ∨ nameLen (List.replicate k 0xff :: q) = 255) →
      Increased apex q n → Increased apex (List.replicate k 0xff :: q) n

end Knot.Nsecnext
