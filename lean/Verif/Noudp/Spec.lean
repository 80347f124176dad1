import Verif.Noudp.Model
/-!
# Specification of the module noudp
-/
namespace Knot.Noudp

/-- How many queries over UDP the thread has had. -/
def udpQueries (qs : List (Bool × Nat)) (thread : Nat) : Nat := (qs.filter fun q => q.1 && q.2 == thread).length

/-- Whether the `k`-th query of a thread over UDP is truncated: all but every `allow`-th, or every `trunc`-th, or all. -/
def Truncated (allow trunc : Option UInt32) (k : Nat) : Prop :=
  match allow, trunc with
  | some a, _ => ¬ (a ≠ 0 ∧ a.toNat ∣ k)
  | none, some t => t.toNat ∣ k
  | none, none => True

end Knot.Noudp
