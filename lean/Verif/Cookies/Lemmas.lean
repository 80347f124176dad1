import Verif.Cookies.Model
import Verif.Edns.Props
/-!
# Lemmas on cookies
-/
namespace Knot.Cookies
open WireCtx

theorem beBytes_length (n v : Nat) : (beBytes n v).length = n := by
  induction n with
  | zero => rfl
  | succ n ih => simp [beBytes, ih]

theorem le64_length (x : UInt64) : (le64 x).length = 8 := by
  simp [le64, beBytes_length]

theorem xor_zero_iff (a b : UInt8) : a ^^^ b = 0 ↔ a = b := by
  constructor
  · intro h
    have : a ^^^ b ^^^ b = 0 ^^^ b := by rw [h]
    simpa [UInt8.xor_assoc] using this
  · rintro rfl; simp

theorem or_zero_iff (a b : UInt8) : a ||| b = 0 ↔ a = 0 ∧ b = 0 := by
  constructor
  · intro h
    have h' : (a ||| b).toNat = 0 := by rw [h]; rfl
    rw [UInt8.toNat_or, Nat.or_eq_zero_iff] at h'
    exact ⟨UInt8.toNat_inj.mp h'.1, UInt8.toNat_inj.mp h'.2⟩
  · rintro ⟨rfl, rfl⟩; rfl

theorem constTimeMemcmp_eq (s t : Bytes) (h : s.length = t.length) :
    constTimeMemcmp s t = 0 ↔ s = t := by
  induction s generalizing t with
  | nil => cases t <;> simp_all [constTimeMemcmp]
  | cons a s ih =>
    cases t with
    | nil => simp at h
    | cons b t =>
      simp only [constTimeMemcmp, or_zero_iff, xor_zero_iff, List.cons.injEq]
      rw [ih t (by simpa using h)]

end Knot.Cookies
