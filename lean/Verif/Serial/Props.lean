import Verif.Serial.Model
/-! # C08: serial number arithmetic -/
namespace Knot
open Knot.Serial

/-! ## Specification: RFC 1982, section 3.2 with SERIAL_BITS = 32 -/

/-- RFC 1982: `a` is less than `b`. -/
def SerialLt (a b : Nat) : Prop :=
  (a < b ∧ b - a < 2147483648) ∨ (a > b ∧ a - b > 2147483648)

/-- RFC 1982: neither less, equal nor greater. -/
def SerialUndefined (a b : Nat) : Prop := a ≠ b ∧ ¬ SerialLt a b ∧ ¬ SerialLt b a

/-- C08. The comparison implements RFC 1982. -/
theorem C08_compare_rfc1982 (a b : Nat) (ha : a < 4294967296) (hb : b < 4294967296) :
    (serialCompare a b = .ok .equal ↔ a = b) ∧
    (serialCompare a b = .ok .lower ↔ SerialLt a b) ∧
    (serialCompare a b = .ok .greater ↔ SerialLt b a) ∧
    (serialCompare a b = .ok .incomparable ↔ SerialUndefined a b) := by
  unfold SerialUndefined SerialLt serialCompare
  by_cases h1 : b ≤ a
  · have hd : (a + 4294967296 - b) % 4294967296 = a - b := by omega
    simp only [hd]
    by_cases h2 : a - b < 2147483648
    · by_cases h3 : a = b
      · subst h3; simp [brief2result]
      · have e1 : (a - b) / 2147483648 = 0 := by omega
        have e2 : (a - b) % 2147483648 ≠ 0 := by omega
        simp only [e1, if_pos e2, brief2result]
        refine ⟨?_, ?_, ?_, ?_⟩ <;> simp <;> omega
    · have e1 : (a - b) / 2147483648 = 1 := by omega
      by_cases h4 : a - b = 2147483648
      · have e2 : (a - b) % 2147483648 = 0 := by omega
        simp only [e1, e2]
        refine ⟨?_, ?_, ?_, ?_⟩ <;> simp [brief2result] <;> omega
      · have e2 : (a - b) % 2147483648 ≠ 0 := by omega
        simp only [e1, if_pos e2]
        refine ⟨?_, ?_, ?_, ?_⟩ <;> simp [brief2result] <;> omega
  · have hd : (a + 4294967296 - b) % 4294967296 = 4294967296 - (b - a) := by omega
    simp only [hd]
    by_cases h2 : b - a < 2147483648
    · have e1 : (4294967296 - (b - a)) / 2147483648 = 1 := by omega
      have e2 : (4294967296 - (b - a)) % 2147483648 ≠ 0 := by omega
      simp only [e1, if_pos e2]
      refine ⟨?_, ?_, ?_, ?_⟩ <;> simp [brief2result] <;> omega
    · by_cases h4 : b - a = 2147483648
      · have e1 : (4294967296 - (b - a)) / 2147483648 = 1 := by omega
        have e2 : (4294967296 - (b - a)) % 2147483648 = 0 := by omega
        simp only [e1, e2]
        refine ⟨?_, ?_, ?_, ?_⟩ <;> simp [brief2result] <;> omega
      · have e1 : (4294967296 - (b - a)) / 2147483648 = 0 := by omega
        have e2 : (4294967296 - (b - a)) % 2147483648 ≠ 0 := by omega
        simp only [e1, if_pos e2]
        refine ⟨?_, ?_, ?_, ?_⟩ <;> simp [brief2result] <;> omega

/-- C08. The comparison is always defined. -/
theorem C08_compare_total (a b : Nat) : ∃ c, serialCompare a b = .ok c := by
  have key : ∀ d < 4294967296, ∃ c,
      brief2result (d / 2147483648 * 2 + (if d % 2147483648 ≠ 0 then 1 else 0)) = .ok c := by
    intro d hd
    have h1 : d / 2147483648 = 0 ∨ d / 2147483648 = 1 := by omega
    rcases h1 with h1 | h1
    · rw [h1]; split <;> exact ⟨_, rfl⟩
    · rw [h1]; split <;> exact ⟨_, rfl⟩
  exact key _ (Nat.mod_lt _ (by omega))

/-- C08. The order is antisymmetric: swapping the arguments swaps the verdict. -/
theorem C08_compare_antisymm (a b : Nat) (ha : a < 4294967296) (hb : b < 4294967296) :
    (serialCompare a b = .ok .lower ↔ serialCompare b a = .ok .greater) ∧
    (serialCompare a b = .ok .incomparable ↔ serialCompare b a = .ok .incomparable) ∧
    ¬ (SerialLt a b ∧ SerialLt b a) := by
  have h1 := C08_compare_rfc1982 a b ha hb
  have h2 := C08_compare_rfc1982 b a hb ha
  refine ⟨by rw [h1.2.1, h2.2.2.1], by rw [h1.2.2.2, h2.2.2.2]; unfold SerialUndefined; grind, ?_⟩
  unfold SerialLt; omega

/-- C08. Without a modulus the next serial exists and, if an increment between 1 and 2^31-1
is asked for, is newer than the current one whatever the clock says. -/
theorem C08_next_newer (cur minimum inc rem mod : Nat) (hc : cur < 4294967296) (hm : minimum < 4294967296)
    (hi : 1 ≤ inc) (hi2 : inc < 2147483648) (hmod : mod ≤ 1) :
    ∃ r, next cur minimum inc rem mod = .ok r ∧ r < 4294967296 ∧ SerialLt cur r := by
  obtain ⟨c, h⟩ := C08_compare_total minimum cur
  have hs := C08_compare_rfc1982 minimum cur hm hc
  unfold next
  rw [h]
  simp only [Res.bind_ok]
  rw [if_neg (by omega)]
  refine ⟨_, rfl, ?_⟩
  by_cases hg : c = .greater
  · subst hg
    rw [if_neg (by simp)]
    exact ⟨hm, hs.2.2.1.mp h⟩
  · rw [if_pos hg]
    unfold SerialLt
    omega

/-- C08. Without a modulus, the policy value is used as soon as it is newer; otherwise the
serial is incremented. -/
theorem C08_next_value (cur minimum inc rem mod : Nat) (hc : cur < 4294967296) (hm : minimum < 4294967296)
    (hmod : mod ≤ 1) :
    (SerialLt cur minimum → next cur minimum inc rem mod = .ok minimum) ∧
    (¬ SerialLt cur minimum → next cur minimum inc rem mod = .ok ((cur + inc) % 4294967296)) := by
  obtain ⟨c, h⟩ := C08_compare_total minimum cur
  have hs := C08_compare_rfc1982 minimum cur hm hc
  unfold next
  rw [h]
  simp only [Res.bind_ok]
  rw [if_neg (by omega)]
  constructor
  · intro hl; rw [hs.2.2.1.mpr hl] at h; cases h; simp
  · intro hl
    have : c ≠ .greater := by rintro rfl; exact hl (hs.2.2.1.mp h)
    rw [if_pos this]

/-- The value before the modulus is applied. -/
def baseSerial (cur minimum inc : Nat) : Nat :=
  if (minimum > cur ∧ minimum - cur < 2147483648) ∨ (minimum < cur ∧ cur - minimum > 2147483648)
  then minimum else (cur + inc) % 4294967296

/-- C08. With a modulus the produced serial is the least one not before the unconstrained
value that is congruent to the remainder, provided no 2^32 boundary is crossed. -/
theorem C08_next_modulo (cur minimum inc rem mod : Nat) (hc : cur < 4294967296) (hm : minimum < 4294967296)
    (hmod : 1 < mod) (hr : rem < mod)
    (hw : baseSerial cur minimum inc + mod ≤ 4294967296) :
    ∃ r, next cur minimum inc rem mod = .ok r ∧ r % mod = rem ∧
      baseSerial cur minimum inc ≤ r ∧ r < baseSerial cur minimum inc + mod := by
  obtain ⟨c, h⟩ := C08_compare_total minimum cur
  have hs := C08_compare_rfc1982 minimum cur hm hc
  have hb : (if c ≠ .greater then (cur + inc) % 4294967296 else minimum) = baseSerial cur minimum inc := by
    unfold baseSerial
    have := hs.2.2.1
    rw [h] at this
    unfold SerialLt at this
    by_cases hg : c = .greater
    · subst hg
      have := this.mp rfl
      rw [if_neg (by simp), if_pos (by omega)]
    · rw [if_pos hg, if_neg]
      intro h'
      apply hg
      have := this.mpr (by omega)
      cases this; rfl
  unfold next
  rw [h]
  simp only [Res.bind_ok, hb]
  generalize baseSerial cur minimum inc = base at *
  rw [if_pos hmod, if_neg (by omega)]
  have hbm := Nat.mod_lt base (show mod > 0 by omega)
  have hdiv := Nat.div_add_mod base mod
  by_cases hle : base % mod ≤ rem
  · have e : ((rem + mod) - base % mod) % mod = rem - base % mod := by
      have : (rem + mod) - base % mod = (rem - base % mod) + mod := by omega
      rw [this, Nat.add_mod_right, Nat.mod_eq_of_lt (by omega)]
    rw [e]
    have hlt : base + (rem - base % mod) < 4294967296 := by omega
    rw [if_neg (by omega), Nat.mod_eq_of_lt hlt]
    have hcong : (base + (rem - base % mod)) % mod = rem := by
      have : base + (rem - base % mod) = rem + mod * (base / mod) := by omega
      rw [this, Nat.add_mul_mod_self_left, Nat.mod_eq_of_lt hr]
    rw [if_pos hcong]
    exact ⟨_, rfl, hcong, by omega, by omega⟩
  · have e : ((rem + mod) - base % mod) % mod = rem + mod - base % mod :=
      Nat.mod_eq_of_lt (by omega)
    rw [e]
    have hlt : base + (rem + mod - base % mod) < 4294967296 := by omega
    rw [if_neg (by omega), Nat.mod_eq_of_lt hlt]
    have hcong : (base + (rem + mod - base % mod)) % mod = rem := by
      have : base + (rem + mod - base % mod) = rem + mod * (base / mod + 1) := by
        rw [Nat.mul_add]; omega
      rw [this, Nat.add_mul_mod_self_left, Nat.mod_eq_of_lt hr]
    rw [if_pos hcong]
    exact ⟨_, rfl, hcong, by omega, by omega⟩

/-- C08. The restriction on wrap-around is needed: incrementing 0xFFFFFFFE with serial
modulo 1/3 violates the function's own assertion. -/
theorem C08_modulo_wrap_fails :
    ∃ cur rem mod, cur < 4294967296 ∧ rem < mod ∧ 1 < mod ∧ mod < 256 ∧
      next cur cur 1 rem mod = .ub :=
  ⟨0xFFFFFFFE, 1, 3, by decide, by decide, by decide, by decide, by decide +kernel⟩

/-- C08. A modulus can push a clock-based serial past the RFC 1982 window, so that the result
is no longer newer than the current serial. -/
theorem C08_modulo_not_newer :
    ∃ cur minimum rem mod r, cur < 4294967296 ∧ minimum < 4294967296 ∧ rem < mod ∧ 1 < mod ∧
      next cur minimum 1 rem mod = .ok r ∧ ¬ SerialLt cur r := by
  refine ⟨1, 2147483648, 1, 2, 2147483648 + 1, by decide, by decide, by decide, by decide,
    by decide +kernel, ?_⟩
  unfold SerialLt; omega

/-- C08. An unknown serial compares with nothing. -/
theorem C08_kserial (a b : Option Nat) (x y : Nat) :
    kcompare a none = .ok .incomparable ∧ kcompare none b = .ok .incomparable ∧
    kcompare (some x) (some y) = serialCompare x y := by
  refine ⟨?_, rfl, rfl⟩
  cases a <;> rfl

example : SerialLt 0xFFFFFFFF 0 ∧ SerialUndefined 0 (2147483648) := by
  unfold SerialUndefined SerialLt; omega
example : next 0xFFFFFFFF 0xFFFFFFFF 1 0 1 = .ok 0 := by decide +kernel
example : baseSerial 10 5 1 + 7 ≤ 4294967296 ∧ next 10 5 1 3 7 = .ok 17 := by decide +kernel

end Knot
