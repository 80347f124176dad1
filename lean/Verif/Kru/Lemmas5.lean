import Verif.Kru.Lemmas4
/-! # Lemmas: sums, bits of prefixes, logarithms -/
namespace Knot.Kru

theorem sumBelow_step (a b : Nat) : ∀ n, sumBelow (fun r => a + (if r < b then 1 else 0)) n = n * a + min n b
  | 0 => by simp [sumBelow]
  | n + 1 => by
    rw [sumBelow, sumBelow_step a b n, Nat.succ_mul]
    split <;> omega

theorem sumBelow_congr (f f' : Nat → Nat) : ∀ n, (∀ r, r < n → f r = f' r) → sumBelow f n = sumBelow f' n
  | 0, _ => rfl
  | n + 1, h => by
    rw [sumBelow, sumBelow, sumBelow_congr f f' n (fun r hr => h r (by omega)), h n (by omega)]

/-- The bits of the mask. -/
theorem mask_bits : ∀ r, r < 8 → ∀ j, j < 8 →
    (UInt8.ofNat (0xFF00 / 2 ^ r)).toNat.testBit j = decide (8 - r ≤ j) := by decide +kernel

theorem octet_eq (x y : UInt8) : x = y ↔ ∀ i, i < 8 → x.toNat.testBit (7 - i) = y.toNat.testBit (7 - i) := by
  constructor
  · rintro rfl i _; rfl
  · intro h
    apply UInt8.toNat_inj.1
    apply Nat.eq_of_testBit_eq
    intro j
    by_cases hj : j < 8
    · have := h (7 - j) (by omega)
      rwa [show 7 - (7 - j) = j by omega] at this
    · have hx : x.toNat < 2 ^ j := Nat.lt_of_lt_of_le x.toNat_lt (Nat.pow_le_pow_right (by decide) (by omega))
      have hy : y.toNat < 2 ^ j := Nat.lt_of_lt_of_le y.toNat_lt (Nat.pow_le_pow_right (by decide) (by omega))
      rw [Nat.testBit_lt_two_pow hx, Nat.testBit_lt_two_pow hy]

theorem masked_eq (x y : UInt8) (r : Nat) (hr : r < 8) :
    x &&& UInt8.ofNat (0xFF00 / 2 ^ r) = y &&& UInt8.ofNat (0xFF00 / 2 ^ r) ↔
      ∀ i, i < r → x.toNat.testBit (7 - i) = y.toNat.testBit (7 - i) := by
  rw [octet_eq]
  constructor
  · intro h i hi
    have := h i (by omega)
    rw [UInt8.toNat_and, UInt8.toNat_and, Nat.testBit_and, Nat.testBit_and,
      mask_bits r hr _ (by omega), decide_eq_true (by omega : 8 - r ≤ 7 - i)] at this
    simpa using this
  · intro h i hi
    rw [UInt8.toNat_and, UInt8.toNat_and, Nat.testBit_and, Nat.testBit_and,
      mask_bits r hr _ (by omega)]
    by_cases hir : i < r
    · rw [h i hir]
    · rw [decide_eq_false (by omega : ¬ 8 - r ≤ 7 - i)]
      simp

theorem take_eq (a b : List UInt8) (n : Nat) (ha : n ≤ a.length) (hb : n ≤ b.length) :
    a.take n = b.take n ↔ ∀ j, j < 8 * n → bitOf a j = bitOf b j := by
  constructor
  · intro h j hj
    have : ∀ (l : List UInt8), n ≤ l.length → l.getD (j / 8) 0 = (l.take n).getD (j / 8) 0 := by
      intro l hl
      simp only [List.getD_eq_getElem?_getD]
      rw [List.getElem?_take_of_lt (by omega)]
    unfold bitOf
    rw [this a ha, this b hb, h]
  · intro h
    apply List.ext_getElem (by simp; omega)
    intro i h1 h2
    have hi : i < n := by simp at h1; omega
    rw [List.getElem_take, List.getElem_take, octet_eq]
    intro q hq
    have := h (8 * i + q) (by omega)
    unfold bitOf at this
    rw [show (8 * i + q) / 8 = i by omega, show (8 * i + q) % 8 = q by omega] at this
    simp only [List.getD_eq_getElem?_getD, List.getElem?_eq_getElem (show i < a.length by omega),
      List.getElem?_eq_getElem (show i < b.length by omega), Option.getD_some] at this
    exact this

theorem prefix_tail (a b : List UInt8) (p : Nat) :
    (if p % 8 ≠ 0 then [a.getD (p / 8) 0 &&& UInt8.ofNat (0xFF00 / 2 ^ (p % 8))] else []) =
      (if p % 8 ≠ 0 then [b.getD (p / 8) 0 &&& UInt8.ofNat (0xFF00 / 2 ^ (p % 8))] else []) ↔
    ∀ j, 8 * (p / 8) ≤ j → j < p → bitOf a j = bitOf b j := by
  by_cases h0 : p % 8 = 0
  · rw [if_neg (by simp [h0]), if_neg (by simp [h0])]
    constructor
    · intro _ j h1 h2; omega
    · intro _; rfl
  · rw [if_pos h0, if_pos h0, List.cons.injEq, masked_eq _ _ _ (Nat.mod_lt _ (by decide))]
    constructor
    · rintro ⟨h, -⟩ j h1 h2
      have := h (j % 8) (by omega)
      unfold bitOf
      rw [show j / 8 = p / 8 by omega]
      exact this
    · intro h
      refine ⟨fun i hi => ?_, rfl⟩
      have := h (8 * (p / 8) + i) (by omega) (by omega)
      unfold bitOf at this
      rw [show (8 * (p / 8) + i) / 8 = p / 8 by omega, show (8 * (p / 8) + i) % 8 = i by omega] at this
      exact this

theorem capacityLog_eq (n : Nat) : ∀ acc, capacityLog n acc = acc + n.log2 := by
  induction n using Nat.strongRecOn with
  | ind n ih =>
    intro acc
    unfold capacityLog
    split
    · rename_i h
      have : n < 2 := by omega
      have : n.log2 = 0 := by
        rcases (by omega : n = 0 ∨ n = 1) with e | e <;> subst e <;> decide
      omega
    · rename_i h
      rw [ih (n / 2) (by omega)]
      have := Nat.log2_def n
      rw [if_pos (by omega)] at this
      omega

end Knot.Kru
