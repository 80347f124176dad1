import Verif.Sockaddr.Model
import Verif.WireCtx.Model
/-!
# C30: address prefix and range matching
-/
namespace Knot
open Sockaddr
open Knot.Dname (memcmp)

namespace Sockaddr

/-! ## Specification -/

/-- Bit `i` of an address, counted from the most significant bit of the first byte. -/
def bit (raw : Bytes) (i : Nat) : Bool := ((raw.getD (i / 8) 0).toNat).testBit (7 - i % 8)

/-- The address as a number, most significant byte first. -/
def num (raw : Bytes) : Nat := raw.foldl (fun v x => v * 256 + x.toNat) 0

/-- Number of bits of an address of a family. -/
def bitLen : Fam → Nat
  | .inet => 32
  | .inet6 => 128
  | _ => 0

/-! ## Lemmas -/

theorem memcmp_eq (a b : Bytes) (h : a.length = b.length) : memcmp a b = .eq ↔ a = b := by
  induction a generalizing b with
  | nil => cases b with
    | nil => simp [memcmp]
    | cons => simp at h
  | cons x s ih =>
    cases b with
    | nil => simp at h
    | cons y t =>
      simp only [memcmp, List.cons.injEq]
      have hx := UInt8.toNat_inj (a := x) (b := y)
      simp only [List.length_cons, Nat.add_right_cancel_iff] at h
      split
      · simp; intro hc; subst hc; omega
      · split
        · simp; intro hc; subst hc; omega
        · rw [ih t h]
          have : x = y := hx.mp (by omega)
          simp [this]

theorem foldl_num (l : Bytes) (v : Nat) :
    l.foldl (fun v x => v * 256 + x.toNat) v = v * 256 ^ l.length + num l := by
  unfold num
  induction l generalizing v with
  | nil => simp
  | cons x l ih =>
    simp only [List.foldl_cons, List.length_cons]
    rw [ih, ih (0 * 256 + x.toNat)]
    simp only [Nat.zero_mul, Nat.zero_add]
    rw [Nat.pow_succ, Nat.add_mul]
    rw [show v * (256 ^ l.length * 256) = v * 256 * 256 ^ l.length by rw [Nat.mul_comm (256 ^ _) 256, ← Nat.mul_assoc]]
    omega

theorem num_cons (x : UInt8) (l : Bytes) : num (x :: l) = x.toNat * 256 ^ l.length + num l := by
  have := foldl_num l x.toNat
  simp only [num, List.foldl_cons, Nat.zero_mul, Nat.zero_add]
  exact this

theorem num_lt (l : Bytes) : num l < 256 ^ l.length := by
  induction l with
  | nil => simp [num]
  | cons x l ih =>
    rw [num_cons, List.length_cons, Nat.pow_succ]
    have hx : x.toNat < 256 := x.toNat_lt
    have h1 : x.toNat * 256 ^ l.length ≤ 255 * 256 ^ l.length := Nat.mul_le_mul_right _ (by omega)
    omega

theorem memcmp_num (a b : Bytes) (h : a.length = b.length) : memcmp a b = compare (num a) (num b) := by
  induction a generalizing b with
  | nil => cases b with
    | nil => rfl
    | cons => simp at h
  | cons x s ih =>
    cases b with
    | nil => simp at h
    | cons y t =>
      simp only [List.length_cons, Nat.add_right_cancel_iff] at h
      simp only [memcmp]
      rw [num_cons, num_cons, h]
      have ha := num_lt s
      have hb := num_lt t
      rw [h] at ha
      split
      · rename_i hlt
        symm
        rw [Nat.compare_eq_lt]
        have : (x.toNat + 1) * 256 ^ t.length ≤ y.toNat * 256 ^ t.length := Nat.mul_le_mul_right _ hlt
        rw [Nat.add_mul] at this
        omega
      · split
        · rename_i hlt
          symm
          rw [Nat.compare_eq_gt]
          have : (y.toNat + 1) * 256 ^ t.length ≤ x.toNat * 256 ^ t.length := Nat.mul_le_mul_right _ hlt
          rw [Nat.add_mul] at this
          omega
        · have : x.toNat = y.toNat := by omega
          rw [this, ih t h]
          simp only [Nat.compare_eq_ite_lt, Nat.add_lt_add_iff_left]

theorem sign_compare (m n : Nat) :
    (sign (compare m n) ≥ 0 ↔ n ≤ m) ∧ (sign (compare m n) ≤ 0 ↔ m ≤ n) ∧ (sign (compare m n) = 0 ↔ m = n) := by
  rcases Nat.lt_trichotomy m n with h | h | h
  · rw [Nat.compare_eq_lt.mpr h]; simp [sign]; omega
  · subst h; rw [Nat.compare_eq_eq.mpr rfl]; simp [sign]
  · rw [Nat.compare_eq_gt.mpr h]; simp [sign]; omega

theorem num_inj (a b : Bytes) (h : a.length = b.length) : num a = num b ↔ a = b := by
  rw [← memcmp_eq a b h, memcmp_num a b h, Nat.compare_eq_eq]

/-- The bits of one byte above a bit position. -/
theorem shift_eq (x y k : Nat) (hx : x < 256) (hy : y < 256) (hk : k ≤ 8) :
    (x >>> (8 - k) = y >>> (8 - k)) ↔ ∀ j < k, x.testBit (7 - j) = y.testBit (7 - j) := by
  constructor
  · intro h j hj
    have := congrArg (fun v => v.testBit (7 - j - (8 - k))) h
    simp only [Nat.testBit_shiftRight] at this
    rwa [show 8 - k + (7 - j - (8 - k)) = 7 - j by omega] at this
  · intro h
    apply Nat.eq_of_testBit_eq
    intro i
    simp only [Nat.testBit_shiftRight]
    by_cases hi : 8 - k + i < 8
    · have := h (7 - (8 - k + i)) (by omega)
      rwa [show 7 - (7 - (8 - k + i)) = 8 - k + i by omega] at this
    · have p1 : x < 2 ^ (8 - k + i) := Nat.lt_of_lt_of_le (by omega : x < 2 ^ 8) (Nat.pow_le_pow_right (by omega) (by omega))
      have p2 : y < 2 ^ (8 - k + i) := Nat.lt_of_lt_of_le (by omega : y < 2 ^ 8) (Nat.pow_le_pow_right (by omega) (by omega))
      rw [Nat.testBit_lt_two_pow p1, Nat.testBit_lt_two_pow p2]

theorem byte_bits (x y : UInt8) : x = y ↔ ∀ j < 8, x.toNat.testBit (7 - j) = y.toNat.testBit (7 - j) := by
  have := shift_eq x.toNat y.toNat 8 x.toNat_lt y.toNat_lt (by omega)
  rw [← this]
  simp [UInt8.toNat_inj]

theorem take_bits (a b : Bytes) (n : Nat) (ha : n ≤ a.length) (hb : n ≤ b.length) :
    a.take n = b.take n ↔ ∀ i < 8 * n, bit a i = bit b i := by
  induction n with
  | zero => simp
  | succ n ih =>
    have ga : a.take (n + 1) = a.take n ++ [a.getD n 0] := by
      rw [List.take_add_one, List.getElem?_eq_getElem (by omega)]
      simp [List.getD, List.getElem?_eq_getElem (show n < a.length by omega)]
    have gb : b.take (n + 1) = b.take n ++ [b.getD n 0] := by
      rw [List.take_add_one, List.getElem?_eq_getElem (by omega)]
      simp [List.getD, List.getElem?_eq_getElem (show n < b.length by omega)]
    have hinj : (a.take n ++ [a.getD n 0] = b.take n ++ [b.getD n 0]) ↔ (a.take n = b.take n ∧ [a.getD n 0] = [b.getD n 0]) :=
      ⟨fun h => List.append_inj h (by simp; omega), fun h => by rw [h.1, h.2]⟩
    rw [ga, gb, hinj, ih (by omega) (by omega)]
    · simp only [List.cons.injEq, and_true, byte_bits]
      constructor
      · rintro ⟨h1, h2⟩ i hi
        by_cases hlt : i < 8 * n
        · exact h1 i hlt
        · have := h2 (i % 8) (by omega)
          unfold bit
          rw [show i / 8 = n by omega]
          exact this
      · intro h
        refine ⟨fun i hi => h i (by omega), ?_⟩
        intro j hj
        have := h (8 * n + j) (by omega)
        unfold bit at this
        rwa [show (8 * n + j) / 8 = n by omega, show (8 * n + j) % 8 = j by omega] at this

end Sockaddr

/-- C30. Prefix match: for all addresses and all prefix lengths, no access outside the addresses, and
the result is true iff the families are equal and the first `min(prefix, width)` bits are equal (for
UNIX sockets, iff the paths are equal). -/
theorem C30_net_match (a b : Addr) (ha : a.WF) (hb : b.WF) (p : Nat) :
    ∃ r, netMatch a b p = .ok r ∧
      (r = true ↔ a.fam = b.fam ∧ (if a.fam = .unix then a.raw = b.raw
        else ∀ i < min p (bitLen a.fam), bit a.raw i = bit b.raw i)) := by
  unfold netMatch
  by_cases hf : a.fam = b.fam
  · rw [if_neg (by simp [hf])]
    by_cases hu : a.fam = .unix
    · rw [if_pos hu]
      exact ⟨_, rfl, by simp [hf, hu]; rw [← hf, hu]; simp⟩
    · rw [if_neg hu]
      have key : ∃ L, (if a.fam = .inet then 4 else if a.fam = .inet6 then 16 else 0) = L ∧
          bitLen a.fam = L * 8 ∧ L ≤ a.raw.length ∧ L ≤ b.raw.length := by
        refine ⟨_, rfl, ?_⟩
        unfold Addr.WF at ha hb
        rw [← hf] at hb
        cases hc : a.fam <;> simp [hc, bitLen] at ha hb ⊢ <;> omega
      obtain ⟨L, e1, e2, e3, e4⟩ := key
      simp only [e1, e2, hu, if_false, ← hf, true_and]
      have hq : min p (L * 8) ≤ L * 8 := Nat.min_le_right _ _
      generalize hqq : min p (L * 8) = q at *
      rw [if_neg (by omega)]
      have hlen : (a.raw.take (q / 8)).length = (b.raw.take (q / 8)).length := by simp; omega
      have hm := memcmp_eq _ _ hlen
      have ht := take_bits a.raw b.raw (q / 8) (by omega) (by omega)
      by_cases hcmp : memcmp (a.raw.take (q / 8)) (b.raw.take (q / 8)) = .eq
      · rw [if_neg (by simp [hcmp])]
        have hpre := ht.mp (hm.mp hcmp)
        by_cases hb0 : q % 8 = 0
        · rw [if_pos hb0]
          exact ⟨true, rfl, by simp; intro i hi; exact hpre i (by omega)⟩
        · rw [if_neg hb0]
          have hla : q / 8 < a.raw.length := by omega
          have hlb : q / 8 < b.raw.length := by omega
          simp only [Res.rd, List.getElem?_eq_getElem hla, List.getElem?_eq_getElem hlb, Res.bind_ok, Res.pure_eq]
          refine ⟨_, rfl, ?_⟩
          rw [beq_iff_eq, shift_eq _ _ _ (UInt8.toNat_lt _) (UInt8.toNat_lt _) (by omega)]
          constructor
          · intro h i hi
            by_cases hlt : i < 8 * (q / 8)
            · exact hpre i hlt
            · have := h (i % 8) (by omega)
              unfold bit
              rw [show i / 8 = q / 8 by omega]
              simp only [List.getD, List.getElem?_eq_getElem hla, List.getElem?_eq_getElem hlb, Option.getD_some]
              exact this
          · intro h j hj
            have := h (8 * (q / 8) + j) (by omega)
            unfold bit at this
            rw [show (8 * (q / 8) + j) / 8 = q / 8 by omega, show (8 * (q / 8) + j) % 8 = j by omega] at this
            simpa only [List.getD, List.getElem?_eq_getElem hla, List.getElem?_eq_getElem hlb, Option.getD_some] using this
      · rw [if_pos hcmp]
        refine ⟨false, rfl, ?_⟩
        simp only [Bool.false_eq_true, false_iff]
        intro h
        exact hcmp (hm.mpr (ht.mpr (fun i hi => h i (by omega))))
  · rw [if_pos hf]
    exact ⟨false, rfl, by simp [hf]⟩

/-- C30. Comparison without ports: zero exactly for the same family and the same address (families
known to the code). -/
theorem C30_cmp_eq (le : Bool) (a b : Addr) (ha : a.WF) (hb : b.WF) (hn : a.fam ≠ .unspec) (ho : a.fam ≠ .other) :
    cmp le a b true = 0 ↔ a.fam = b.fam ∧ a.raw = b.raw := by
  unfold cmp
  by_cases hf : a.fam = b.fam
  · rw [if_neg (by simp [hf])]
    unfold Addr.WF at ha hb
    rw [← hf] at hb
    cases hc : a.fam with
    | unspec => exact absurd hc hn
    | other => exact absurd hc ho
    | inet =>
      simp only [hc] at ha hb
      simp only [cmpIpv4, ← hf, hc, true_and, if_true]
      have : hostInt le a.raw = hostInt le b.raw ↔ a.raw = b.raw := by
        cases le
        · exact num_inj a.raw b.raw (by omega)
        · have := num_inj a.raw.reverse b.raw.reverse (by simp; omega)
          rw [List.reverse_inj] at this
          exact this
      rw [← this]
      split
      · simp; omega
      · split
        · simp; omega
        · simp; omega
    | inet6 =>
      simp only [hc] at ha hb
      simp only [cmpIpv6, ← hf, hc, true_and, if_true]
      rw [memcmp_num _ _ (by omega)]
      have := (sign_compare (num a.raw) (num b.raw)).2.2
      rw [num_inj _ _ (by omega)] at this
      split
      · simpa using this.mp ‹_›
      · constructor
        · intro h; exact absurd h ‹_›
        · intro h; exact absurd (this.mpr h) ‹_›
    | unix =>
      simp only [cmpUnix, ← hf, hc, true_and]
      have h1 : ∀ o : Ordering, sign o = 0 ↔ o = .eq := by intro o; cases o <;> simp [sign]
      have hl : (if a.raw.length ≤ b.raw.length then a.raw.length else b.raw.length) = min a.raw.length b.raw.length := by
        split <;> omega
      rw [hl]
      simp only [h1, memcmp_eq (a.raw.take (min a.raw.length b.raw.length)) (b.raw.take (min a.raw.length b.raw.length)) (by simp)]
      constructor
      · intro h
        split at h
        · rename_i he
          have hlen : a.raw.length = b.raw.length := by omega
          rw [hlen, Nat.min_self, ← hlen] at he
          rw [List.take_length] at he
          rw [he, hlen, List.take_length]
        · rename_i he
          rw [h1, memcmp_eq _ _ (by simp)] at h
          exact absurd h he
      · intro h
        rw [if_pos (by rw [h]), h]
        simp
  · rw [if_pos hf]
    simp only [hf, false_and, iff_false]
    revert hf
    cases a.fam <;> cases b.fam <;> simp [Fam.num]

/-- The full claim about ranges for a host of a given byte order. -/
def Sockaddr.RangeClaim (le : Bool) : Prop :=
  ∀ a lo hi : Addr, a.WF → lo.WF → hi.WF → (a.fam = .inet ∨ a.fam = .inet6) →
    (rangeMatch le a lo hi = true ↔
      lo.fam = a.fam ∧ hi.fam = a.fam ∧ num lo.raw ≤ num a.raw ∧ num a.raw ≤ num hi.raw)

theorem Sockaddr.range_v6 (le : Bool) (a lo hi : Addr) (ha : a.WF) (hl : lo.WF) (hh : hi.WF) (h6 : a.fam = .inet6) :
    (rangeMatch le a lo hi = true ↔
      lo.fam = a.fam ∧ hi.fam = a.fam ∧ num lo.raw ≤ num a.raw ∧ num a.raw ≤ num hi.raw) := by
  unfold rangeMatch
  by_cases hf : lo.fam = a.fam ∧ hi.fam = a.fam
  · obtain ⟨f1, f2⟩ := hf
    rw [if_neg (by simp [f1, f2, h6])]
    unfold Addr.WF at ha hl hh
    rw [f1, h6] at hl
    rw [f2, h6] at hh
    simp only [h6] at ha hl hh
    simp only [f1, f2, true_and, cmp, ne_eq, not_true_eq_false, if_false, h6, cmpIpv6, if_true]
    rw [memcmp_num _ _ (by omega), memcmp_num _ _ (by omega)]
    have s1 := sign_compare (num a.raw) (num lo.raw)
    have s2 := sign_compare (num a.raw) (num hi.raw)
    rw [Bool.and_eq_true, decide_eq_true_eq, decide_eq_true_eq]
    have z : ∀ x : Int, (if x = 0 then 0 else x) = x := by intro x; split <;> omega
    rw [z, z, s1.1, s2.2.1]
  · rw [if_pos]
    · simp only [Bool.false_eq_true, false_iff]
      rintro ⟨f1, f2, _⟩
      exact hf ⟨f1, f2⟩
    · by_cases f1 : lo.fam = a.fam
      · left; intro hc; exact hf ⟨f1, by rw [← hc, f1]⟩
      · right; left; exact f1

/-- C30. IPv6 ranges, on every host: true iff the address lies between the bounds as a number. -/
theorem C30_range_v6 (le : Bool) (a lo hi : Addr) (ha : a.WF) (hl : lo.WF) (hh : hi.WF) (h6 : a.fam = .inet6) :
    (rangeMatch le a lo hi = true ↔
      lo.fam = a.fam ∧ hi.fam = a.fam ∧ num lo.raw ≤ num a.raw ∧ num a.raw ≤ num hi.raw) :=
  range_v6 le a lo hi ha hl hh h6

/-- What the code computes for IPv4: the order of the integers the host reads. -/
theorem Sockaddr.range_v4 (le : Bool) (a lo hi : Addr) (h4 : a.fam = .inet) :
    (rangeMatch le a lo hi = true ↔
      lo.fam = a.fam ∧ hi.fam = a.fam ∧ hostInt le lo.raw ≤ hostInt le a.raw ∧ hostInt le a.raw ≤ hostInt le hi.raw) := by
  unfold rangeMatch
  by_cases hf : lo.fam = a.fam ∧ hi.fam = a.fam
  · obtain ⟨f1, f2⟩ := hf
    rw [if_neg (by simp [f1, f2, h4])]
    simp only [f1, f2, true_and, cmp, ne_eq, not_true_eq_false, if_false, h4, cmpIpv4, if_true]
    rw [Bool.and_eq_true, decide_eq_true_eq, decide_eq_true_eq]
    constructor
    · rintro ⟨g1, g2⟩
      constructor
      · split at g1 <;> omega
      · split at g2
        · omega
        · split at g2 <;> omega
    · rintro ⟨g1, g2⟩
      constructor
      · rw [if_neg (by omega)]; split <;> omega
      · split
        · omega
        · rw [if_neg (by omega)]; omega
  · rw [if_pos]
    · simp only [Bool.false_eq_true, false_iff]
      rintro ⟨f1, f2, _⟩
      exact hf ⟨f1, f2⟩
    · by_cases f1 : lo.fam = a.fam
      · left; intro hc; exact hf ⟨f1, by rw [← hc, f1]⟩
      · right; left; exact f1

/-- C30. On a big-endian host the claim about ranges holds for all addresses. -/
theorem C30_range_big_endian : RangeClaim false := by
  intro a lo hi ha hl hh hf
  rcases hf with h4 | h6
  · exact range_v4 false a lo hi h4
  · exact range_v6 false a lo hi ha hl hh h6

/-- C30. On a little-endian host the claim is false: the range 10.0.0.0-10.1.0.255 contains neither the
address 10.0.255.7 nor excludes 99.99.99.100. -/
theorem C30_range_little_endian_fails : ¬ RangeClaim true ∧
    rangeMatch true ⟨.inet, [99, 99, 99, 100], 0⟩ ⟨.inet, [10, 0, 0, 0], 0⟩ ⟨.inet, [10, 1, 0, 255], 0⟩ = true ∧
    rangeMatch true ⟨.inet, [10, 0, 0, 7], 0⟩ ⟨.inet, [10, 0, 0, 1], 0⟩ ⟨.inet, [10, 0, 1, 0], 0⟩ = false := by
  refine ⟨?_, by decide, by decide⟩
  intro h
  have := h ⟨.inet, [99, 99, 99, 100], 0⟩ ⟨.inet, [10, 0, 0, 0], 0⟩ ⟨.inet, [10, 1, 0, 255], 0⟩
    (by decide) (by decide) (by decide) (by decide)
  revert this
  decide

/-- C30, partial: on a little-endian host IPv4 ranges are right if the address and both bounds agree
in the first three bytes. Missing: every other IPv4 range. -/
theorem C30_range_little_endian_partial (a lo hi : Addr) (x y z p q r : UInt8)
    (h4 : a.fam = .inet) (f1 : lo.fam = .inet) (f2 : hi.fam = .inet)
    (ha : a.raw = [x, y, z, p]) (hl : lo.raw = [x, y, z, q]) (hh : hi.raw = [x, y, z, r]) :
    (rangeMatch true a lo hi = true ↔ num lo.raw ≤ num a.raw ∧ num a.raw ≤ num hi.raw) := by
  rw [range_v4 true a lo hi h4, h4, f1, f2, ha, hl, hh]
  simp only [hostInt, num, if_true, true_and]
  simp only [List.reverse_cons, List.reverse_nil, List.nil_append, List.cons_append, List.foldl_cons,
    List.foldl_nil]
  omega

/-- C30. `sockaddr_is_any`: true iff the address is the all-zero IPv4 or IPv6 address. -/
theorem C30_is_any (a : Addr) (ha : a.WF) :
    isAny a = true ↔ (a.fam = .inet ∨ a.fam = .inet6) ∧ ∀ x ∈ a.raw, x = 0 := by
  unfold isAny
  unfold Addr.WF at ha
  cases hc : a.fam <;> simp only [hc] at ha ⊢ <;> simp
  · have h0 : hostInt false a.raw = num a.raw := rfl
    have h1 : num [0, 0, 0, 0] = 0 := rfl
    rw [h0, ← h1, num_inj _ _ (by simp [ha])]
    constructor
    · intro h; rw [h]; simp
    · intro h
      exact List.eq_replicate_iff.mpr ⟨ha, h⟩
  · rw [memcmp_eq _ _ (by simp [ha])]
    constructor
    · intro h; rw [h]; simp
    · intro h
      exact List.eq_replicate_iff.mpr ⟨ha, h⟩

example : (⟨.inet, [10, 0, 0, 7], 53⟩ : Addr).WF := by decide
example : netMatch ⟨.inet, [10, 1, 2, 3], 0⟩ ⟨.inet, [10, 1, 3, 3], 0⟩ 23 = .ok true := by decide +kernel
example : netMatch ⟨.inet, [10, 1, 2, 3], 0⟩ ⟨.inet, [10, 1, 3, 3], 0⟩ 24 = .ok false := by decide +kernel

end Knot
