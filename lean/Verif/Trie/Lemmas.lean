import Verif.Trie.Model
import Verif.Trie.Spec
/-! Lemmas about nibbles, bitmaps and the order of keys. -/
namespace Knot.Trie
variable {V : Type}

/-! ## Nibbles -/

theorem keybit_le (i : Nat) (k : Key) : keybit i k ≤ 16 := by
  unfold keybit
  split
  · omega
  · rename_i b _
    have := b.toNat_lt
    split <;> omega

theorem keybit_nil (i : Nat) : keybit i [] = 0 := by simp [keybit]
theorem keybit_cons_0 (a : UInt8) (k : Key) : keybit 0 (a :: k) = a.toNat / 16 + 1 := by simp [keybit]
theorem keybit_cons_1 (a : UInt8) (k : Key) : keybit 1 (a :: k) = a.toNat % 16 + 1 := by simp [keybit]
theorem keybit_cons (a : UInt8) (k : Key) (i : Nat) : keybit (i + 2) (a :: k) = keybit i k := by
  unfold keybit
  have : (i + 2) / 2 = i / 2 + 1 := by omega
  rw [this, List.getElem?_cons_succ]
  have : (i + 2) % 2 = i % 2 := by omega
  rw [this]

theorem keybit_eq_zero (i : Nat) (k : Key) : keybit i k = 0 ↔ k.length ≤ i / 2 := by
  unfold keybit
  split
  · rename_i h; simp at h; simp [h]
  · rename_i h
    have := (List.getElem?_eq_some_iff.mp h).1
    constructor
    · intro h; omega
    · intro h; omega

/-- All nibbles equal: the same key. -/
theorem key_ext (a b : Key) (h : ∀ j, keybit j a = keybit j b) : a = b := by
  induction a generalizing b with
  | nil =>
    cases b with
    | nil => rfl
    | cons y t => have := h 0; rw [keybit_nil, keybit_cons_0] at this; omega
  | cons x s ih =>
    cases b with
    | nil => have := h 0; rw [keybit_nil, keybit_cons_0] at this; omega
    | cons y t =>
      have h0 := h 0
      have h1 := h 1
      rw [keybit_cons_0, keybit_cons_0] at h0
      rw [keybit_cons_1, keybit_cons_1] at h1
      have hxy : x = y := UInt8.toNat_inj.mp (by omega)
      rw [hxy, ih t (fun j => by have := h (j + 2); rwa [keybit_cons, keybit_cons] at this)]

/-- Order of the nibble sequences. -/
def KLt (a b : Key) : Prop := ∃ i, (∀ j, j < i → keybit j a = keybit j b) ∧ keybit i a < keybit i b

theorem KLt_irrefl (a : Key) : ¬ KLt a a := fun ⟨_, _, h⟩ => Nat.lt_irrefl _ h

theorem KLt_trans {a b c : Key} (h : KLt a b) (h' : KLt b c) : KLt a c := by
  obtain ⟨i, hi, hl⟩ := h
  obtain ⟨i', hi', hl'⟩ := h'
  rcases Nat.lt_trichotomy i i' with c | c | c
  · exact ⟨i, fun j hj => by rw [hi j hj, hi' j (by omega)], by rw [← hi' i c]; exact hl⟩
  · subst c; exact ⟨i, fun j hj => by rw [hi j hj, hi' j hj], by omega⟩
  · exact ⟨i', fun j hj => by rw [hi j (by omega), hi' j hj], by rw [hi i' c]; exact hl'⟩

theorem KLt_asymm {a b : Key} (h : KLt a b) (h' : KLt b a) : False := KLt_irrefl a (KLt_trans h h')

theorem KLt_cons (x : UInt8) (s t : Key) : KLt (x :: s) (x :: t) ↔ KLt s t := by
  constructor
  · rintro ⟨i, hi, hl⟩
    match i with
    | 0 => rw [keybit_cons_0, keybit_cons_0] at hl; omega
    | 1 => rw [keybit_cons_1, keybit_cons_1] at hl; omega
    | i + 2 =>
      refine ⟨i, fun j hj => ?_, by rwa [keybit_cons, keybit_cons] at hl⟩
      have := hi (j + 2) (by omega)
      rwa [keybit_cons, keybit_cons] at this
  · rintro ⟨i, hi, hl⟩
    refine ⟨i + 2, fun j hj => ?_, by rwa [keybit_cons, keybit_cons]⟩
    match j with
    | 0 => rw [keybit_cons_0, keybit_cons_0]
    | 1 => rw [keybit_cons_1, keybit_cons_1]
    | j + 2 => rw [keybit_cons, keybit_cons]; exact hi j (by omega)

theorem KLt_byte (x y : UInt8) (s t : Key) (h : x.toNat < y.toNat) : KLt (x :: s) (y :: t) := by
  have h1 := x.toNat_lt
  have h2 := y.toNat_lt
  by_cases hc : x.toNat / 16 < y.toNat / 16
  · exact ⟨0, by simp, by rw [keybit_cons_0, keybit_cons_0]; omega⟩
  · refine ⟨1, fun j hj => ?_, by rw [keybit_cons_1, keybit_cons_1]; omega⟩
    have : j = 0 := by omega
    subst this
    rw [keybit_cons_0, keybit_cons_0]; omega

/-- The nibble order is the byte order of the specification. -/
theorem KLt_iff (a b : Key) : KLt a b ↔ OrdMap.keyLt a b := by
  unfold OrdMap.keyLt
  induction a generalizing b with
  | nil =>
    cases b with
    | nil => simp [Dname.lexCmp, KLt_irrefl]
    | cons y t =>
      simp only [Dname.lexCmp, iff_true]
      exact ⟨0, by simp, by rw [keybit_nil, keybit_cons_0]; omega⟩
  | cons x s ih =>
    cases b with
    | nil =>
      simp only [Dname.lexCmp, reduceCtorEq, iff_false]
      rintro ⟨i, _, h⟩
      rw [keybit_nil] at h; omega
    | cons y t =>
      simp only [Dname.lexCmp]
      rcases Nat.lt_trichotomy x.toNat y.toNat with c | c | c
      · have : Dname.byteCmp x y = .lt := Nat.compare_eq_lt.mpr c
        simp [this, KLt_byte x y s t c]
      · have : Dname.byteCmp x y = .eq := Nat.compare_eq_eq.mpr c
        rw [this, UInt8.toNat_inj.mp c, KLt_cons]
        exact ih t
      · have : Dname.byteCmp x y = .gt := Nat.compare_eq_gt.mpr c
        simp only [this, reduceCtorEq, iff_false]
        exact fun h => KLt_asymm h (KLt_byte y x t s c)

theorem KLt_total (a b : Key) : KLt a b ∨ a = b ∨ KLt b a := by
  induction a generalizing b with
  | nil =>
    cases b with
    | nil => exact .inr (.inl rfl)
    | cons y t => exact .inl ⟨0, by simp, by rw [keybit_nil, keybit_cons_0]; omega⟩
  | cons x s ih =>
    cases b with
    | nil => exact .inr (.inr ⟨0, by simp, by rw [keybit_nil, keybit_cons_0]; omega⟩)
    | cons y t =>
      rcases Nat.lt_trichotomy x.toNat y.toNat with c | c | c
      · exact .inl (KLt_byte x y s t c)
      · rw [UInt8.toNat_inj.mp c]
        rcases ih t with h | h | h
        · exact .inl ((KLt_cons y s t).mpr h)
        · exact .inr (.inl (by rw [h]))
        · exact .inr (.inr ((KLt_cons y t s).mpr h))
      · exact .inr (.inr (KLt_byte y x t s c))

/-! ## The first difference -/

theorem bytei_cons (x : UInt8) (s t : Key) : bytei (x :: s) (x :: t) = bytei s t + 1 := by simp [bytei]

theorem diffIndex_cons (x : UInt8) (s t : Key) : diffIndex (x :: s) (x :: t) = (diffIndex s t).map (· + 2) := by
  simp only [diffIndex, bytei_cons, List.length_cons, List.getElem?_cons_succ, Nat.add_right_cancel_iff, Nat.add_lt_add_iff_right]
  split
  · rfl
  · split
    · generalize s[bytei s t]? = a
      generalize t[bytei s t]? = b
      cases a <;> cases b <;> simp
      · omega
      · omega
      · omega
      · split <;> omega
    · simp; omega

theorem xor_hi : ∀ x y : UInt8, ((((x ^^^ y) &&& 0xf0) == 0) = decide (x.toNat / 16 = y.toNat / 16)) := by
  intro x y
  have h : ((x ^^^ y) &&& 0xf0) = 0 ↔ x.toNat / 16 = y.toNat / 16 := by
    rw [← UInt8.toNat_inj]
    simp only [UInt8.toNat_and, UInt8.toNat_xor, UInt8.reduceToNat]
    have h1 := x.toNat_lt
    have h2 := y.toNat_lt
    have hs : ∀ n : Nat, n / 16 = n >>> 4 := by intro n; simp [Nat.shiftRight_eq_div_pow]
    rw [hs, hs]
    constructor
    · intro h
      apply Nat.eq_of_testBit_eq
      intro i
      rw [Nat.testBit_shiftRight, Nat.testBit_shiftRight]
      have hb := congrArg (Nat.testBit · (4 + i)) h
      simp only [Nat.testBit_and, Nat.testBit_xor, Nat.zero_testBit] at hb
      by_cases hi : i < 4
      · have hm : (240 : Nat).testBit (4 + i) = true := by
          match i, hi with
          | 0, _ => decide
          | 1, _ => decide
          | 2, _ => decide
          | 3, _ => decide
        rw [hm, Bool.and_true] at hb
        simpa using hb
      · have p : ∀ n, n < 256 → n.testBit (4 + i) = false := by
          intro n hn
          apply Nat.testBit_lt_two_pow
          exact Nat.lt_of_lt_of_le hn (by
            calc 256 = 2 ^ 8 := by decide
              _ ≤ 2 ^ (4 + i) := Nat.pow_le_pow_right (by omega) (by omega))
        rw [p _ h1, p _ h2]
    · intro h
      apply Nat.eq_of_testBit_eq
      intro i
      simp only [Nat.testBit_and, Nat.testBit_xor, Nat.zero_testBit]
      by_cases hi : i < 4
      · have hm : (240 : Nat).testBit i = false := by
          match i, hi with
          | 0, _ => decide
          | 1, _ => decide
          | 2, _ => decide
          | 3, _ => decide
        rw [hm, Bool.and_false]
      · have hb := congrArg (Nat.testBit · (i - 4)) h
        simp only [Nat.testBit_shiftRight] at hb
        have : 4 + (i - 4) = i := by omega
        rw [this] at hb
        rw [hb]; simp
  by_cases hc : x.toNat / 16 = y.toNat / 16
  · simp [hc, h.mpr hc]
  · simp only [hc, decide_false, beq_eq_false_iff_ne, ne_eq]
    exact fun h' => hc (h.mp h')

theorem diffIndex_spec (a b : Key) :
    (diffIndex a b = none ∧ a = b) ∨
    ∃ i, diffIndex a b = some i ∧ (∀ j, j < i → keybit j a = keybit j b) ∧ keybit i a ≠ keybit i b := by
  induction a generalizing b with
  | nil =>
    cases b with
    | nil => left; simp [diffIndex, bytei]
    | cons y t =>
      right
      refine ⟨0, by simp [diffIndex, bytei], by simp, ?_⟩
      rw [keybit_nil, keybit_cons_0]; omega
  | cons x s ih =>
    cases b with
    | nil =>
      right
      refine ⟨0, by simp [diffIndex, bytei], by simp, ?_⟩
      rw [keybit_nil, keybit_cons_0]; omega
    | cons y t =>
      by_cases hxy : x = y
      · subst hxy
        rw [diffIndex_cons]
        rcases ih t with ⟨h1, h2⟩ | ⟨i, h1, h2, h3⟩
        · left; subst h2; simp [h1]
        · right
          refine ⟨i + 2, by simp [h1], ?_, by rwa [keybit_cons, keybit_cons]⟩
          intro j hj
          match j with
          | 0 => rw [keybit_cons_0, keybit_cons_0]
          | 1 => rw [keybit_cons_1, keybit_cons_1]
          | j + 2 => rw [keybit_cons, keybit_cons]; exact h2 j (by omega)
      · right
        have hne : x.toNat ≠ y.toNat := fun h => hxy (UInt8.toNat_inj.mp h)
        have hb : bytei (x :: s) (y :: t) = 0 := by simp [bytei, hxy]
        have hd : diffIndex (x :: s) (y :: t) = some (if x.toNat / 16 = y.toNat / 16 then 1 else 0) := by
          unfold diffIndex
          simp only [hb, List.length_cons, List.getElem?_cons_zero]
          rw [if_neg (by omega), if_pos (by omega), xor_hi]
          simp
        by_cases hc : x.toNat / 16 = y.toNat / 16
        · refine ⟨1, by rw [hd, if_pos hc], ?_, by rw [keybit_cons_1, keybit_cons_1]; omega⟩
          intro j hj
          have : j = 0 := by omega
          subst this
          rw [keybit_cons_0, keybit_cons_0]; omega
        · exact ⟨0, by rw [hd, if_neg hc], by simp, by rw [keybit_cons_0, keybit_cons_0]; omega⟩

/-! ## Bitmaps -/

/-- The positions of the bits set, ascending. -/
def bits (bmp : Nat) : List Nat := (List.range 17).filter bmp.testBit

theorem bits_length (bmp : Nat) : (bits bmp).length = branchWeight bmp := rfl

theorem mem_bits (bmp b : Nat) : b ∈ bits bmp ↔ b < 17 ∧ bmp.testBit b = true := by
  simp [bits]

theorem range_split (b : Nat) (h : b < 17) : List.range 17 = List.range b ++ b :: List.range' (b + 1) (16 - b) := by
  have h1 : List.range 17 = List.range (b + (17 - b)) := by congr 1; omega
  rw [h1, List.range_add]
  congr 1
  rw [List.range_eq_range', List.map_add_range']
  have : 17 - b = (16 - b) + 1 := by omega
  rw [this, List.range'_succ]
  rfl

theorem bits_split (bmp b : Nat) (h : b < 17) : bits bmp = (List.range b).filter bmp.testBit ++
    (if bmp.testBit b then [b] else []) ++ (List.range' (b + 1) (16 - b)).filter bmp.testBit := by
  unfold bits
  rw [range_split b h, List.filter_append, List.filter_cons]
  split <;> simp

theorem bits_get_of (bmp b : Nat) (h : b < 17) (hb : bmp.testBit b = true) : (bits bmp)[twigoff bmp b]? = some b := by
  rw [bits_split bmp b h, if_pos hb]
  unfold twigoff
  simp

theorem twigoff_lt_of (bmp b : Nat) (h : b < 17) (hb : bmp.testBit b = true) : twigoff bmp b < branchWeight bmp := by
  have := bits_get_of bmp b h hb
  rw [← bits_length]
  exact (List.getElem?_eq_some_iff.mp this).1

theorem bits_sorted (bmp : Nat) : (bits bmp).Pairwise (· < ·) := List.Pairwise.filter _ List.pairwise_lt_range

theorem bits_lt (bmp m n a b : Nat) (hmn : m < n) (ha : (bits bmp)[m]? = some a) (hb : (bits bmp)[n]? = some b) : a < b := by
  obtain ⟨h1, rfl⟩ := List.getElem?_eq_some_iff.mp ha
  obtain ⟨h2, rfl⟩ := List.getElem?_eq_some_iff.mp hb
  exact List.pairwise_iff_getElem.mp (bits_sorted bmp) m n h1 h2 hmn

/-- The child number of a bit. -/
theorem twigoff_of_bits (bmp n b : Nat) (h : (bits bmp)[n]? = some b) : b < 17 ∧ bmp.testBit b = true ∧ twigoff bmp b = n := by
  have hm := (mem_bits bmp b).mp (List.mem_of_getElem? h)
  refine ⟨hm.1, hm.2, ?_⟩
  have h2 := bits_get_of bmp b hm.1 hm.2
  rcases Nat.lt_trichotomy (twigoff bmp b) n with c | c | c
  · have := bits_lt bmp _ _ _ _ c h2 h; omega
  · exact c
  · have := bits_lt bmp _ _ _ _ c h h2; omega

/-- Children before and after the place of a missing bit. -/
theorem bits_missing (bmp b n c : Nat) (h : b < 17) (hb : bmp.testBit b = false) (hc : (bits bmp)[n]? = some c) :
    (n < twigoff bmp b → c < b) ∧ (twigoff bmp b ≤ n → b < c) := by
  rw [bits_split bmp b h, if_neg (by simp [hb])] at hc
  simp only [List.append_nil] at hc
  unfold twigoff
  constructor
  · intro hn
    rw [List.getElem?_append_left hn] at hc
    have := List.mem_of_getElem? hc
    simp at this
    exact this.1
  · intro hn
    rw [List.getElem?_append_right hn] at hc
    have := List.mem_of_getElem? hc
    simp only [List.mem_filter, List.mem_range'_1] at this
    omega

theorem twigoff_le (bmp b : Nat) (h : b < 17) (hb : bmp.testBit b = false) : twigoff bmp b ≤ branchWeight bmp := by
  rw [← bits_length, bits_split bmp b h, if_neg (by simp [hb])]
  unfold twigoff
  simp

theorem testBit_setbit (bmp b i : Nat) : (bmp ||| 2 ^ b).testBit i = (bmp.testBit i || decide (i = b)) := by
  rw [Nat.testBit_or, Nat.testBit_two_pow]
  congr 1
  simp [eq_comm]

theorem testBit_clrbit (bmp b i : Nat) : (bmp ^^^ (bmp &&& 2 ^ b)).testBit i = (bmp.testBit i && !decide (i = b)) := by
  rw [Nat.testBit_xor, Nat.testBit_and, Nat.testBit_two_pow]
  by_cases h : b = i
  · simp [h]
  · have : ¬ i = b := fun h' => h h'.symm
    simp [h, this]

theorem filter_setbit (bmp b : Nat) (l : List Nat) (h : b ∉ l) : l.filter (bmp ||| 2 ^ b).testBit = l.filter bmp.testBit := by
  apply List.filter_congr
  intro x hx
  rw [testBit_setbit]
  have : x ≠ b := fun h' => h (h' ▸ hx)
  simp [this]

theorem filter_clrbit (bmp b : Nat) (l : List Nat) (h : b ∉ l) :
    l.filter (bmp ^^^ (bmp &&& 2 ^ b)).testBit = l.filter bmp.testBit := by
  apply List.filter_congr
  intro x hx
  rw [testBit_clrbit]
  have : x ≠ b := fun h' => h (h' ▸ hx)
  simp [this]

theorem bits_set (bmp b : Nat) (h : b < 17) (hb : bmp.testBit b = false) :
    bits (bmp ||| 2 ^ b) = (bits bmp).take (twigoff bmp b) ++ b :: (bits bmp).drop (twigoff bmp b) := by
  have hsplit := bits_split bmp b h
  rw [if_neg (by simp [hb])] at hsplit
  simp only [List.append_nil] at hsplit
  rw [bits_split (bmp ||| 2 ^ b) b h, if_pos (by rw [testBit_setbit]; simp),
    filter_setbit _ _ _ (by simp), filter_setbit _ _ _ (by rw [List.mem_range'_1]; omega), hsplit]
  unfold twigoff
  simp

theorem bits_clr (bmp b : Nat) (h : b < 17) (hb : bmp.testBit b = true) :
    bits (bmp ^^^ (bmp &&& 2 ^ b)) = (bits bmp).eraseIdx (twigoff bmp b) := by
  have hsplit := bits_split bmp b h
  rw [if_pos hb] at hsplit
  rw [bits_split (bmp ^^^ (bmp &&& 2 ^ b)) b h, if_neg (by rw [testBit_clrbit]; simp),
    filter_clrbit _ _ _ (by simp), filter_clrbit _ _ _ (by rw [List.mem_range'_1]; omega), hsplit]
  unfold twigoff
  simp only [List.append_nil, List.append_assoc]
  rw [List.eraseIdx_append_of_length_le (Nat.le_refl _)]
  simp

theorem bits_pair (a b : Nat) (ha : a < 17) (hab : a < b) (hb : b < 17) : bits (2 ^ a ||| 2 ^ b) = [a, b] := by
  have h0 : bits (2 ^ a) = [a] := by
    rw [bits_split _ a ha, if_pos (by rw [Nat.testBit_two_pow]; simp)]
    have h1 : (List.range a).filter (2 ^ a).testBit = [] := by
      rw [List.filter_eq_nil_iff]; intro x hx; rw [Nat.testBit_two_pow]; simp at hx; simp; omega
    have h2 : (List.range' (a + 1) (16 - a)).filter (2 ^ a).testBit = [] := by
      rw [List.filter_eq_nil_iff]; intro x hx; rw [Nat.testBit_two_pow]; rw [List.mem_range'_1] at hx; simp; omega
    rw [h1, h2]; rfl
  have hn : (2 ^ a).testBit b = false := by rw [Nat.testBit_two_pow]; simp; omega
  rw [bits_set (2 ^ a) b hb hn, h0]
  have hoff : twigoff (2 ^ a) b = 1 := by
    have hle := twigoff_le (2 ^ a) b hb hn
    rw [← bits_length, h0] at hle
    simp at hle
    have := (bits_missing (2 ^ a) b 0 a hb hn (by rw [h0]; rfl)).2
    by_cases hc : twigoff (2 ^ a) b = 0
    · have := this (by omega); omega
    · omega
  rw [hoff]; rfl

end Knot.Trie
