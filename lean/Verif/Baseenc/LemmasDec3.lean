import Verif.Baseenc.LemmasDec2
namespace Knot.Baseenc

abbrev val32 (c : UInt8) : Option Nat := value 5 alpha32hex (lower c)

theorem mapM_some2 {val : UInt8 → Option Nat} (N : Nat) (D : UInt8 → Nat)
    (hv : ∀ c, val c = if D c < N then some (D c) else none) (l : Bytes) :
    l.mapM val = if ∀ c ∈ l, D c < N then some (l.map D) else none := by
  by_cases h : ∀ c ∈ l, D c < N
  · rw [if_pos h]
    induction l with
    | nil => rfl
    | cons a t ih =>
      rw [List.mapM_cons, ih (fun c hc => h c (by simp [hc])), hv, if_pos (h a (by simp))]; rfl
  · rw [if_neg h]
    simp only [Classical.not_forall] at h
    obtain ⟨c, hc, hn⟩ := h
    exact mapM_none hc (by rw [hv, if_neg hn])

theorem dec32_last (i0 i1 i2 i3 i4 i5 i6 i7 : UInt8)
    (hno : 61 ∈ [i0, i1, i2, i3, i4, i5, i6, i7]) :
    (∃ x, dec32Loop 0 [i0, i1, i2, i3, i4, i5, i6, i7] = .ok x ∧
      decodeSpec 5 8 val32 [i0, i1, i2, i3, i4, i5, i6, i7] = some x) ∨
    (dec32Loop 0 [i0, i1, i2, i3, i4, i5, i6, i7] = .err .base32hexChar ∧
      decodeSpec 5 8 val32 [i0, i1, i2, i3, i4, i5, i6, i7] = none) := by
  rw [dec32_group i0 i1 i2 i3 i4 i5 i6 i7 [] _ _ _ _ _ _ _ _ rfl rfl rfl rfl rfl rfl rfl rfl]
  rw [decodeSpec_eq, mapM_some2 32 (decAt dec32Tbl) val32_dec]
  have p0 := pad32_dec i0; have p1 := pad32_dec i1; have p2 := pad32_dec i2
  have p3 := pad32_dec i3; have p4 := pad32_dec i4; have p5 := pad32_dec i5
  have p6 := pad32_dec i6; have p7 := pad32_dec i7
  by_cases k0 : i0 = 61
  · right
    have ht : ¬ tailOk 5 8 [i0, i1, i2, i3, i4, i5, i6, i7] := by simp [tailOk, k0]
    rw [if_neg ht, if_neg (by rw [p0.mp k0]; simp)]; exact ⟨rfl, rfl⟩
  by_cases k1 : i1 = 61
  · right
    have ht : ¬ tailOk 5 8 [i0, i1, i2, i3, i4, i5, i6, i7] := by simp [tailOk, k0, k1]
    rw [if_neg ht, if_neg (by rw [p1.mp k1]; simp)]; exact ⟨rfl, rfl⟩
  by_cases k2 : i2 = 61
  · have ht : tailOk 5 8 [i0, i1, i2, i3, i4, i5, i6, i7] ↔ i3 = 61 ∧ i4 = 61 ∧ i5 = 61 ∧ i6 = 61 ∧ i7 = 61 := by
      simp [tailOk, k0, k1, k2]
    have htw : [i0, i1, i2, i3, i4, i5, i6, i7].takeWhile (· ≠ 61) = [i0, i1] := by simp [k0, k1, k2]
    rw [htw]
    have h2 := p2.mp k2
    simp only [h2, ht, p3, p4, p5, p6, p7]
    by_cases ha : decAt dec32Tbl i0 < 32 ∧ decAt dec32Tbl i1 < 32
    · obtain ⟨a0, a1⟩ := ha
      by_cases hp : decAt dec32Tbl i3 = 32 ∧ decAt dec32Tbl i4 = 32 ∧ decAt dec32Tbl i5 = 32 ∧
          decAt dec32Tbl i6 = 32 ∧ decAt dec32Tbl i7 = 32
      · left
        simp [hp, a0, a1, dec32Loop, bytes32_2 _ _ 32 32 32 32 32 32 a0 a1]
      · right
        simp only [if_neg hp]
        simp [a0, a1]
        intro h3 h4 h5 h6 h7
        exact absurd ⟨h3, h4, h5, h6, h7⟩ hp
    · right
      rw [if_neg ha]
      refine ⟨rfl, ?_⟩
      split
      · rw [if_neg (by simpa using ha)]; rfl
      · rfl
  have n2 := mt p2.mpr k2
  by_cases k3 : i3 = 61
  · right
    have ht : ¬ tailOk 5 8 [i0, i1, i2, i3, i4, i5, i6, i7] := by simp [tailOk, k0, k1, k2, k3]
    rw [if_neg ht, p3.mp k3]
    refine ⟨?_, rfl⟩
    split
    · rw [if_neg (by simp), if_neg (by simp [n2])]
    · rfl
  have n3 := mt p3.mpr k3
  by_cases k4 : i4 = 61
  · have ht : tailOk 5 8 [i0, i1, i2, i3, i4, i5, i6, i7] ↔ i5 = 61 ∧ i6 = 61 ∧ i7 = 61 := by
      simp [tailOk, k0, k1, k2, k3, k4]
    have htw : [i0, i1, i2, i3, i4, i5, i6, i7].takeWhile (· ≠ 61) = [i0, i1, i2, i3] := by
      simp [k0, k1, k2, k3, k4]
    rw [htw]
    simp only [p4.mp k4, ht, p5, p6, p7]
    by_cases ha : (decAt dec32Tbl i0 < 32 ∧ decAt dec32Tbl i1 < 32) ∧
        (decAt dec32Tbl i2 < 32 ∧ decAt dec32Tbl i3 < 32)
    · obtain ⟨⟨a0, a1⟩, a2, a3⟩ := ha
      by_cases hp : decAt dec32Tbl i5 = 32 ∧ decAt dec32Tbl i6 = 32 ∧ decAt dec32Tbl i7 = 32
      · left
        simp [hp, a0, a1, a2, a3, dec32Loop, bytes32_4 _ _ _ _ 32 32 32 32 a0 a1 a2 a3]
      · right
        simp only [if_neg hp]
        simp [a0, a1, a2, a3]
        intro h5 h6 h7
        exact absurd ⟨h5, h6, h7⟩ hp
    · right
      refine ⟨?_, ?_⟩
      · clear p0 p1 p2 p3 p4 p5 p6 p7
        split
        · rename_i h01
          rw [if_neg (fun h => ha ⟨h01, h⟩), if_neg (by simp [n2])]
        · rfl
      · split
        · rw [if_neg (by simpa [and_assoc] using ha)]; rfl
        · rfl
  have n4 := mt p4.mpr k4
  by_cases k5 : i5 = 61
  · have ht : tailOk 5 8 [i0, i1, i2, i3, i4, i5, i6, i7] ↔ i6 = 61 ∧ i7 = 61 := by
      simp [tailOk, k0, k1, k2, k3, k4, k5]
    have htw : [i0, i1, i2, i3, i4, i5, i6, i7].takeWhile (· ≠ 61) = [i0, i1, i2, i3, i4] := by
      simp [k0, k1, k2, k3, k4, k5]
    rw [htw]
    simp only [p5.mp k5, ht, p6, p7]
    by_cases ha : (decAt dec32Tbl i0 < 32 ∧ decAt dec32Tbl i1 < 32) ∧
        (decAt dec32Tbl i2 < 32 ∧ decAt dec32Tbl i3 < 32) ∧ decAt dec32Tbl i4 < 32
    · obtain ⟨⟨a0, a1⟩, ⟨a2, a3⟩, a4⟩ := ha
      by_cases hp : decAt dec32Tbl i6 = 32 ∧ decAt dec32Tbl i7 = 32
      · left
        simp [hp, a0, a1, a2, a3, a4, dec32Loop, bytes32_5 _ _ _ _ _ 32 32 32 a0 a1 a2 a3 a4]
      · right
        simp only [if_neg hp]
        simp [a0, a1, a2, a3, a4]
        intro h6 h7
        exact absurd ⟨h6, h7⟩ hp
    · right
      refine ⟨?_, ?_⟩
      · clear p0 p1 p2 p3 p4 p5 p6 p7
        split
        · rename_i h01
          split
          · rename_i h23
            rw [if_neg (fun h => ha ⟨h01, h23, h⟩), if_neg (by simp [n4])]
          · rw [if_neg (by simp [n2])]
        · rfl
      · split
        · rw [if_neg (by simpa [and_assoc] using ha)]; rfl
        · rfl
  have n5 := mt p5.mpr k5
  by_cases k6 : i6 = 61
  · right
    have ht : ¬ tailOk 5 8 [i0, i1, i2, i3, i4, i5, i6, i7] := by
      simp [tailOk, k0, k1, k2, k3, k4, k5, k6]
    rw [if_neg ht, p6.mp k6]
    refine ⟨?_, rfl⟩
    simp [n2, n4, n5]
  have n6 := mt p6.mpr k6
  have k7 : i7 = 61 := by
    simp only [List.mem_cons, List.not_mem_nil, or_false] at hno
    grind
  have ht : tailOk 5 8 [i0, i1, i2, i3, i4, i5, i6, i7] := by
    simp [tailOk, k0, k1, k2, k3, k4, k5, k6, k7]
  have htw : [i0, i1, i2, i3, i4, i5, i6, i7].takeWhile (· ≠ 61) = [i0, i1, i2, i3, i4, i5, i6] := by
    simp [k0, k1, k2, k3, k4, k5, k6, k7]
  rw [htw, if_pos ht]
  simp only [p7.mp k7]
  by_cases ha : (decAt dec32Tbl i0 < 32 ∧ decAt dec32Tbl i1 < 32) ∧
      (decAt dec32Tbl i2 < 32 ∧ decAt dec32Tbl i3 < 32) ∧ decAt dec32Tbl i4 < 32 ∧
      decAt dec32Tbl i5 < 32 ∧ decAt dec32Tbl i6 < 32
  · obtain ⟨⟨a0, a1⟩, ⟨a2, a3⟩, a4, a5, a6⟩ := ha
    left
    simp [a0, a1, a2, a3, a4, a5, a6, dec32Loop, bytes32_7 _ _ _ _ _ _ _ 32 a0 a1 a2 a3 a4 a5 a6]
  · right
    refine ⟨?_, ?_⟩
    · clear p0 p1 p2 p3 p4 p5 p6 p7
      split
      · rename_i h01
        split
        · rename_i h23
          split
          · rename_i h4
            rw [if_neg (fun h => ha ⟨h01, h23, h4, h⟩), if_neg (by simp [n5])]
          · rw [if_neg (by simp [n4])]
        · rw [if_neg (by simp [n2])]
      · rfl
    · rw [if_neg (by simpa [and_assoc] using ha)]; rfl

theorem dec32_exact (n : Nat) (t : Bytes) (hn : t.length = 8 * n)
    (hp : 61 ∉ t.take (t.length - 8)) :
    (∃ x, dec32Loop 0 t = .ok x ∧ decodeSpec 5 8 val32 t = some x) ∨
    (dec32Loop 0 t = .err .base32hexChar ∧ decodeSpec 5 8 val32 t = none) := by
  induction n generalizing t with
  | zero =>
    have : t = [] := List.eq_nil_of_length_eq_zero (by omega)
    subst this
    exact .inl ⟨[], rfl, rfl⟩
  | succ n ih =>
    obtain ⟨i0, i1, i2, i3, i4, i5, i6, i7, t, rfl⟩ : ∃ i0 i1 i2 i3 i4 i5 i6 i7 t',
        t = i0 :: i1 :: i2 :: i3 :: i4 :: i5 :: i6 :: i7 :: t' := by
      match t, hn with
      | i0 :: i1 :: i2 :: i3 :: i4 :: i5 :: i6 :: i7 :: t', _ => exact ⟨_, _, _, _, _, _, _, _, _, rfl⟩
    have hn' : t.length = 8 * n := by simp only [List.length_cons] at hn; omega
    by_cases hno : 61 ∈ [i0, i1, i2, i3, i4, i5, i6, i7]
    · have ht : t = [] := by
        apply Classical.byContradiction
        intro hne
        apply hp
        have : 8 ≤ t.length := by
          have : t.length ≠ 0 := fun h => hne (List.eq_nil_of_length_eq_zero h)
          omega
        rw [show (i0 :: i1 :: i2 :: i3 :: i4 :: i5 :: i6 :: i7 :: t).length - 8
            = (t.length - 8) + 1 + 1 + 1 + 1 + 1 + 1 + 1 + 1 by
            simp only [List.length_cons]; omega]
        simp only [List.take_succ_cons, List.mem_cons, List.not_mem_nil, or_false] at hno ⊢
        grind
      subst ht
      exact dec32_last i0 i1 i2 i3 i4 i5 i6 i7 hno
    · have e : i0 :: i1 :: i2 :: i3 :: i4 :: i5 :: i6 :: i7 :: t
          = [i0, i1, i2, i3, i4, i5, i6, i7] ++ t := rfl
      have hno' : ∀ c ∈ [i0, i1, i2, i3, i4, i5, i6, i7], c ≠ 61 := fun c hc h => hno (h ▸ hc)
      rw [e, decodeSpec_append 5 8 (by decide) _ _ _ hno' rfl]
      have hih := ih t hn' (by
        intro hm
        apply hp
        by_cases ht : t.length = 0
        · simp [ht] at hm
        · rw [show (i0 :: i1 :: i2 :: i3 :: i4 :: i5 :: i6 :: i7 :: t).length - 8
            = (t.length - 8) + 1 + 1 + 1 + 1 + 1 + 1 + 1 + 1 by
            simp only [List.length_cons]; omega]
          simp [hm])
      rw [decodeSpec_eq] at hih
      rw [← e, dec32_group i0 i1 i2 i3 i4 i5 i6 i7 t _ _ _ _ _ _ _ _ rfl rfl rfl rfl rfl rfl rfl rfl]
      rw [mapM_some2 32 (decAt dec32Tbl) val32_dec [i0, i1, i2, i3, i4, i5, i6, i7]]
      have q : ∀ c ∈ [i0, i1, i2, i3, i4, i5, i6, i7], decAt dec32Tbl c ≠ 32 :=
        fun c hc h => hno' c hc ((pad32_dec c).mpr h)
      simp only [List.mem_cons, List.not_mem_nil, or_false, forall_eq_or_imp, forall_eq] at q ⊢
      obtain ⟨q0, q1, q2, q3, q4, q5, q6, q7⟩ := q
      simp only [q2, q4, q5, q7, false_and, if_false]
      by_cases hall : decAt dec32Tbl i0 < 32 ∧ decAt dec32Tbl i1 < 32 ∧ decAt dec32Tbl i2 < 32 ∧
          decAt dec32Tbl i3 < 32 ∧ decAt dec32Tbl i4 < 32 ∧ decAt dec32Tbl i5 < 32 ∧
          decAt dec32Tbl i6 < 32 ∧ decAt dec32Tbl i7 < 32
      · obtain ⟨a0, a1, a2, a3, a4, a5, a6, a7⟩ := hall
        simp only [a0, a1, a2, a3, a4, a5, a6, a7, and_self, if_true, List.map_cons, List.map_nil]
        rcases hih with ⟨x, hx, hs⟩ | ⟨hx, hs⟩
        · left
          rw [hx]
          refine ⟨_, rfl, ?_⟩
          split at hs
          · rename_i htail
            rw [if_pos htail]
            obtain ⟨ws, hw, hb⟩ := Option.map_eq_some_iff.mp hs
            rw [hw]
            have := bytes32_step _ _ _ _ _ _ _ _ ws a0 a1 a2 a3 a4 a5 a6 a7
            rw [hb] at this
            simp [this]
          · cases hs
        · right
          rw [hx]
          refine ⟨rfl, ?_⟩
          split at hs
          · rename_i htail
            rw [if_pos htail]
            rw [Option.map_eq_none_iff] at hs
            rw [hs]; simp
          · rename_i htail
            rw [if_neg htail]
      · right
        rw [if_neg hall]
        refine ⟨?_, by split <;> rfl⟩
        split
        · split
          · split
            · split
              · split
                · exfalso; apply hall; simp only [*, and_self]
                · rfl
              · rfl
            · rfl
          · rfl
        · rfl

theorem dec32_round (x : Bytes) : dec32Loop 0 (enc32Loop x) = .ok x := by
  fun_induction enc32Loop x with
  | case1 a b c d e t ih =>
    have ha := byteLt a; have hb := byteLt b; have hc := byteLt c
    have hd := byteLt d; have he := byteLt e
    rw [dec32_group _ _ _ _ _ _ _ _ _ _ _ _ _ _ _ _ _ (dec32_enc _ (by omega)) (dec32_enc _ (by omega))
      (dec32_enc _ (by omega)) (dec32_enc _ (by omega)) (dec32_enc _ (by omega)) (dec32_enc _ (by omega))
      (dec32_enc _ (by omega)) (dec32_enc _ (by omega))]
    rw [if_pos (by omega), if_pos (by omega), if_pos (by omega), if_pos (by omega), if_pos (by omega), ih]
    simp only [Res.bind_ok, out32]
    rw [ofNat_of_eq (a := a) (by omega), ofNat_of_eq (a := b) (by omega), ofNat_of_eq (a := c) (by omega),
      ofNat_of_eq (a := d) (by omega), ofNat_of_eq (a := e) (by omega)]
    rfl
  | case2 a b c d =>
    have ha := byteLt a; have hb := byteLt b; have hc := byteLt c
    have hd := byteLt d
    rw [dec32_group _ _ _ _ _ _ _ _ _ _ _ _ _ _ _ _ _ (dec32_enc _ (by omega)) (dec32_enc _ (by omega))
      (dec32_enc _ (by omega)) (dec32_enc _ (by omega)) (dec32_enc _ (by omega)) (dec32_enc _ (by omega))
      (dec32_enc _ (by omega)) dec32_pad]
    rw [if_pos (by omega), if_pos (by omega), if_pos (by omega), if_pos (by omega), if_neg (by omega),
      if_pos rfl]
    simp only [Res.bind_ok, out32, dec32Loop, List.append_nil]
    rw [ofNat_of_eq (a := a) (by omega), ofNat_of_eq (a := b) (by omega), ofNat_of_eq (a := c) (by omega),
      ofNat_of_eq (a := d) (by omega)]
  | case3 a b c =>
    have ha := byteLt a; have hb := byteLt b; have hc := byteLt c
    rw [dec32_group _ _ _ _ _ _ _ _ _ _ _ _ _ _ _ _ _ (dec32_enc _ (by omega)) (dec32_enc _ (by omega))
      (dec32_enc _ (by omega)) (dec32_enc _ (by omega)) (dec32_enc _ (by omega)) dec32_pad
      dec32_pad dec32_pad]
    rw [if_pos (by omega), if_pos (by omega), if_pos (by omega), if_neg (by omega), if_pos (by simp)]
    simp only [Res.bind_ok, out32, dec32Loop, List.append_nil]
    rw [ofNat_of_eq (a := a) (by omega), ofNat_of_eq (a := b) (by omega), ofNat_of_eq (a := c) (by omega)]
  | case4 a b =>
    have ha := byteLt a; have hb := byteLt b
    rw [dec32_group _ _ _ _ _ _ _ _ _ _ _ _ _ _ _ _ _ (dec32_enc _ (by omega)) (dec32_enc _ (by omega))
      (dec32_enc _ (by omega)) (dec32_enc _ (by omega)) dec32_pad dec32_pad
      dec32_pad dec32_pad]
    rw [if_pos (by omega), if_pos (by omega), if_neg (by omega), if_pos (by simp)]
    simp only [Res.bind_ok, out32, dec32Loop, List.append_nil]
    rw [ofNat_of_eq (a := a) (by omega), ofNat_of_eq (a := b) (by omega)]
  | case5 a =>
    have ha := byteLt a
    rw [dec32_group _ _ _ _ _ _ _ _ _ _ _ _ _ _ _ _ _ (dec32_enc _ (by omega)) (dec32_enc _ (by omega))
      dec32_pad dec32_pad dec32_pad dec32_pad dec32_pad dec32_pad]
    rw [if_pos (by omega), if_neg (by omega), if_pos (by simp)]
    simp only [Res.bind_ok, out32, dec32Loop, List.append_nil]
    rw [ofNat_of_eq (a := a) (by omega)]
  | case6 => rfl

end Knot.Baseenc
