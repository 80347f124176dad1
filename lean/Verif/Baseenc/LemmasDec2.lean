import Verif.Baseenc.LemmasDec
namespace Knot.Baseenc

/-! ## One group of the base32hex decoder -/

theorem dec32_group (i0 i1 i2 i3 i4 i5 i6 i7 : UInt8) (t : Bytes) (c1 c2 c3 c4 c5 c6 c7 c8 : Nat)
    (h1 : decAt dec32Tbl i0 = c1) (h2 : decAt dec32Tbl i1 = c2) (h3 : decAt dec32Tbl i2 = c3)
    (h4 : decAt dec32Tbl i3 = c4) (h5 : decAt dec32Tbl i4 = c5) (h6 : decAt dec32Tbl i5 = c6)
    (h7 : decAt dec32Tbl i6 = c7) (h8 : decAt dec32Tbl i7 = c8) :
    dec32Loop 0 (i0 :: i1 :: i2 :: i3 :: i4 :: i5 :: i6 :: i7 :: t) =
      if c1 < 32 ∧ c2 < 32 then
        if c3 < 32 ∧ c4 < 32 then
          if c5 < 32 then
            if c6 < 32 ∧ c7 < 32 then
              if c8 < 32 then do
                let r ← dec32Loop 0 t; .ok (out32 0 c1 c2 c3 c4 c5 c6 c7 c8 ++ r)
              else if c8 = 32 then do
                let r ← dec32Loop 1 t; .ok (out32 1 c1 c2 c3 c4 c5 c6 c7 c8 ++ r)
              else .err .base32hexChar
            else if c6 = 32 ∧ c7 = 32 ∧ c8 = 32 then do
              let r ← dec32Loop 3 t; .ok (out32 3 c1 c2 c3 c4 c5 c6 c7 c8 ++ r)
            else .err .base32hexChar
          else if c5 = 32 ∧ c6 = 32 ∧ c7 = 32 ∧ c8 = 32 then do
            let r ← dec32Loop 4 t; .ok (out32 4 c1 c2 c3 c4 c5 c6 c7 c8 ++ r)
          else .err .base32hexChar
        else if c3 = 32 ∧ c4 = 32 ∧ c5 = 32 ∧ c6 = 32 ∧ c7 = 32 ∧ c8 = 32 then do
          let r ← dec32Loop 6 t; .ok (out32 6 c1 c2 c3 c4 c5 c6 c7 c8 ++ r)
        else .err .base32hexChar
      else .err .base32hexChar := by
  simp only [dec32Loop, h1, h2, h3, h4, h5, h6, h7, h8]
  grind (splits := 40)

theorem dec64_group (i0 i1 i2 i3 : UInt8) (t : Bytes) (c1 c2 c3 c4 : Nat)
    (h1 : decAt dec64Tbl i0 = c1) (h2 : decAt dec64Tbl i1 = c2) (h3 : decAt dec64Tbl i2 = c3)
    (h4 : decAt dec64Tbl i3 = c4) :
    dec64Loop 0 (i0 :: i1 :: i2 :: i3 :: t) =
      if c1 < 64 ∧ c2 < 64 then
        if c3 < 64 then
          if c4 < 64 then do
            let r ← dec64Loop 0 t; .ok (out64 0 c1 c2 c3 c4 ++ r)
          else if c4 = 64 then do
            let r ← dec64Loop 1 t; .ok (out64 1 c1 c2 c3 c4 ++ r)
          else .err .base64Char
        else if c3 = 64 ∧ c4 = 64 then do
          let r ← dec64Loop 2 t; .ok (out64 2 c1 c2 c3 c4 ++ r)
        else .err .base64Char
      else .err .base64Char := by
  simp only [dec64Loop, h1, h2, h3, h4]
  grind (splits := 40)

/-! ## Steps of the specification -/

/-- Which characters the specification's side condition accepts behind the characters read so far. -/
def tailOk (k q : Nat) (t : Bytes) : Prop :=
  t.length % q = 0 ∧ (t.dropWhile (· ≠ 61)).length < q ∧ (∀ c ∈ t.dropWhile (· ≠ 61), c = 61) ∧
    k * (t.takeWhile (· ≠ 61)).length % 8 < k

instance (k q : Nat) (t : Bytes) : Decidable (tailOk k q t) := by unfold tailOk; infer_instance

theorem decodeSpec_eq (k q : Nat) (val : UInt8 → Option Nat) (t : Bytes) :
    decodeSpec k q val t = if tailOk k q t then
      ((t.takeWhile (· ≠ 61)).mapM val).map (bytesOf k) else none := rfl

theorem decodeSpec_append (k q : Nat) (hk : k * q % 8 = 0) (val : UInt8 → Option Nat)
    (pre t : Bytes) (hp : ∀ c ∈ pre, c ≠ 61) (hl : pre.length = q) :
    decodeSpec k q val (pre ++ t) = if tailOk k q t then
      (pre.mapM val).bind (fun vs => ((t.takeWhile (· ≠ 61)).mapM val).map
        (fun ws => bytesOf k (vs ++ ws))) else none := by
  have h1 : (pre ++ t).takeWhile (· ≠ 61) = pre ++ t.takeWhile (· ≠ 61) :=
    List.takeWhile_append_of_pos (by simpa using hp)
  have h2 : (pre ++ t).dropWhile (· ≠ 61) = t.dropWhile (· ≠ 61) :=
    List.dropWhile_append_of_pos (by simpa using hp)
  have h3 : tailOk k q (pre ++ t) ↔ tailOk k q t := by
    unfold tailOk
    rw [h1, h2]
    simp only [List.length_append, hl, Nat.add_mod_left, Nat.mul_add]
    rw [show (k * q + k * (t.takeWhile (· ≠ 61)).length) % 8
      = (k * (t.takeWhile (· ≠ 61)).length) % 8 by omega]
  rw [decodeSpec_eq, h1]
  simp only [h3, List.mapM_append]
  split
  · cases List.mapM val pre with
    | none => rfl
    | some vs =>
      simp only [Option.bind_eq_bind, Option.bind_some]
      cases List.mapM val (List.takeWhile (· ≠ 61) t) <;> rfl
  · rfl

theorem mapM_none {val : UInt8 → Option Nat} {l : Bytes} {c : UInt8} (h : c ∈ l)
    (hv : val c = none) : l.mapM val = none := by
  induction l with
  | nil => cases h
  | cons a t ih =>
    rw [List.mapM_cons]
    rcases List.mem_cons.mp h with rfl | h
    · rw [hv]; rfl
    · rw [ih h]; cases val a <;> rfl

theorem dec64_exact (n : Nat) (t : Bytes) (hn : t.length = 4 * n)
    (hp : 61 ∉ t.take (t.length - 4)) :
    (∃ x, dec64Loop 0 t = .ok x ∧ decodeSpec 6 4 (value 6 alpha64) t = some x) ∨
    (dec64Loop 0 t = .err .base64Char ∧ decodeSpec 6 4 (value 6 alpha64) t = none) := by
  induction n generalizing t with
  | zero =>
    have : t = [] := List.eq_nil_of_length_eq_zero (by omega)
    subst this
    exact .inl ⟨[], rfl, rfl⟩
  | succ n ih =>
    obtain ⟨i0, i1, i2, i3, t, rfl⟩ : ∃ i0 i1 i2 i3 t', t = i0 :: i1 :: i2 :: i3 :: t' := by
      match t, hn with
      | i0 :: i1 :: i2 :: i3 :: t', _ => exact ⟨_, _, _, _, _, rfl⟩
    have hn' : t.length = 4 * n := by simp only [List.length_cons] at hn; omega
    rw [dec64_group i0 i1 i2 i3 t _ _ _ _ rfl rfl rfl rfl]
    have p0 := pad64_dec i0; have p1 := pad64_dec i1; have p2 := pad64_dec i2; have p3 := pad64_dec i3
    have v0 := val64_dec i0; have v1 := val64_dec i1; have v2 := val64_dec i2; have v3 := val64_dec i3
    generalize decAt dec64Tbl i0 = c1 at *
    generalize decAt dec64Tbl i1 = c2 at *
    generalize decAt dec64Tbl i2 = c3 at *
    generalize decAt dec64Tbl i3 = c4 at *
    by_cases hno : i0 ≠ 61 ∧ i1 ≠ 61 ∧ i2 ≠ 61 ∧ i3 ≠ 61
    · have e : i0 :: i1 :: i2 :: i3 :: t = [i0, i1, i2, i3] ++ t := rfl
      rw [e, decodeSpec_append 6 4 (by decide) _ _ _ (by simpa using hno) rfl]
      have hih := ih t hn' (by
        intro hm
        apply hp
        by_cases ht : t.length = 0
        · simp [ht] at hm
        · rw [show (i0 :: i1 :: i2 :: i3 :: t).length - 4 = (t.length - 4) + 1 + 1 + 1 + 1 by
            simp only [List.length_cons]; omega]
          simp [hm])
      rw [decodeSpec_eq] at hih
      by_cases hall : c1 < 64 ∧ c2 < 64 ∧ c3 < 64 ∧ c4 < 64
      · obtain ⟨a1, a2, a3, a4⟩ := hall
        simp only [List.mapM_cons, List.mapM_nil, v0, v1, v2, v3]
        simp only [a1, a2, a3, a4, and_self, if_true]
        rcases hih with ⟨x, hx, hs⟩ | ⟨hx, hs⟩
        · left
          rw [hx]
          refine ⟨_, rfl, ?_⟩
          split at hs
          · rename_i htail
            rw [if_pos htail]
            obtain ⟨ws, hw, hb⟩ := Option.map_eq_some_iff.mp hs
            rw [hw]
            have := bytes64_step c1 c2 c3 c4 ws a1 a2 a3 a4
            rw [hb] at this
            simp [this]
          · cases hs
        · right
          rw [hx]
          refine ⟨rfl, ?_⟩
          split at hs
          · rename_i htail
            rw [if_pos htail]
            rw [Option.map_eq_none_iff] at hs
            rw [hs]; simp
          · rename_i htail
            rw [if_neg htail]
      · right
        have n0 := mt p0.mpr hno.1; have n1 := mt p1.mpr hno.2.1
        have n2 := mt p2.mpr hno.2.2.1; have n3 := mt p3.mpr hno.2.2.2
        refine ⟨by clear hih ih v0 v1 v2 v3 p0 p1 p2 p3 hp hn hn' e; grind, ?_⟩
        have : [i0, i1, i2, i3].mapM (value 6 alpha64) = none := by
          rcases (by omega : ¬ c1 < 64 ∨ ¬ c2 < 64 ∨ ¬ c3 < 64 ∨ ¬ c4 < 64) with h | h | h | h
          · exact mapM_none (c := i0) (by simp) (by rw [v0, if_neg h])
          · exact mapM_none (c := i1) (by simp) (by rw [v1, if_neg h])
          · exact mapM_none (c := i2) (by simp) (by rw [v2, if_neg h])
          · exact mapM_none (c := i3) (by simp) (by rw [v3, if_neg h])
        rw [this]; split <;> rfl
    · have ht : t = [] := by
        apply Classical.byContradiction
        intro hne
        apply hp
        have : 4 ≤ t.length := by
          have : t.length ≠ 0 := fun h => hne (List.eq_nil_of_length_eq_zero h)
          omega
        rw [show (i0 :: i1 :: i2 :: i3 :: t).length - 4 = (t.length - 4) + 1 + 1 + 1 + 1 by
            simp only [List.length_cons]; omega]
        simp only [List.take_succ_cons, List.mem_cons]
        grind
      subst ht
      rw [decodeSpec_eq]
      by_cases k0 : i0 = 61
      · right
        have := p0.mp k0
        have : ¬ tailOk 6 4 [i0, i1, i2, i3] := by simp [tailOk, k0]
        grind
      · by_cases k1 : i1 = 61
        · right
          have := p1.mp k1
          have : ¬ tailOk 6 4 [i0, i1, i2, i3] := by simp [tailOk, k0, k1]
          grind
        · by_cases k2 : i2 = 61
          · have h2 := p2.mp k2
            have ht : tailOk 6 4 [i0, i1, i2, i3] ↔ i3 = 61 := by simp [tailOk, k0, k1, k2]
            have htw : [i0, i1, i2, i3].takeWhile (· ≠ 61) = [i0, i1] := by simp [k0, k1, k2]
            rw [htw]
            simp only [List.mapM_cons, List.mapM_nil, v0, v1, ht]
            subst h2
            by_cases h12 : c1 < 64 ∧ c2 < 64
            · obtain ⟨a1, a2⟩ := h12
              by_cases k3 : i3 = 61
              · left
                have h3 := p3.mp k3
                subst h3
                refine ⟨out64 2 c1 c2 64 64, ?_, ?_⟩
                · simp [a1, a2, dec64Loop]
                · simp [k3, a1, a2, bytes64_two c1 c2 64 64 a1 a2]
              · right
                have h3 := mt p3.mpr k3
                simp [k3, a1, a2, h3]
            · right
              refine ⟨by rw [if_neg h12], ?_⟩
              split
              · grind
              · rfl
          · have k3 : i3 = 61 := by grind
            have h3 := p3.mp k3
            have h2 := mt p2.mpr k2
            have ht : tailOk 6 4 [i0, i1, i2, i3] := by simp [tailOk, k0, k1, k2, k3]
            have htw : [i0, i1, i2, i3].takeWhile (· ≠ 61) = [i0, i1, i2] := by simp [k0, k1, k2, k3]
            rw [htw, if_pos ht]
            simp only [List.mapM_cons, List.mapM_nil, v0, v1, v2]
            subst h3
            by_cases h12 : c1 < 64 ∧ c2 < 64 ∧ c3 < 64
            · obtain ⟨a1, a2, a3⟩ := h12
              left
              refine ⟨out64 1 c1 c2 c3 64, ?_, ?_⟩
              · simp [a1, a2, a3, dec64Loop]
              · simp [a1, a2, a3, bytes64_three c1 c2 c3 64 a1 a2 a3]
            · right
              grind

end Knot.Baseenc
