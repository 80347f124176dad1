import Verif.Zload.Spec
/-! # Lemmas for C53 -/
namespace Knot.Zload
open Knot Knot.Serial

theorem lower_iff (a b : UInt32) : lower a b = true ↔ Older a b := by
  have := (C08_compare_rfc1982 a.toNat b.toNat a.toNat_lt b.toNat_lt).2.1
  unfold lower Older
  simp [this]

theorem equal_iff (a b : UInt32) : equal a b = true ↔ a = b := by
  have := (C08_compare_rfc1982 a.toNat b.toNat a.toNat_lt b.toNat_lt).1
  unfold equal
  simp [this, UInt32.toNat_inj]

theorem older_ne {a b : UInt32} (h : Older a b) : a ≠ b := by
  rintro rfl
  unfold Older SerialLt at h
  omega

theorem older_irrefl (a : UInt32) : ¬ Older a a := fun h => older_ne h rfl

theorem patch (a b : Finset Rec) : (a \ (a \ b)) ∪ (b \ a) = b := by
  ext x; simp only [Finset.mem_union, Finset.mem_sdiff]; grind

theorem sdiff_self' (a : Finset Rec) : a \ a = ∅ := by
  ext x; simp

theorem patch_empty {a b : Finset Rec} (h1 : a \ b = ∅) (h2 : b \ a = ∅) : a = b := by
  have := patch a b
  rw [h1, h2] at this
  ext x
  rw [← this]; simp

/-- The change from one zone to another. -/
def chOf (c c' : Cont) : Ch := ⟨c.serial, c.soa, c'.serial, c'.soa, c.recs \ c'.recs, c'.recs \ c.recs⟩

theorem applyCh_chOf (c c' : Cont) : applyCh (chOf c c') c = .ok c' := by
  unfold applyCh
  rw [if_neg, if_pos ⟨rfl, rfl⟩]
  · have := patch c.recs c'.recs
    unfold chOf
    dsimp only
    rw [this]
  · rintro ⟨x, hx, h⟩
    have hx' : x ∈ c.recs := by
      unfold chOf at hx
      exact (Finset.mem_sdiff.mp hx).1
    exact h x hx' rfl

theorem applyAll_append (l : List Ch) (ch : Ch) (z c : Cont) (h : applyAll l z = .ok c) :
    applyAll (l ++ [ch]) z = applyCh ch c := by
  induction l generalizing z with
  | nil =>
    simp only [applyAll] at h
    cases h
    simp only [List.nil_append, applyAll]
    cases applyCh ch c <;> rfl
  | cons x l ih =>
    simp only [applyAll, List.cons_append] at h ⊢
    cases hx : applyCh x z with
    | ok z' => rw [hx] at h; dsimp only at h ⊢; exact ih z' h
    | err e => rw [hx] at h; cases h
    | odd => rw [hx] at h; cases h

theorem applyCh_til {ch : Ch} {z c : Cont} (h : applyCh ch z = .ok c) : c.serial = ch.til := by
  unfold applyCh at h
  split at h
  · cases h
  · split at h
    · cases h; rfl
    · cases h

theorem applyAll_last (l : List Ch) (z c : Cont) (h : applyAll l z = .ok c) :
    l.getLast?.map (·.til) = none ∧ z = c ∨ l.getLast?.map (·.til) = some c.serial := by
  rcases List.eq_nil_or_concat l with rfl | ⟨l', ch, rfl⟩
  · simp only [applyAll] at h; cases h; exact .inl ⟨rfl, rfl⟩
  · right
    simp only [List.concat_eq_append, List.getLast?_append] at h ⊢
    have : ∃ c', applyAll l' z = .ok c' := by
      clear * - h
      induction l' generalizing z with
      | nil => exact ⟨z, rfl⟩
      | cons x l ih =>
        simp only [applyAll, List.cons_append] at h ⊢
        cases hx : applyCh x z with
        | ok z' => rw [hx] at h; dsimp only at h ⊢; exact ih z' h
        | err e => rw [hx] at h; cases h
        | odd => rw [hx] at h; cases h
    obtain ⟨c', hc'⟩ := this
    rw [applyAll_append _ _ _ _ hc'] at h
    simp [applyCh_til h]

theorem suffix_none {s : UInt32} {l : List Ch} (h : ∀ ch ∈ l, ch.fr ≠ s) : suffix s l = [] := by
  unfold suffix
  induction l with
  | nil => rfl
  | cons a l ih =>
    have ha := h a (by simp)
    rw [List.dropWhile_cons, if_pos (by simpa using ha)]
    exact ih (fun ch hc => h ch (List.mem_cons_of_mem _ hc))

theorem suffix_head {a : Ch} {l : List Ch} : suffix a.fr (a :: l) = a :: l := by
  unfold suffix
  rw [List.dropWhile_cons, if_neg (by simp)]

theorem suffix_append {s : UInt32} {l : List Ch} (x : Ch) (h : suffix s l ≠ []) :
    suffix s (l ++ [x]) = suffix s l ++ [x] := by
  unfold suffix at *
  induction l with
  | nil => simp at h
  | cons a l ih =>
    simp only [List.cons_append, List.dropWhile_cons] at h ⊢
    split
    · rename_i ha
      rw [if_pos ha] at h
      exact ih h
    · rfl

theorem suffix_append_none {s : UInt32} {l : List Ch} (x : Ch) (h : ∀ ch ∈ l, ch.fr ≠ s) :
    suffix s (l ++ [x]) = suffix s [x] := by
  unfold suffix
  induction l with
  | nil => rfl
  | cons a l ih =>
    have ha := h a (by simp)
    simp only [List.cons_append]
    rw [List.dropWhile_cons, if_pos (by simpa using ha)]
    exact ih (fun ch hc => h ch (List.mem_cons_of_mem _ hc))

theorem suffix_nil {s : UInt32} {l : List Ch} (h : suffix s l = []) : ∀ ch ∈ l, ch.fr ≠ s := by
  unfold suffix at h
  induction l with
  | nil => simp
  | cons a l ih =>
    rw [List.dropWhile_cons] at h
    split at h
    · rename_i ha
      intro ch hc
      rcases List.mem_cons.mp hc with rfl | hc
      · simpa using ha
      · exact ih h ch hc
    · cases h

theorem suffix_last {s : UInt32} {l : List Ch} (h : suffix s l ≠ []) :
    (suffix s l).getLast? = l.getLast? := by
  unfold suffix at *
  induction l with
  | nil => simp at h
  | cons a l ih =>
    rw [List.dropWhile_cons] at h ⊢
    split
    · rename_i ha
      rw [if_pos ha] at h
      have hl : l ≠ [] := by rintro rfl; simp at h
      rw [ih h]
      cases l with
      | nil => exact absurd rfl hl
      | cons b l => simp [List.getLast?_cons_cons]
    · rfl

/-! ## Updates -/

theorem diff_ok {flag : Flag} {old new : Cont} {u : Upd} (h : fromDifferences flag old new = .ok u) :
    u.flag = flag ∧ u.fr = (old.serial, old.soa) ∧ u.rem = old.recs \ new.recs ∧
    u.add = new.recs \ old.recs ∧ u.cont.recs = new.recs ∧
    ((new.serial = old.serial ∧ u.soaTo = none ∧ u.cont.serial = old.serial ∧ u.cont.soa = old.soa) ∨
     (Older old.serial new.serial ∧ u.soaTo = some (new.serial, new.soa) ∧ u.cont = new)) := by
  unfold fromDifferences at h
  have hp := patch old.recs new.recs
  by_cases he : equal old.serial new.serial = true
  · have h1 : diffSoa old new = .ok none := by unfold diffSoa; rw [if_pos he]
    rw [h1] at h
    simp only [bind, Except.bind, pure, Except.pure, withSoa] at h
    cases h
    exact ⟨rfl, rfl, rfl, rfl, hp, .inl ⟨((equal_iff _ _).mp he).symm, rfl, rfl, rfl⟩⟩
  · by_cases hl : lower old.serial new.serial = true
    · have h1 : diffSoa old new = .ok (some (new.serial, new.soa)) := by
        unfold diffSoa; rw [if_neg he, if_neg (by simp [hl])]
      rw [h1] at h
      simp only [bind, Except.bind, pure, Except.pure, withSoa] at h
      cases h
      refine ⟨rfl, rfl, rfl, rfl, hp, .inr ⟨(lower_iff _ _).mp hl, rfl, ?_⟩⟩
      cases new
      simp only at hp ⊢
      rw [hp]
    · have h1 : diffSoa old new = .error .range := by
        unfold diffSoa; rw [if_neg he, if_pos (by simpa using hl)]
      rw [h1] at h
      simp only [bind, Except.bind] at h
      cases h

theorem diff_err {flag : Flag} {old new : Cont} {e : Err} (h : fromDifferences flag old new = .error e) :
    e = .range ∧ new.serial ≠ old.serial ∧ ¬ Older old.serial new.serial := by
  unfold fromDifferences at h
  by_cases he : equal old.serial new.serial = true
  · have h1 : diffSoa old new = .ok none := by unfold diffSoa; rw [if_pos he]
    rw [h1] at h
    simp only [bind, Except.bind, pure, Except.pure, withSoa] at h
    cases h
  · by_cases hl : lower old.serial new.serial = true
    · have h1 : diffSoa old new = .ok (some (new.serial, new.soa)) := by
        unfold diffSoa; rw [if_neg he, if_neg (by simp [hl])]
      rw [h1] at h
      simp only [bind, Except.bind, pure, Except.pure, withSoa] at h
      cases h
    · have h1 : diffSoa old new = .error .range := by
        unfold diffSoa; rw [if_neg he, if_pos (by simpa using hl)]
      rw [h1] at h
      simp only [bind, Except.bind] at h
      cases h
      exact ⟨rfl, fun h => he ((equal_iff _ _).mpr h.symm), fun h => hl ((lower_iff _ _).mpr h)⟩

end Knot.Zload
