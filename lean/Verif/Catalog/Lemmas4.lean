import Verif.Catalog.Lemmas3
/-!
# Batches, finalization and commit
-/
namespace Knot.Catalog
open Dname

theorem run_snoc (S : State) (a : List Op) (x : Op) : run S (a ++ [x]) = x.apply (run S a) := by
  simp [run]

theorem apply_other (S : State) (x : Op) (m : Name) (h : x.member ≠ m) : x.apply S m = S m := by
  have hs : ∀ n e, n ≠ m → S.set n e m = S m := by
    intro n e hn; unfold State.set; rw [if_neg (fun e => hn e.symm)]
  cases x <;> simp only [Op.apply] <;> split <;> first | rfl | exact hs _ _ h

theorem has_iff (S : State) (m o c : Name) :
    S.Has m o c ↔ ∃ e, S m = some e ∧ e.owner = o ∧ e.catz = c := by
  constructor
  · rintro ⟨g, h⟩; exact ⟨_, h, rfl, rfl⟩
  · rintro ⟨⟨_, _, g⟩, h, rfl, rfl⟩; exact ⟨g, h⟩

theorem apply_add (S : State) (m o c : Name) : (Op.add m o c).apply S m = curAdd o c (S m) := by
  simp only [Op.apply, curAdd]
  cases h : S m <;> simp [State.set, h]

theorem apply_remove (S : State) (m o c : Name) : (Op.remove m o c).apply S m = curRemove o c (S m) := by
  simp only [Op.apply, curRemove]
  by_cases hh : S.Has m o c
  · rw [if_pos hh]
    obtain ⟨e, he, h1, h2⟩ := (has_iff S m o c).mp hh
    simp [State.set, he, h1, h2]
  · rw [if_neg hh]
    rw [has_iff] at hh
    cases h : S m with
    | none => rfl
    | some e =>
      simp only
      rw [if_neg (fun k => hh ⟨e, h, k⟩)]

theorem apply_group (S : State) (m o c : Name) (g : List UInt8) :
    (Op.group m o c g).apply S m = curGroup o c g (S m) := by
  simp only [Op.apply, curGroup]
  by_cases hh : S.Has m o c
  · rw [if_pos hh]
    obtain ⟨e, he, h1, h2⟩ := (has_iff S m o c).mp hh
    simp [State.set, he, h1, h2, cstr]
  · rw [if_neg hh]
    rw [has_iff] at hh
    cases h : S m with
    | none => rfl
    | some e =>
      simp only
      rw [if_neg (fun k => hh ⟨e, h, k⟩)]

theorem added_snoc (S : State) (a : List Op) (x : Op) (m : Name) :
    Added S (a ++ [x]) m ↔ Added S a m ∨ (∃ o c, x = .add m o c ∧ run S a m = none) := by
  constructor
  · rintro ⟨p, o, c, b, h, hn⟩
    rcases List.eq_nil_or_concat b with rfl | ⟨b', y, rfl⟩
    · have := List.append_inj' h (by simp)
      obtain ⟨rfl, e⟩ := this
      injection e with e _
      exact .inr ⟨o, c, e, hn⟩
    · left
      rw [List.concat_eq_append, ← List.cons_append, ← List.append_assoc] at h
      have := List.append_inj' h (by simp)
      exact ⟨p, o, c, b', this.1, hn⟩
  · rintro (⟨p, o, c, b, rfl, hn⟩ | ⟨o, c, rfl, hn⟩)
    · exact ⟨p, o, c, b ++ [x], by simp, hn⟩
    · exact ⟨a, o, c, [], by simp, hn⟩

def T1 (m : Name) (a : List Op) : Prop := ∃ o c g, List.Sublist [Op.group m o c g] a
def T2 (m : Name) (a : List Op) : Prop :=
  ∃ o c g o' c', List.Sublist [Op.group m o c g, .remove m o' c'] a

theorem T1.mono {m : Name} {a : List Op} (x : Op) (h : T1 m a) : T1 m (a ++ [x]) := by
  obtain ⟨o, c, g, h⟩ := h
  exact ⟨o, c, g, h.trans (List.sublist_append_left _ _)⟩

theorem T2.mono {m : Name} {a : List Op} (x : Op) (h : T2 m a) : T2 m (a ++ [x]) := by
  obtain ⟨o, c, g, o', c', h⟩ := h
  exact ⟨o, c, g, o', c', h.trans (List.sublist_append_left _ _)⟩

theorem T2.of_T1 {m : Name} {a : List Op} (o c : Name) (h : T1 m a) : T2 m (a ++ [.remove m o c]) := by
  obtain ⟨o', c', g, h⟩ := h
  exact ⟨o', c', g, o, c, List.Sublist.append h (List.Sublist.refl [Op.remove m o c])⟩

/-- The remaining calls leave the member alone. -/
def Frozen (conf : Name → Bool) (rest : List (Op × Bool)) (m : Name) : Prop :=
  conf m = false ∧ ∀ y ∈ rest, y.1.member ≠ m

/-- The pending update and the meaning of the operations so far agree for all members. -/
structure Inv (db : Db) (conf : Name → Bool) (a : List Op) (rest : List (Op × Bool)) (u : Upd) : Prop where
  wf : WF u
  rel : ∀ m, Nf m → Rel m (db.lookup m) (Added (fun n => db.lookup n) a m) (T1 m a) (T2 m a)
    (Frozen conf rest m) (u.lookup (key m)) (run (fun n => db.lookup n) a m)

theorem inv_step {db : Db} {conf : Name → Bool} {a : List Op} {x : Op} {ck : Bool}
    {rest : List (Op × Bool)} {u : Upd} (h : Inv db conf a ((x, ck) :: rest) u) (hl : x.Legal)
    (hre : NoReadd (fun n => db.lookup n) (a ++ [x]))
    (hf : ck = false → match x with
      | .add m _ _ => run (fun n => db.lookup n) a m = none ∨ (conf m = false ∧ ∀ y ∈ rest, y.1.member ≠ m)
      | .remove m o c => State.Has (fun n => db.lookup n) m o c
      | .group m o c _ => State.Has (fun n => db.lookup n) m o c) :
    ∃ u', call db u (x, ck) = .ok u' ∧ Inv db conf (a ++ [x]) rest u' := by
  have hm : Nf x.member := hl.1
  have hc : x.catz <:+ x.owner := by obtain ⟨_, p, q, e⟩ := hl; rw [e]; exact List.suffix_append _ _
  have hr := h.rel x.member hm
  have hfr : ¬ Frozen conf ((x, ck) :: rest) x.member := fun hh => hh.2 (x, ck) (by simp) rfl
  have finish : ∀ (ty : UType) (g : List UInt8) (w : Option Val),
      (ty = .rem ∨ ty = .prop ∨ ty = .add) →
      upd1 x.member x.owner x.catz ty g (if ck then some db else none) (u.lookup (key x.member)) = .ok w →
      Rel x.member (db.lookup x.member) (Added (fun n => db.lookup n) (a ++ [x]) x.member)
        (T1 x.member (a ++ [x])) (T2 x.member (a ++ [x])) (Frozen conf rest x.member) w
        (run (fun n => db.lookup n) (a ++ [x]) x.member) →
      ∃ u', updateAdd u x.member x.owner x.catz ty g (if ck then some db else none) = .ok u' ∧
        Inv db conf (a ++ [x]) rest u' := by
    intro ty g w ht hu hrel
    obtain ⟨u', h1, h2, h3, h4⟩ := updateAdd_eff h.wf hm hc ht g _ hu
    refine ⟨u', h1, h2, ?_⟩
    intro n hn
    by_cases e : n = x.member
    · subst e; rw [h3]; exact hrel
    · rw [h4 _ (fun hk => e (key_inj hn hm hk)), run_snoc, apply_other _ _ _ (fun e' => e e'.symm)]
      refine (h.rel n hn).mono ?_ (T1.mono x) (T2.mono x) ?_
      · rw [added_snoc]
        constructor
        · exact .inl
        · rintro (h | ⟨o, c, rfl, _⟩)
          · exact h
          · exact absurd rfl e
      · intro hh
        exact ⟨hh.1, fun y hy => hh.2 y (by simp [hy])⟩
  have hcheck : ck = true → ∃ d, (if ck then some db else none) = some d ∧ d.lookup x.member = db.lookup x.member := by
    rintro rfl; exact ⟨db, rfl, rfl⟩
  cases x with
  | add m o c =>
    have ht2 : db.lookup m ≠ none → ¬ T2 m a := by
      rintro hs ⟨o1, c1, g, o2, c2, hsub⟩
      exact hre m hs o1 c1 g o2 c2 o c (List.Sublist.append hsub (List.Sublist.refl [Op.add m o c]))
    have hadd : Added (fun n => db.lookup n) (a ++ [.add m o c]) m ↔
        Added (fun n => db.lookup n) a m ∨ run (fun n => db.lookup n) a m = none := by
      rw [added_snoc]
      constructor
      · rintro (h | ⟨_, _, _, h⟩)
        · exact .inl h
        · exact .inr h
      · rintro (h | h)
        · exact .inl h
        · exact .inr ⟨o, c, rfl, h⟩
    obtain ⟨w, hw, hrw⟩ := rel_add hr hfr hl.2 hc ht2 hadd (frozen' := Frozen conf rest m)
      (check := if ck then some db else none) (by
        cases ck with
        | true => exact .inl (hcheck rfl)
        | false => exact .inr ⟨rfl, hf rfl⟩)
    refine finish .add [] w (by simp) hw ?_
    rw [run_snoc, show (Op.add m o c).member = m from rfl, apply_add]
    exact hrw.mono Iff.rfl (T1.mono _) (T2.mono _) id
  | remove m o c =>
    obtain ⟨w, hw, hrw⟩ := rel_remove hr hfr hl.2 (T2.mono (.remove m o c)) (T2.of_T1 o c)
      (frozen' := Frozen conf rest m)
      (check := if ck then some db else none) (by
        cases ck with
        | true => exact .inl (hcheck rfl)
        | false => exact .inr ⟨rfl, hf rfl⟩)
    refine finish .rem [] w (by simp) hw ?_
    rw [run_snoc, show (Op.remove m o c).member = m from rfl, apply_remove]
    refine hrw.mono ?_ (T1.mono _) id id
    rw [added_snoc]; simp [Op.member]
  | group m o c g =>
    have ht1 : T1 m (a ++ [.group m o c g]) := ⟨o, c, g, List.sublist_append_right _ _⟩
    obtain ⟨w, hw, hrw⟩ := rel_group hr hfr hc ht1 g
      (frozen' := Frozen conf rest m)
      (check := if ck then some db else none) (by
        cases ck with
        | true => exact .inl (hcheck rfl)
        | false => exact .inr ⟨rfl, hf rfl⟩)
    refine finish .prop g w (by simp) hw ?_
    rw [run_snoc, show (Op.group m o c g).member = m from rfl, apply_group]
    refine hrw.mono ?_ id (T2.mono _) id
    rw [added_snoc]; simp [Op.member]

theorem inv_calls {db : Db} {conf : Name → Bool} (xs : List (Op × Bool)) (done : List (Op × Bool)) {u : Upd}
    (h : Inv db conf (done.map Prod.fst) xs u) (hl : ∀ x ∈ xs, x.1.Legal)
    (hre : NoReadd (fun n => db.lookup n) ((done ++ xs).map Prod.fst))
    (hf : Fair (fun n => db.lookup n) conf (done ++ xs)) :
    ∃ u', calls db u xs = .ok u' ∧ Inv db conf ((done ++ xs).map Prod.fst) [] u' := by
  induction xs generalizing done u with
  | nil => exact ⟨u, rfl, by simpa using h⟩
  | cons x xs ih =>
    obtain ⟨x, ck⟩ := x
    obtain ⟨u', h1, h2⟩ := inv_step h (hl (x, ck) (by simp))
      (by
        intro m hs o c g o' c' o'' c'' hsub
        refine hre m hs o c g o' c' o'' c'' (hsub.trans ?_)
        simp [List.map_append])
      (by
        rintro rfl
        have := hf done x xs rfl
        cases x <;> exact this)
    have e : done ++ (x, ck) :: xs = (done ++ [(x, ck)]) ++ xs := by simp
    obtain ⟨u'', h3, h4⟩ := ih (done ++ [(x, ck)]) (u := u') (by simpa using h2)
      (fun y hy => hl y (by simp [hy])) (by rw [← e]; exact hre) (by rw [← e]; exact hf)
    refine ⟨u'', ?_, by rw [e]; exact h4⟩
    simp only [calls]
    rw [h1]
    exact h3

theorem inv_nil (db : Db) (conf : Name → Bool) (rest : List (Op × Bool)) : Inv db conf [] rest [] := by
  refine ⟨⟨by simp, by simp⟩, ?_⟩
  intro m _
  refine Rel.none ?_
  rintro - ⟨a, o, c, b, h, -⟩
  simp at h

end Knot.Catalog
