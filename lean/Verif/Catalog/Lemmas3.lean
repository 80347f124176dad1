import Verif.Catalog.Lemmas2
/-!
# The relation of entries and states is kept
-/
namespace Knot.Catalog
open Dname

def curAdd (o c : Name) (cur : Option Rec) : Option Rec :=
  match cur with
  | none => some ⟨o, c, []⟩
  | some e => some e

def curRemove (o c : Name) (cur : Option Rec) : Option Rec :=
  match cur with
  | none => none
  | some e => if e.owner = o ∧ e.catz = c then none else some e

def curGroup (o c : Name) (g : List UInt8) (cur : Option Rec) : Option Rec :=
  match cur with
  | none => none
  | some e => if e.owner = o ∧ e.catz = c then some ⟨o, c, cstr g⟩ else some e

theorem sameUniq_ok {ro rc o c : Name} (h1 : ∃ u z, ro = [u, z] ++ rc) (h2 : ∃ u z, o = [u, z] ++ c) :
    ∃ b, sameUniq ro rc o c = .ok b := by
  have one : ∀ {o c : Name}, (∃ u z, o = [u, z] ++ c) → ∃ l, getUniq o c = .ok l := by
    rintro o c ⟨u, z, rfl⟩
    refine ⟨u, ?_⟩
    unfold getUniq
    have : ([u, z] ++ c).length - c.length - 2 = 0 := by simp; omega
    rw [this, if_neg (by simp)]
    rfl
  obtain ⟨l1, e1⟩ := one h1
  obtain ⟨l2, e2⟩ := one h2
  exact ⟨decide (l1 = l2), by unfold sameUniq; rw [e1, e2]; rfl⟩

theorem rel_add {m : Name} {s0 : Option Rec} {added t1 t2 frozen added' frozen' : Prop} {v : Option Val}
    {cur : Option Rec} (h : Rel m s0 added t1 t2 frozen v cur) (hfr : ¬ frozen) {o c : Name}
    (ho : ∃ u z, o = [u, z] ++ c) (hc : c <:+ o) (ht2 : s0 ≠ none → ¬ t2)
    (ha : added' ↔ added ∨ cur = none) {check : Option Db}
    (hck : (∃ db, check = some db ∧ db.lookup m = s0) ∨ (check = none ∧ (cur = none ∨ frozen'))) :
    ∃ w, upd1 m o c .add [] check v = .ok w ∧ Rel m s0 added' t1 t2 frozen' w (curAdd o c cur) := by
  cases h with
  | none a =>
    simp only [upd1, reduceCtorEq, or_self, false_and, if_false, true_and]
    rcases hck with ⟨db, rfl, hl⟩ | ⟨rfl, hn⟩
    · cases s0 with
      | none =>
        refine ⟨some (valNew m o c .add), ?_, ?_⟩
        · simp [hasMember, hl]
        · exact Rel.add (gr := none) rfl (ha.mpr (.inr rfl)) hc
      | some e =>
        refine ⟨none, ?_, ?_⟩
        · simp [hasMember, hl]
        · refine Rel.none (fun _ => ?_)
          rw [ha]; simpa using a
    · refine ⟨some (valNew m o c .add), by simp, ?_⟩
      cases s0 with
      | none => exact Rel.add (gr := none) rfl (ha.mpr (.inr rfl)) hc
      | some e =>
        rcases hn with hn | hn
        · cases hn
        · exact Rel.conflict rfl (by rw [ha]; simpa using a) hn
  | add a b d =>
    refine ⟨_, ?_, Rel.add a (ha.mpr (.inl b)) d⟩
    simp [upd1]
  | @rem o0 c0 g r a gr hs hr =>
    rcases hr with ⟨rfl, rfl, hl⟩ | hr
    · obtain ⟨b, hb⟩ := sameUniq_ok hl ho
      refine ⟨some ⟨m, if b then .minor else .uniq, some (o0, c0), some (o, c), none⟩, by simp [upd1, hb], ?_⟩
      exact Rel.re (gr := none) (by cases b <;> simp) hs (ha.mpr (.inr rfl)) (.inl rfl) hl hc
    · exact absurd hr (ht2 (by rw [hs]; simp))
  | prop a b d e =>
    refine ⟨_, ?_, Rel.prop a (by rw [ha]; simpa using b) d e⟩
    simp [upd1]
  | re a b d e f g =>
    refine ⟨_, ?_, Rel.re a b (ha.mpr (.inl d)) e f g⟩
    rcases a with rfl | rfl <;> simp [upd1]
  | conflict a b d => exact absurd d hfr

theorem rel_remove {m : Name} {s0 : Option Rec} {added t1 t2 t2' frozen frozen' : Prop} {v : Option Val}
    {cur : Option Rec} (h : Rel m s0 added t1 t2 frozen v cur) (hfr : ¬ frozen) {o c : Name}
    (ho : ∃ u z, o = [u, z] ++ c) (ht2 : t2 → t2') (ht1 : t1 → t2') {check : Option Db}
    (hck : (∃ db, check = some db ∧ db.lookup m = s0) ∨ (check = none ∧ ∃ g, s0 = some ⟨o, c, g⟩)) :
    ∃ w, upd1 m o c .rem [] check v = .ok w ∧ Rel m s0 added t1 t2' frozen' w (curRemove o c cur) := by
  have new : ∀ g, s0 = some ⟨o, c, g⟩ → Rel m s0 added t1 t2' frozen' (some (valNew m o c .rem)) none :=
    fun g hs => Rel.rem (r := some (o, c)) (a := none) (gr := none) hs (.inl ⟨rfl, rfl, ho⟩)
  cases h with
  | none a =>
    simp only [upd1, true_or, true_and, reduceCtorEq, false_and, if_false]
    rcases hck with ⟨db, rfl, hl⟩ | ⟨rfl, g, hs⟩
    · by_cases hex : containsExact db m o c
      · refine ⟨some (valNew m o c .rem), by simp [hex], ?_⟩
        unfold containsExact at hex
        rw [hl] at hex
        cases s0 with
        | none => simp at hex
        | some e =>
          obtain ⟨eo, ec, eg⟩ := e
          simp only [decide_eq_true_eq] at hex
          obtain ⟨rfl, rfl⟩ := hex
          simpa [curRemove] using new eg rfl
      · refine ⟨none, by simp [hex], ?_⟩
        unfold containsExact at hex
        rw [hl] at hex
        cases s0 with
        | none => exact Rel.none a
        | some e =>
          simp only [decide_eq_true_eq] at hex
          have : curRemove o c (some e) = some e := by
            simp only [curRemove]; rw [if_neg]; intro hh; exact hex ⟨hh.1.symm, hh.2.symm⟩
          rw [this]
          exact Rel.none a
    · refine ⟨some (valNew m o c .rem), by simp, ?_⟩
      have := new g hs
      rw [hs] at this ⊢
      simpa [curRemove] using this
  | @add o0 c0 gr a b d =>
    by_cases e : o0 = o ∧ c0 = c
    · obtain ⟨rfl, rfl⟩ := e
      refine ⟨none, by simp [upd1, valEqual], ?_⟩
      subst a
      simpa [curRemove] using (Rel.none (by simp) : Rel m none added t1 t2' frozen' none none)
    · refine ⟨some ⟨m, .add, none, some (o0, c0), gr⟩, by simp [upd1, valEqual]; simpa using e, ?_⟩
      simp only [curRemove, if_neg e]
      exact Rel.add a b d
  | @rem o0 c0 g0 r0 a0 gr0 hs hr =>
    refine ⟨some ⟨m, .rem, r0, a0, gr0⟩, by simp [upd1], Rel.rem hs (hr.imp_right ht2)⟩
  | @prop o0 c0 g gr a b d f =>
    by_cases e : o0 = o ∧ c0 = c
    · obtain ⟨rfl, rfl⟩ := e
      refine ⟨some ⟨m, .rem, none, some (o0, c0), gr⟩, by simp [upd1, valEqual], ?_⟩
      simp only [curRemove, and_self, if_true]
      exact Rel.rem a (.inr (ht1 d))
    · refine ⟨some ⟨m, .prop, none, some (o0, c0), gr⟩, by simp [upd1, valEqual]; simpa using e, ?_⟩
      simp only [curRemove, if_neg e]
      exact Rel.prop a b d f
  | @re ty ro rc o0 c0 g gr a b d f k l =>
    by_cases e : o0 = o ∧ c0 = c
    · obtain ⟨rfl, rfl⟩ := e
      refine ⟨some ⟨m, .rem, some (ro, rc), some (o0, c0), gr⟩, ?_, ?_⟩
      · rcases a with rfl | rfl <;> simp [upd1, valEqual]
      · simp only [curRemove, and_self, if_true]
        exact Rel.rem b (f.elim (fun h => .inl ⟨rfl, h, k⟩) (fun h => .inr (ht1 h)))
    · refine ⟨some ⟨m, ty, some (ro, rc), some (o0, c0), gr⟩, ?_, ?_⟩
      · rcases a with rfl | rfl <;> (simp [upd1, valEqual]; simpa using e)
      · simp only [curRemove, if_neg e]
        exact Rel.re a b d f k l
  | conflict a b d => exact absurd d hfr

theorem cstr_getD (g : List UInt8) (b : Bool) :
    (if g.length > 0 then some (cstr g) else none : Option (List UInt8)).getD [] = cstr g := by
  cases g <;> simp [cstr]

theorem rel_group {m : Name} {s0 : Option Rec} {added t1 t1' t2 frozen frozen' : Prop} {v : Option Val}
    {cur : Option Rec} (h : Rel m s0 added t1 t2 frozen v cur) (hfr : ¬ frozen) {o c : Name}
    (hc : c <:+ o) (ht1 : t1') (g : List UInt8) {check : Option Db}
    (hck : (∃ db, check = some db ∧ db.lookup m = s0) ∨ (check = none ∧ ∃ g, s0 = some ⟨o, c, g⟩)) :
    ∃ w, upd1 m o c .prop g check v = .ok w ∧ Rel m s0 added t1' t2 frozen' w (curGroup o c g cur) := by
  have hval : (if g.length > 0 then setProp (valNew m o c .prop) none g else valNew m o c .prop) =
      ⟨m, .prop, none, some (o, c), if g.length > 0 then some (cstr g) else none⟩ := by
    split <;> simp [setProp, valNew]
  have new : ∀ g0, s0 = some ⟨o, c, g0⟩ → ¬ added → Rel m s0 added t1' t2 frozen'
      (some ⟨m, .prop, none, some (o, c), if g.length > 0 then some (cstr g) else none⟩)
      (some ⟨o, c, cstr g⟩) := by
    intro g0 hs ha
    have := Rel.prop (m := m) (t2 := t2) (frozen := frozen')
      (gr := if g.length > 0 then some (cstr g) else none) hs ha ht1 hc
    rwa [cstr_getD g true] at this
  cases h with
  | none a =>
    simp only [upd1, or_true, true_and, reduceCtorEq, false_and, if_false, hval]
    rcases hck with ⟨db, rfl, hl⟩ | ⟨rfl, g0, hs⟩
    · by_cases hex : containsExact db m o c
      · refine ⟨some ⟨m, .prop, none, some (o, c), if g.length > 0 then some (cstr g) else none⟩,
          by simp [hex], ?_⟩
        unfold containsExact at hex
        rw [hl] at hex
        cases s0 with
        | none => simp at hex
        | some e =>
          obtain ⟨eo, ec, eg⟩ := e
          simp only [decide_eq_true_eq] at hex
          obtain ⟨rfl, rfl⟩ := hex
          simpa [curGroup] using new eg rfl (a (by simp))
      · refine ⟨none, by simp [hex], ?_⟩
        unfold containsExact at hex
        rw [hl] at hex
        cases s0 with
        | none => exact Rel.none a
        | some e =>
          simp only [decide_eq_true_eq] at hex
          have : curGroup o c g (some e) = some e := by
            simp only [curGroup]; rw [if_neg]; intro hh; exact hex ⟨hh.1.symm, hh.2.symm⟩
          rw [this]
          exact Rel.none a
    · refine ⟨some ⟨m, .prop, none, some (o, c), if g.length > 0 then some (cstr g) else none⟩, by simp, ?_⟩
      have := new g0 hs (a (by rw [hs]; simp))
      rw [hs] at this ⊢
      simpa [curGroup] using this
  | @add o0 c0 gr a b d =>
    by_cases e : o0 = o ∧ c0 = c
    · obtain ⟨rfl, rfl⟩ := e
      refine ⟨some ⟨m, .add, none, some (o0, c0), some (cstr g)⟩, by simp [upd1, setProp], ?_⟩
      simp only [curGroup, and_self, if_true]
      exact Rel.add (gr := some (cstr g)) a b d
    · refine ⟨some ⟨m, .add, none, some (o0, c0), gr⟩, ?_, ?_⟩
      · simp [upd1, setProp]; intro h1 h2; exact absurd ⟨h1, h2⟩ e
      simp only [curGroup, if_neg e]
      exact Rel.add a b d
  | @rem o0 c0 g0 r0 a0 gr0 hs hr =>
    refine ⟨some ⟨m, .rem, r0, a0, gr0⟩, by simp [upd1, setProp], Rel.rem hs hr⟩
  | @prop o0 c0 g0 gr a b d f =>
    by_cases e : o0 = o ∧ c0 = c
    · obtain ⟨rfl, rfl⟩ := e
      refine ⟨some ⟨m, .prop, none, some (o0, c0), some (cstr g)⟩, by simp [upd1, setProp], ?_⟩
      simp only [curGroup, and_self, if_true]
      exact Rel.prop (gr := some (cstr g)) a b ht1 f
    · refine ⟨some ⟨m, .prop, none, some (o0, c0), gr⟩, ?_, ?_⟩
      · simp [upd1, setProp]; intro h1 h2; exact absurd ⟨h1, h2⟩ e
      simp only [curGroup, if_neg e]
      exact Rel.prop a b ht1 f
  | @re ty ro rc o0 c0 g0 gr a b d f k l =>
    by_cases e : o0 = o ∧ c0 = c
    · obtain ⟨rfl, rfl⟩ := e
      refine ⟨some ⟨m, ty, some (ro, rc), some (o0, c0), some (cstr g)⟩, ?_, ?_⟩
      · rcases a with rfl | rfl <;> simp [upd1, setProp]
      · simp only [curGroup, and_self, if_true]
        exact Rel.re (gr := some (cstr g)) a b d (.inr ht1) k l
    · refine ⟨some ⟨m, ty, some (ro, rc), some (o0, c0), gr⟩, ?_, ?_⟩
      · rcases a with rfl | rfl <;> (simp [upd1, setProp]; intro h1 h2; exact absurd ⟨h1, h2⟩ e)
      · simp only [curGroup, if_neg e]
        exact Rel.re a b d (.inr ht1) k l
  | conflict a b d => exact absurd d hfr

end Knot.Catalog
