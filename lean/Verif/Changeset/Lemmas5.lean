import Verif.Changeset.Lemmas4
/-!
# Lemmas: sequences of effects, merging, strict replay
-/
namespace Knot.Changeset
open Knot.Dname (Name)
open Knot.Rdataset (Canon canon_ext)

/-! ## Equality of zones -/

theorem sameRRs_of {ty : Nat} {o o' : Option RRs} (g : GoodO o) (g' : GoodO o')
    (hm : ∀ y, y ∈ recs o ↔ y ∈ recs o')
    (ht : ∀ a b, o = some a → o' = some b → SameTtl ty a.ttl b.ttl) : SameRRs ty o o' := by
  cases ho : o with
  | none =>
    cases ho' : o' with
    | none => trivial
    | some b =>
      obtain ⟨y, hy⟩ := g'.ex ho'
      have := (hm y).mpr hy
      rw [ho] at this
      simp [recs] at this
  | some a =>
    cases ho' : o' with
    | none =>
      obtain ⟨y, hy⟩ := g.ex ho
      have := (hm y).mp hy
      rw [ho'] at this
      simp [recs] at this
    | some b =>
      refine ⟨canon_ext (g a ho).2 (g' b ho').2 (fun y => ?_), ht a b ho ho'⟩
      rw [mem_of_some ho, mem_of_some ho']
      exact hm y

theorem SameRRs.mem {ty : Nat} {o o' : Option RRs} (h : SameRRs ty o o') (y : Bytes) :
    y ∈ recs o ↔ y ∈ recs o' := by
  cases o <;> cases o' <;> simp_all [SameRRs, recs]

theorem SameRRs.ttl {ty : Nat} {o o' : Option RRs} (h : SameRRs ty o o') {a b : RRs}
    (ha : o = some a) (hb : o' = some b) : SameTtl ty a.ttl b.ttl := by
  subst ha; subst hb; exact h.2

theorem SameRRs.refl (ty : Nat) (o : Option RRs) : SameRRs ty o o := by
  cases o with
  | none => trivial
  | some a => exact ⟨rfl, .inr rfl⟩

theorem SameRRs.symm {ty : Nat} {o o' : Option RRs} (h : SameRRs ty o o') : SameRRs ty o' o := by
  cases o <;> cases o' <;> first | trivial | exact ⟨h.1.symm, h.2.symm⟩ | exact h

theorem SameRRs.trans {ty : Nat} {o o' o'' : Option RRs} (h : SameRRs ty o o')
    (h' : SameRRs ty o' o'') : SameRRs ty o o'' := by
  cases o <;> cases o' <;> cases o'' <;>
    first | trivial | exact ⟨h.1.trans h'.1, h.2.trans h'.2⟩ | exact absurd h (by simp [SameRRs]) |
      exact absurd h' (by simp [SameRRs])

theorem SameRRs.some_left {ty : Nat} {o o' : Option RRs} (h : SameRRs ty o o') {a : RRs}
    (ha : o = some a) : ∃ b, o' = some b ∧ a.data = b.data ∧ SameTtl ty a.ttl b.ttl := by
  subst ha
  cases o' with
  | none => exact absurd h (by simp [SameRRs])
  | some b => exact ⟨b, rfl, h.1, h.2⟩

theorem Same.refl (c : Contents) : Same c c := fun _ => SameRRs.refl _ _
theorem Same.symm {c d : Contents} (h : Same c d) : Same d c := fun k => (h k).symm
theorem Same.trans {c d e : Contents} (h : Same c d) (h' : Same d e) : Same c e :=
  fun k => (h k).trans (h' k)

theorem Same.isSome {c d : Contents} (h : Same c d) {k : Key} (hs : (lookup c k).isSome) :
    (lookup d k).isSome := by
  obtain ⟨a, ha⟩ := Option.isSome_iff_exists.mp hs
  obtain ⟨b, hb, _⟩ := (h k).some_left ha
  rw [hb]; rfl

theorem Removable.same {c d : Contents} (h : Same c d) {rr : RRset} (hr : Removable c rr) :
    Removable d rr := by
  obtain ⟨h1, h2, h3, a, ha, hs, ht⟩ := hr
  obtain ⟨b, hb, e, et⟩ := (h rr.1).some_left ha
  exact ⟨h1, h2, h3, b, hb, fun x hx => e ▸ hs x hx, ht.trans et⟩

theorem Addable.same {c d : Contents} (h : Same c d) {rr : RRset} (hr : Addable c rr) :
    Addable d rr := by
  obtain ⟨h1, h2, h3, hs⟩ := hr
  refine ⟨h1, h2, h3, fun b hb => ?_⟩
  obtain ⟨a, ha, e, et⟩ := (h.symm rr.1).some_left hb
  obtain ⟨h4, h5⟩ := hs a ha
  exact ⟨fun x hx => e ▸ h4 x hx, h5.trans et.symm⟩

theorem same_removed {c c' d : Contents} (h : Same c d) (wd : Wf d) (w' : Wf c') {rr : RRset}
    (hr : Removed c rr c') : Same (zRem d rr) c' := by
  intro k
  refine sameRRs_of ((wd.zRem rr).goodO k) (w'.goodO k) (fun y => ?_) (fun a b ha hb => ?_)
  · rw [hr.1 k y, (h k).mem, lookup_zRem wd]
    by_cases e : k = rr.1
    · rw [if_pos e, mem_recs_minus]; simp [e]
    · rw [if_neg e]; simp [e]
  · have hd : ∃ dd, lookup d k = some dd ∧ a.ttl = dd.ttl := by
      rw [lookup_zRem wd] at ha
      split at ha
      · exact minus_ttl ha
      · exact ⟨a, ha, rfl⟩
    obtain ⟨dd, hdd, e⟩ := hd
    obtain ⟨cc, hcc, _, et⟩ := (h.symm k).some_left hdd
    rw [e]
    exact et.trans (hr.2 k cc b hcc hb).symm

theorem same_added {c c' d : Contents} (h : Same c d) (wd : Wf d) (w' : Wf c') {rr : RRset}
    (hk : KeyOk rr.1) (hg : Good rr.2) (hr : Added c rr c') : Same (zAdd d rr) c' := by
  intro k
  refine sameRRs_of ((wd.zAdd hk hg).goodO k) (w'.goodO k) (fun y => ?_) (fun a b ha hb => ?_)
  · rw [hr.1 k y, (h k).mem, lookup_zAdd wd]
    by_cases e : k = rr.1
    · rw [if_pos e]
      show y ∈ (nodeAdd _ _ _).data ↔ _
      rw [mem_nodeAdd]; simp [e]
    · rw [if_neg e]; simp [e]
  · rw [lookup_zAdd wd] at ha
    by_cases e : k = rr.1
    · rw [if_pos e, Option.some.injEq] at ha
      subst ha
      subst e
      exact (nodeAdd_ttl (wd.goodO _) rr.2).trans (hr.2.2 b hb).symm
    · rw [if_neg e] at ha
      obtain ⟨cc, hcc, _, et⟩ := (h.symm k).some_left ha
      exact et.trans (hr.2.1 k cc b e hcc hb).symm

theorem same_soa {c c' d : Contents} (h : Same c d) (wd : Wf d) {rr : RRset}
    (hr : SoaReplaced c rr c') : Same (zSoa d rr) c' := by
  intro k
  rw [lookup_zSoa wd]
  have := hr k
  by_cases e : k = rr.1
  · rw [if_pos e] at this ⊢; exact this.symm
  · rw [if_neg e] at this ⊢; exact (h k).symm.trans this.symm

/-- A sequence of effects is carried out by the code. -/
theorem fair_of_effects {apex : Name} {c c' : Contents} {cs : List Call} (h : Effects apex c cs c') :
    ∀ d, Wf d → Same c d → Fair apex d cs ∧ Same (zRun d cs) c' := by
  induction h with
  | nil => exact fun d _ hs => ⟨trivial, hs.symm⟩
  | @cons c c1 c' call cs he w1 _ ih =>
    intro d wd hs
    cases he with
    | remove hr hrd =>
      have hr' := hr.same hs
      obtain ⟨f, e⟩ := ih _ (wd.zRem _) (same_removed hs wd w1 hrd).symm
      exact ⟨.inr ⟨hr', f⟩, by simp only [zRun, if_neg hr.2.2.1]; exact e⟩
    | add ha had =>
      have ha' := ha.same hs
      obtain ⟨f, e⟩ := ih _ (wd.zAdd ha.1 ha.2.1) (same_added hs wd w1 ha.1 ha.2.1 had).symm
      exact ⟨.inr ⟨ha', f⟩, by simp only [zRun, if_neg ha.2.2.1]; exact e⟩
    | soa hg hsome hrd =>
      obtain ⟨f, e⟩ := ih _ (wd.zSoa (soaKey_ok apex) hg) (same_soa hs wd hrd).symm
      exact ⟨.inl ⟨rfl, hg, hs.isSome hsome, f⟩, by simp only [zRun, if_true]; exact e⟩

/-! ## Starting, reordering, reversing -/

theorem leads_init (apex : Name) (z : Contents) {ch : Ch} (ha : ch.add = []) (hr : ch.rem = [])
    (hs : ch.soaTo = none) : Leads apex z z ch := by
  refine ⟨fun k _ => ?_, by rw [hs]; exact SameRRs.refl _ _⟩
  rw [ha, hr]
  refine ⟨by simp [lookup, recs], by simp [lookup, recs], fun x => by simp [lookup, recs], ?_, ?_, ?_⟩
  · intro rr bb h; simp [lookup] at h
  · intro rr bb h; simp [lookup] at h
  · intro bb cc h1 h2 _
    rw [h1, Option.some.injEq] at h2
    exact .inr (by rw [h2])

theorem init_ok {apex : Name} {s : Bool} {z : Contents} (wz : Wf z) {r : RRs}
    (h : lookup z (soaKey apex) = some r) :
    ∃ u, Update.init apex s z = .ok u ∧ u.apex = apex ∧ u.strict = s ∧ u.zone = z ∧
      u.change.Wf apex ∧ Leads apex z z u.change ∧ u.change.soaFrom = some (soaKey apex, r) := by
  refine ⟨⟨apex, s, z, { Ch.init with soaFrom := some (soaKey apex, r) }⟩, by rw [Update.init, h],
    rfl, rfl, rfl, ?_, leads_init apex z rfl rfl rfl, rfl⟩
  refine ⟨⟨by simp [Ch.init], by simp [Ch.init]⟩, ⟨by simp [Ch.init], by simp [Ch.init]⟩, by simp [Ch.init],
    by simp [Ch.init], by simp [Ch.init], ?_⟩
  intro rr hrr
  simp only [Option.some.injEq] at hrr
  subst hrr
  exact ⟨rfl, wz.good h⟩

theorem Ch.Wf.reorder {apex : Name} {ch ch' : Ch} (w : ch.Wf apex) (h : ch.Reorder ch') : ch'.Wf apex :=
  ⟨w.1.perm h.1, w.2.1.perm h.2.1, fun rr hm => w.2.2.1 rr (h.1.mem_iff.mpr hm),
    fun rr hm => w.2.2.2.1 rr (h.2.1.mem_iff.mpr hm), by rw [← h.2.2.2]; exact w.2.2.2.2.1,
    by rw [← h.2.2.1]; exact w.2.2.2.2.2⟩

theorem Leads.reorder {apex : Name} {z c : Contents} {ch ch' : Ch} (w : ch.Wf apex)
    (h : Leads apex z c ch) (hp : ch.Reorder ch') : Leads apex z c ch' := by
  refine ⟨fun k hk => ?_, by rw [← hp.2.2.2]; exact h.2⟩
  rw [lookup_perm hp.1 w.1.1, lookup_perm hp.2.1 w.2.1.1]
  exact h.1 k hk

theorem Leads.swap {apex : Name} {z c : Contents} {ch : Ch} (h : Leads apex z c ch) {s : RRs}
    (hz : lookup z (soaKey apex) = some s) (hf : ch.soaFrom = some (soaKey apex, s)) :
    Leads apex c z ch.swap := by
  refine ⟨fun k hk => (h.1 k hk).swap, ?_⟩
  simp only [Ch.swap, hf]
  rw [hz]
  exact SameRRs.refl _ _

theorem Leads.det {apex : Name} {z c c' : Contents} {ch : Ch} (h : Leads apex z c ch)
    (h' : Leads apex z c' ch) (wc : Wf c) (wc' : Wf c') : Same c c' := by
  intro k
  by_cases hk : k = soaKey apex
  · subst hk
    exact h.2.trans h'.2.symm
  · exact (h.1 k hk).det (h'.1 k hk) (wc.goodO k) (wc'.goodO k)

/-- Replaying a changeset that leads from `z` to `c` gives `c`. -/
theorem replay_leads {apex : Name} {z c : Contents} {ch : Ch} (wz : Wf z) (wc : Wf c)
    (w : ch.Wf apex) (hz : (lookup z (soaKey apex)).isSome) (h : Leads apex z c ch) (s : Bool) :
    ∃ u0 u, Update.init apex s z = .ok u0 ∧ u0.applyChangeset ch = .ok u ∧ Same u.zone c ∧ Wf u.zone ∧
      Leads apex z u.zone ch ∧ u.zone = zRun z ch.walk := by
  obtain ⟨r, hr⟩ := Option.isSome_iff_exists.mp hz
  obtain ⟨u0, e0, ea, _, ez, ew, el, _⟩ := init_ok (s := s) wz hr
  obtain ⟨hf, hl⟩ := replay_fits wz w hz h.fits
  obtain ⟨u, eu, e2, ewf, _⟩ := run_fair (u := u0) (z := z) (cs := ch.walk) (by rw [ez]; exact wz)
    (by rw [ea]; exact ew) (by rw [ea, ez]; exact el) (by rw [ea, ez]; exact hf)
  rw [ez] at e2
  refine ⟨u0, u, e0, eu, ?_, ewf, by rw [e2]; exact hl, e2⟩
  exact Leads.det (by rw [e2]; exact hl) h ewf wc

/-! ## Merging -/

theorem leads_removals {apex : Name} {z : Contents} {l : Contents} {c : Contents} {ch : Ch}
    (h : Leads apex z c ch) (wc : Wf c) (w : ch.Wf apex) (hn : (l.map (·.1)).Nodup)
    (hr : ∀ rr ∈ l, Removable c rr) :
    Leads apex z (l.foldl zRem c) (l.foldl (fun ch rr => addRemoval ch rr true) ch) ∧
      (l.foldl (fun ch rr => addRemoval ch rr true) ch).Wf apex ∧
      (l.foldl (fun ch rr => addRemoval ch rr true) ch).soaTo = ch.soaTo ∧
      (l.foldl (fun ch rr => addRemoval ch rr true) ch).soaFrom = ch.soaFrom := by
  induction l generalizing c ch with
  | nil => exact ⟨h, w, rfl, rfl⟩
  | cons rr t ih =>
    simp only [List.map_cons, List.nodup_cons] at hn
    have h0 := hr rr (by simp)
    obtain ⟨e1, e2, e3, e4⟩ := ih (h.remove wc w h0) (wc.zRem rr) (addRemoval_wf w h0.2.2.1 h0.1 h0.2.1) hn.2
      (fun x hx => removable_other wc (nodup_ne hn.1 hx) (hr x (by simp [hx])))
    exact ⟨e1, e2, e3.trans (addRemoval_soa h0.2.2.1).1, e4.trans (addRemoval_soa h0.2.2.1).2⟩

theorem leads_additions {apex : Name} {z : Contents} {l : Contents} {c : Contents} {ch : Ch}
    (h : Leads apex z c ch) (wc : Wf c) (w : ch.Wf apex) (hn : (l.map (·.1)).Nodup)
    (hr : ∀ rr ∈ l, Addable c rr) :
    Leads apex z (l.foldl zAdd c) (l.foldl (fun ch rr => addAddition ch rr true) ch) ∧
      (l.foldl (fun ch rr => addAddition ch rr true) ch).Wf apex ∧
      (l.foldl (fun ch rr => addAddition ch rr true) ch).soaTo = ch.soaTo ∧
      (l.foldl (fun ch rr => addAddition ch rr true) ch).soaFrom = ch.soaFrom := by
  induction l generalizing c ch with
  | nil => exact ⟨h, w, rfl, rfl⟩
  | cons rr t ih =>
    simp only [List.map_cons, List.nodup_cons] at hn
    have h0 := hr rr (by simp)
    obtain ⟨e1, e2, e3, e4⟩ := ih (h.add wc w h0) (wc.zAdd h0.1 h0.2.1) (addAddition_wf w h0.2.2.1 h0.1 h0.2.1) hn.2
      (fun x hx => addable_other wc (nodup_ne hn.1 hx) (hr x (by simp [hx])))
    exact ⟨e1, e2, e3.trans (addAddition_soa h0.2.2.1).1, e4.trans (addAddition_soa h0.2.2.1).2⟩

theorem zRun_walk {apex : Name} {z : Contents} {ch : Ch} (wz : Wf z) (w : ch.Wf apex)
    (h : Fits apex z ch) :
    zRun z ch.walk = (match ch.soaTo with
      | some rr => zSoa (ch.add.foldl zAdd (ch.rem.foldl zRem z)) rr
      | none => ch.add.foldl zAdd (ch.rem.foldl zRem z)) := by
  have hrem : ∀ (l : Contents) (c : Contents) (rest : List Call), (∀ rr ∈ l, rr.1.type ≠ soa) →
      zRun c (l.map .remove ++ rest) = zRun (l.foldl zRem c) rest := by
    intro l
    induction l with
    | nil => intro c rest _; rfl
    | cons rr t ih =>
      intro c rest hl
      simp only [List.map_cons, List.cons_append, zRun, if_neg (hl rr (by simp))]
      exact ih _ _ (fun x hx => hl x (by simp [hx]))
  have hadd : ∀ (l : Contents) (c : Contents) (rest : List Call), (∀ rr ∈ l, rr.1.type ≠ soa) →
      zRun c (l.map .add ++ rest) = zRun (l.foldl zAdd c) rest := by
    intro l
    induction l with
    | nil => intro c rest _; rfl
    | cons rr t ih =>
      intro c rest hl
      simp only [List.map_cons, List.cons_append, zRun, if_neg (hl rr (by simp))]
      exact ih _ _ (fun x hx => hl x (by simp [hx]))
  rw [Ch.walk, List.append_assoc, List.append_assoc, hrem _ _ _ w.2.2.2.1]
  have : ∀ c rest, zRun c (ch.soaFrom.toList.map .remove ++ rest) = zRun c rest := by
    intro c rest
    cases hs : ch.soaFrom with
    | none => rfl
    | some rr =>
      simp only [Option.toList, List.map_cons, List.map_nil, List.cons_append, List.nil_append, zRun,
        (w.2.2.2.2.2 rr hs).1, if_true]
  rw [this, hadd _ _ _ w.2.2.1]
  cases hs : ch.soaTo with
  | none => rfl
  | some rr =>
    simp only [Option.toList, List.map_cons, List.map_nil, zRun, (w.2.2.2.2.1 rr hs).1, if_true]

/-- Two changesets in turn. -/
theorem leads_merge {apex : Name} {z z1 : Contents} {ch1 ch2 : Ch} (h1 : Leads apex z z1 ch1)
    (wz1 : Wf z1) (w1 : ch1.Wf apex) (w2 : ch2.Wf apex) (h2 : Fits apex z1 ch2)
    (hs : ch2.soaTo = none → ch2.soaFrom = none) :
    Leads apex z (zRun z1 ch2.walk) (chMerge ch1 ch2) ∧ (chMerge ch1 ch2).Wf apex ∧
      (chMerge ch1 ch2).soaFrom = ch1.soaFrom := by
  have wr := (lookup_foldRem wz1 w2.2.1.1 (soaKey apex)).2
  have wa := (lookup_foldAdd wr w2.1 (soaKey apex)).2
  obtain ⟨a1, a2, a3, a4⟩ := leads_removals h1 wz1 w1 w2.2.1.1 (h2.removable w2)
  obtain ⟨b1, b2, b3, b4⟩ := leads_additions a1 wr a2 w2.1.1 (h2.addable wz1 w2)
  rw [zRun_walk wz1 w2 h2]
  unfold chMerge
  cases hto : ch2.soaTo with
  | none =>
    simp only [hs hto, and_self, if_true]
    exact ⟨b1, b2, b4.trans a4⟩
  | some rr =>
    obtain ⟨hk, hg⟩ := w2.2.2.2.2.1 rr hto
    obtain ⟨k, r⟩ := rr
    simp only at hk hg
    subst hk
    simp only [reduceCtorEq, false_and, if_false]
    exact ⟨leads_soa b1 wa r, wf_soa b2 hg, b4.trans a4⟩

/-! ## Strict replay -/

theorem strict_removals {l : Contents} {u u' : Update} {rest : List Call} (hst : u.strict = true)
    (wu : Wf u.zone) (hn : (l.map (·.1)).Nodup) (hg : ∀ rr ∈ l, Good rr.2 ∧ rr.1.type ≠ soa)
    (h : u.run (l.map .remove ++ rest) = .ok u') :
    (∀ rr ∈ l, ∃ d, lookup u.zone rr.1 = some d ∧ ∀ x ∈ rr.2.data, x ∈ d.data) ∧
      ∃ u1 : Update, u1.zone = l.foldl zRem u.zone ∧ u1.apex = u.apex ∧ u1.strict = true ∧
        u1.run rest = .ok u' := by
  induction l generalizing u with
  | nil => exact ⟨by simp, u, rfl, rfl, hst, h⟩
  | cons rr t ih =>
    simp only [List.map_cons, List.nodup_cons] at hn
    obtain ⟨hg0, ht0⟩ := hg rr (by simp)
    simp only [List.map_cons, List.cons_append, Update.run, Call.exec, zuRemove, if_neg hg0.1,
      if_neg ht0] at h
    have hc : canRemove (lookup u.zone rr.1) rr.2 = true := by
      cases hb : canRemove (lookup u.zone rr.1) rr.2 with
      | true => rfl
      | false => simp [applyRemove, hb, hst] at h
    have hd : ∃ d, lookup u.zone rr.1 = some d ∧ ∀ x ∈ rr.2.data, x ∈ d.data := by
      cases hl : lookup u.zone rr.1 with
      | none => simp [hl, canRemove] at hc
      | some d => exact ⟨d, rfl, by simpa [hl, canRemove] using hc⟩
    obtain ⟨d, hd, hs⟩ := hd
    rw [applyRemove_ok hd hs, Res.bind_ok, Res.bind_ok] at h
    obtain ⟨i1, u1, i2, i3, i4, i5⟩ := ih (u := { u with zone := zRem u.zone rr, change := addRemoval u.change rr true })
      hst (wu.zRem rr) hn.2 (fun x hx => hg x (by simp [hx])) h
    refine ⟨fun x hx => ?_, u1, i2, i3, i4, i5⟩
    rcases List.mem_cons.mp hx with e | e
    · exact e ▸ ⟨d, hd, hs⟩
    · obtain ⟨dd, hdd, hh⟩ := i1 x e
      simp only [lookup_zRem wu, if_neg (nodup_ne hn.1 e)] at hdd
      exact ⟨dd, hdd, hh⟩

theorem strict_additions {l : Contents} {u u' : Update} {rest : List Call} (hst : u.strict = true)
    (wu : Wf u.zone) (wl : Wf l) (hg : ∀ rr ∈ l, rr.1.type ≠ soa)
    (ht : ∀ rr ∈ l, ∀ d, lookup u.zone rr.1 = some d → SameTtl rr.1.type rr.2.ttl d.ttl)
    (h : u.run (l.map .add ++ rest) = .ok u') : ∀ rr ∈ l, Addable u.zone rr := by
  induction l generalizing u with
  | nil => simp
  | cons rr t ih =>
    have hn := wl.1
    simp only [List.map_cons, List.nodup_cons] at hn
    obtain ⟨hk0, hg0⟩ := wl.2 rr (by simp)
    have ht0 := hg rr (by simp)
    simp only [List.map_cons, List.cons_append, Update.run, Call.exec] at h
    have hc : canAdd (lookup u.zone rr.1) rr.2 = true := by
      cases hb : canAdd (lookup u.zone rr.1) rr.2 with
      | true => rfl
      | false => simp [zuAdd, zuAddN, if_neg hg0.1, if_neg ht0, applyAdd, hb, hst] at h
    have ha : Addable u.zone rr := by
      refine ⟨hk0, hg0, ht0, fun d hd => ⟨?_, ht rr (by simp) d hd⟩⟩
      simpa [hd, canAdd] using hc
    rw [zuAdd_ok wu ha, Res.bind_ok] at h
    have i1 := ih (u := { u with zone := zAdd u.zone rr, change := addAddition u.change rr true })
      hst (wu.zAdd hk0 hg0) ⟨hn.2, fun x hx => wl.2 x (by simp [hx])⟩ (fun x hx => hg x (by simp [hx]))
      (fun x hx d hd => by
        simp only [lookup_zAdd wu, if_neg (nodup_ne hn.1 hx)] at hd
        exact ht x (by simp [hx]) d hd) h
    intro x hx
    rcases List.mem_cons.mp hx with e | e
    · exact e ▸ ha
    · obtain ⟨h1, h2, h3, h4⟩ := i1 x e
      refine ⟨h1, h2, h3, ?_⟩
      simpa only [lookup_zAdd wu, if_neg (nodup_ne hn.1 e)] using h4

/-- A changeset that a strict update accepts fits, if its TTLs suit the zone. -/
theorem fits_of_strict {apex : Name} {z : Contents} {ch : Ch} (wz : Wf z) (w : ch.Wf apex)
    (ht : ch.TtlOk z) {u0 u : Update} (hi : Update.init apex true z = .ok u0)
    (h : u0.applyChangeset ch = .ok u) : Fits apex z ch := by
  have hz : ∃ r, lookup z (soaKey apex) = some r := by
    unfold Update.init at hi
    split at hi
    · simp at hi
    · rename_i s hs; exact ⟨s, hs⟩
  obtain ⟨r, hr⟩ := hz
  obtain ⟨u0', e0, ea, es, ez, _⟩ := init_ok (s := true) wz hr
  rw [hi, Res.ok.injEq] at e0
  subst e0
  have hw : ch.walk = ch.rem.map .remove ++
      (ch.soaFrom.toList.map .remove ++ (ch.add.map .add ++ ch.soaTo.toList.map .add)) := by
    simp [Ch.walk, List.append_assoc]
  rw [Update.applyChangeset, hw] at h
  obtain ⟨hrem, u1, z1, a1, s1, r1⟩ := strict_removals es (by rw [ez]; exact wz) w.2.1.1
    (fun rr hm => ⟨(w.2.1.2 rr hm).2, w.2.2.2.1 rr hm⟩) h
  rw [ez] at hrem z1
  have r2 : u1.run (ch.add.map .add ++ ch.soaTo.toList.map .add) = .ok u := by
    cases hs : ch.soaFrom with
    | none => rw [hs] at r1; exact r1
    | some rr =>
      rw [hs] at r1
      simpa only [Option.toList, List.map_cons, List.map_nil, List.cons_append, List.nil_append,
        Update.run, Call.exec, zuRemove_soa (show rr.1.type = soa by rw [(w.2.2.2.2.2 rr hs).1]),
        Res.bind_ok] using r1
  have l1 := fun k => (lookup_foldRem wz w.2.1.1 k).1
  have w1 := (lookup_foldRem wz w.2.1.1 (soaKey apex)).2
  have hadd := strict_additions s1 (by rw [z1]; exact w1) w.1 w.2.2.1 (fun rr hm d hd => by
    rw [z1, l1] at hd
    obtain ⟨bb, hb, e⟩ := minusO_ttl hd
    rw [e]
    have hgd : d.data ≠ [] := ((wz.goodO rr.1).minusO _ d hd).1
    obtain ⟨y, hy⟩ := List.exists_mem_of_ne_nil _ hgd
    have := mem_minusO.mp ((mem_of_some hd).mp hy)
    exact ht.2 rr hm bb hb ⟨y, (mem_of_some hb).mpr this.1, this.2⟩) r2
  intro k hk
  refine ⟨?_, ?_, ?_, ?_⟩
  · intro x hx
    obtain ⟨rr, hrr, hm⟩ := recs_ne hx
    obtain ⟨d, hd, hs⟩ := hrem _ (lookup_mem hrr)
    exact (mem_of_some hd).mp (hs x hm)
  · intro x hx hb
    obtain ⟨aa, haa, hm⟩ := recs_ne hx
    obtain ⟨_, _, _, hh⟩ := hadd _ (lookup_mem haa)
    rw [z1] at hh
    by_cases hxr : x ∈ recs (lookup ch.rem k)
    · exact hxr
    · have : x ∈ recs (lookup (ch.rem.foldl zRem z) k) := by
        rw [l1]; exact mem_minusO.mpr ⟨hb, hxr⟩
      obtain ⟨d, hd, hxd⟩ := recs_ne this
      exact absurd hxd ((hh d hd).1 x hm)
  · intro rr bb hrr hbb
    exact ht.1 _ (lookup_mem hrr) bb hbb
  · intro aa bb haa hbb hex
    exact ht.2 _ (lookup_mem haa) bb hbb hex

theorem Fits.ttlOk {apex : Name} {z : Contents} {ch : Ch} (w : ch.Wf apex) (h : Fits apex z ch) :
    ch.TtlOk z := by
  have ne : ∀ rr : RRset, rr.1.type ≠ soa → rr.1 ≠ soaKey apex := by
    intro rr hn e
    exact hn (by rw [e])
  refine ⟨fun rr hm d hd => ?_, fun rr hm d hd hex => ?_⟩
  · exact (h rr.1 (ne rr (w.2.2.2.1 rr hm))).tr _ _ (mem_lookup w.2.1.1 (k := rr.1) (r := rr.2) hm) hd
  · exact (h rr.1 (ne rr (w.2.2.1 rr hm))).tx _ _ (mem_lookup w.1.1 (k := rr.1) (r := rr.2) hm) hd hex

/-! ## The depth of the recursion -/

theorem zuAdd_depth {n : Nat} {u : Update} (wu : Wf u.zone) {rr : RRset} (hk : KeyOk rr.1)
    (hc : Canon rr.2.data) : zuAddN (n + 2) u rr = zuAddN 2 u rr := by
  rw [zuAddN, zuAddN]
  by_cases h0 : rr.2.data = []
  · simp [h0]
  · rw [if_neg h0, if_neg h0]
    by_cases hs : rr.1.type = soa
    · simp only [hs, if_true]
      cases applyReplaceSoa u.strict u.apex u.zone rr with
      | ok z => simp [solveTtl, hs]
      | err e => rfl
      | ub => rfl
    · simp only [if_neg hs]
      cases ha : applyAdd u.strict u.zone rr with
      | err e => rfl
      | ub => rfl
      | ok z =>
        have wz : Wf z := by
          unfold applyAdd at ha
          split at ha
          · split at ha
            · simp at ha
            · rw [Res.ok.injEq] at ha; exact ha ▸ wu
          · rw [Res.ok.injEq] at ha
            rw [← ha]
            exact wu.zAdd hk ⟨h0, hc⟩
        simp only [Res.bind_ok]
        have key : solveTtl (zuAddN (n + 1)) { u with zone := z } rr =
            solveTtl (zuAddN 1) { u with zone := z } rr := by
          unfold solveTtl
          split
          · rfl
          · rename_i hn
            cases he : lookup z { rr.1 with nsec3 := false } with
            | none => rfl
            | some e =>
              simp only
              split
              · rfl
              · have hko := wz.key he
                have hge := wz.good he
                have hrem : Removable z ({ rr.1 with nsec3 := false }, e) :=
                  ⟨hko, hge, hs, e, he, fun _ h => h, .inr rfl⟩
                rw [zuRemove_ok (u := { u with zone := z }) hrem]
                simp only [Res.bind_ok]
                have hnone : lookup (zRem z ({ rr.1 with nsec3 := false }, e)) { rr.1 with nsec3 := false } = none := by
                  rw [lookup_zRem wz, if_pos rfl, he, minus_self]
                have hadd : Addable (zRem z ({ rr.1 with nsec3 := false }, e))
                    ({ rr.1 with nsec3 := false }, { e with ttl := rr.2.ttl }) :=
                  ⟨hko, hge, hs, fun d hd => by rw [hnone] at hd; simp at hd⟩
                rw [zuAddN_ok (wz.zRem _) hadd, zuAddN_ok (wz.zRem _) hadd]
        rw [key]

end Knot.Changeset
