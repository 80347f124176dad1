import Verif.Ddns.Lemmas4
/-! # Dynamic updates: messages, prerequisites -/
namespace Knot.Ddns
open Knot.Dname (Name)
open Knot.Changeset

/-! ## Messages -/

theorem processUpdate_cons {serialOf : Bytes → Nat} {sn : Nat} {u : Update} {r : Rec} {rs : List Rec} :
    processUpdate serialOf sn u (r :: rs) = (do
      let u ← doRec serialOf sn u r
      processUpdate serialOf sn u rs) := by
  rw [processUpdate, doRec]
  cases skipSoa serialOf sn r <;> rfl

theorem Apart.step {apex : Name} {z z' : Contents} {o : Name} (h : Apart apex z o) (hw : Wf z')
    (hn : ∀ o t, lookup z' ⟨true, o, t⟩ = lookup z ⟨true, o, t⟩) : Apart apex z' o := by
  intro rr hm h3
  have h1 := mem_lookup hw.1 hm
  have hk : rr.1 = ⟨true, rr.1.owner, rr.1.type⟩ := by rw [← h3]
  rw [hk, hn, ← hk] at h1
  exact h rr (lookup_mem h1) h3

/-- There is at most one NSEC3PARAM to be added. -/
def params (rs : List Rec) : List Rec := rs.filter (fun r => decide (r.type = nsec3param))

theorem processUpdate_ok {apex : Name} {serialOf : Bytes → Nat} (hs : ∀ d, serialOf d < 4294967296) {sn : Nat}
    (hsn : sn < 4294967296) (rs : List Rec) : ∀ {u : Update}, u.apex = apex → Proper apex u.zone →
    (∀ r ∈ rs, Plain apex u.zone r) →
    (∀ r ∈ rs, r.cls = classIn ∨ r.cls = classAny ∨ r.cls = classNone) →
    (∀ r ∈ rs, r.type = nsec3param → r.owner = apex) →
    (params rs = [] ∨ ((params rs).length = 1 ∧ ¬ HasType u.zone apex nsec3param)) →
    ∃ u', processUpdate serialOf sn u rs = .ok u' ∧ u'.apex = apex ∧ Proper apex u'.zone ∧
      Steps apex serialOf sn u.zone rs u'.zone := by
  induction rs with
  | nil => exact fun {u} hu hz _ _ _ _ => ⟨u, rfl, hu, hz, .nil⟩
  | cons r rs ih =>
    intro u hu hz hp hc ho hn
    subst hu
    have hn' : r.cls = classIn → r.type = nsec3param → ¬ HasType u.zone r.owner nsec3param := by
      intro _ ht
      rcases hn with e | e
      · simp [params, ht] at e
      · rw [ho r (by simp) ht]; exact e.2
    obtain ⟨u1, e, e1, e2, e3⟩ := doRec_ok hz hs hsn (hp r (by simp)) (hc r (by simp)) hn'
    have hp1 : ∀ r' ∈ rs, Plain u.apex u1.zone r' := by
      intro r' hr'
      have := hp r' (by simp [hr'])
      exact ⟨this.inside, this.apart.step e2.wf e3.nsec3, this.nsec3⟩
    have hn1 : params rs = [] ∨ ((params rs).length = 1 ∧ ¬ HasType u1.zone u.apex nsec3param) := by
      by_cases ht : r.type = nsec3param
      · left
        rcases hn with e | e
        · simp [params, ht] at e
        · have := e.1
          simp only [params, ht, decide_true, List.filter_cons_of_pos, List.length_cons,
            Nat.add_eq_right, List.length_eq_zero_iff] at this
          exact this
      · have hpe : params (r :: rs) = params rs := by simp [params, ht]
        rw [hpe] at hn
        rcases hn with e | e
        · exact .inl e
        · refine .inr ⟨e.1, ?_⟩
          rintro ⟨x, hx⟩
          rcases (e3.data _ _ _).mp hx with h | h
          · exact e.2 ⟨x, h.1⟩
          · exact ht h.2.2.1.symm
    obtain ⟨u2, f, f1, f2, f3⟩ := ih e1 e2 hp1 (fun r' h => hc r' (by simp [h]))
      (fun r' h => ho r' (by simp [h])) hn1
    refine ⟨u2, ?_, f1, f2, .cons e3 e2 f3⟩
    rw [processUpdate_cons, e, Res.bind_ok, f]

theorem Steps.nsec3 {apex : Name} {serialOf : Bytes → Nat} {sn : Nat} {z z' : Contents} {rs : List Rec}
    (h : Steps apex serialOf sn z rs z') : ∀ o t, lookup z' ⟨true, o, t⟩ = lookup z ⟨true, o, t⟩ := by
  induction h with
  | nil => exact fun _ _ => rfl
  | cons h1 _ _ ih => exact fun o t => (ih o t).trans (h1.nsec3 o t)

/-! ## Prerequisites about values -/

/-- The records of a prerequisite about values. -/
def ValRec (r : Rec) : Prop := r.cls ≠ classAny ∧ r.cls ≠ classNone

instance (r : Rec) : Decidable (ValRec r) := by unfold ValRec; infer_instance

/-- The list of RRsets is made of the records. -/
structure Groups (l : List (Name × Nat × List Bytes)) (rs : List Rec) : Prop where
  nodup : l.Pairwise (fun a b => ¬ (a.1 = b.1 ∧ a.2.1 = b.2.1))
  canon : ∀ e ∈ l, Rdataset.Canon e.2.2
  sound : ∀ e ∈ l, ∀ x, x ∈ e.2.2 ↔ ∃ r ∈ rs, ValRec r ∧ r.owner = e.1 ∧ r.type = e.2.1 ∧ r.data = x
  full : ∀ r ∈ rs, ValRec r → ∃ e ∈ l, e.1 = r.owner ∧ e.2.1 = r.type
  ne : ∀ e ∈ l, e.2.2 ≠ []

theorem addToList_keys {l : List (Name × Nat × List Bytes)} {r : Rec} {e : Name × Nat × List Bytes}
    (h : e ∈ addToList l r) : (e ∈ l ∧ ¬ (e.1 = r.owner ∧ e.2.1 = r.type)) ∨
      (e.1 = r.owner ∧ e.2.1 = r.type ∧
        ((∃ d, (r.owner, r.type, d) ∈ l ∧ e.2.2 = insertRd r.data d) ∨
         ((∀ e' ∈ l, ¬ (e'.1 = r.owner ∧ e'.2.1 = r.type)) ∧ e.2.2 = [r.data]))) ∨
      (e ∈ l ∧ e.1 = r.owner ∧ e.2.1 = r.type ∧ ∃ e0 ∈ l, e0.1 = r.owner ∧ e0.2.1 = r.type ∧
        ¬ l.Pairwise (fun a b => ¬ (a.1 = b.1 ∧ a.2.1 = b.2.1))) := by
  induction l with
  | nil =>
    simp only [addToList, List.mem_singleton] at h
    subst h
    exact .inr (.inl ⟨rfl, rfl, .inr ⟨by simp, rfl⟩⟩)
  | cons a l ih =>
    obtain ⟨o, t, d⟩ := a
    unfold addToList at h
    by_cases hk : t = r.type ∧ o = r.owner
    · rw [if_pos hk] at h
      obtain ⟨rfl, rfl⟩ := hk
      rcases List.mem_cons.mp h with e' | e'
      · subst e'
        exact .inr (.inl ⟨rfl, rfl, .inl ⟨d, by simp, rfl⟩⟩)
      · by_cases hm : e.1 = r.owner ∧ e.2.1 = r.type
        · refine .inr (.inr ⟨by simp [e'], hm.1, hm.2, (r.owner, r.type, d), by simp, rfl, rfl, ?_⟩)
          intro hp
          exact (List.pairwise_cons.mp hp).1 e e' ⟨hm.1.symm, hm.2.symm⟩
        · exact .inl ⟨by simp [e'], hm⟩
    · rw [if_neg hk] at h
      rcases List.mem_cons.mp h with e' | e'
      · subst e'
        exact .inl ⟨by simp, fun q => hk ⟨q.2, q.1⟩⟩
      · rcases ih e' with q | q | q
        · exact .inl ⟨by simp [q.1], q.2⟩
        · refine .inr (.inl ⟨q.1, q.2.1, ?_⟩)
          rcases q.2.2 with ⟨d', h1, h2⟩ | ⟨h1, h2⟩
          · exact .inl ⟨d', by simp [h1], h2⟩
          · refine .inr ⟨?_, h2⟩
            intro e0 he0
            rcases List.mem_cons.mp he0 with w | w
            · subst w; exact fun q => hk ⟨q.2, q.1⟩
            · exact h1 e0 w
        · obtain ⟨h1, h2, h3, e0, h4, h5, h6, h7⟩ := q
          exact .inr (.inr ⟨by simp [h1], h2, h3, e0, by simp [h4], h5, h6,
            fun hp => h7 (List.pairwise_cons.mp hp).2⟩)

theorem addToList_mono {l : List (Name × Nat × List Bytes)} {r : Rec} {e : Name × Nat × List Bytes} (h : e ∈ l) :
    ∃ e' ∈ addToList l r, e'.1 = e.1 ∧ e'.2.1 = e.2.1 := by
  induction l with
  | nil => cases h
  | cons a l ih =>
    obtain ⟨o, t, d⟩ := a
    unfold addToList
    by_cases hk : t = r.type ∧ o = r.owner
    · rw [if_pos hk]
      rcases List.mem_cons.mp h with e' | e'
      · subst e'; exact ⟨_, List.mem_cons_self, rfl, rfl⟩
      · exact ⟨e, by simp [e'], rfl, rfl⟩
    · rw [if_neg hk]
      rcases List.mem_cons.mp h with e' | e'
      · subst e'; exact ⟨_, List.mem_cons_self, rfl, rfl⟩
      · obtain ⟨e1, h1, h2⟩ := ih e'
        exact ⟨e1, by simp [h1], h2⟩

theorem addToList_new (l : List (Name × Nat × List Bytes)) (r : Rec) :
    ∃ e' ∈ addToList l r, e'.1 = r.owner ∧ e'.2.1 = r.type := by
  induction l with
  | nil => exact ⟨_, List.mem_cons_self, rfl, rfl⟩
  | cons a l ih =>
    obtain ⟨o, t, d⟩ := a
    unfold addToList
    by_cases hk : t = r.type ∧ o = r.owner
    · rw [if_pos hk]; exact ⟨_, List.mem_cons_self, hk.2, hk.1⟩
    · rw [if_neg hk]
      obtain ⟨e1, h1, h2⟩ := ih
      exact ⟨e1, by simp [h1], h2⟩

theorem addToList_keyset {l : List (Name × Nat × List Bytes)} {r : Rec} {e : Name × Nat × List Bytes}
    (h : e ∈ addToList l r) : (e.1 = r.owner ∧ e.2.1 = r.type) ∨ e ∈ l := by
  rcases addToList_keys h with q | q | q
  · exact .inr q.1
  · exact .inl ⟨q.1, q.2.1⟩
  · exact .inr q.1

theorem addToList_nodup {l : List (Name × Nat × List Bytes)} (r : Rec)
    (h : l.Pairwise (fun a b => ¬ (a.1 = b.1 ∧ a.2.1 = b.2.1))) :
    (addToList l r).Pairwise (fun a b => ¬ (a.1 = b.1 ∧ a.2.1 = b.2.1)) := by
  induction l with
  | nil => simp [addToList]
  | cons a l ih =>
    obtain ⟨o, t, d⟩ := a
    have hp := List.pairwise_cons.mp h
    unfold addToList
    by_cases hk : t = r.type ∧ o = r.owner
    · rw [if_pos hk]
      exact List.pairwise_cons.mpr ⟨fun b hb => hp.1 b hb, hp.2⟩
    · rw [if_neg hk]
      refine List.pairwise_cons.mpr ⟨fun b hb => ?_, ih hp.2⟩
      rcases addToList_keyset hb with q | q
      · simp only
        rintro ⟨h1, h2⟩
        exact hk ⟨h2.trans q.2, h1.trans q.1⟩
      · exact hp.1 b q

theorem Groups.add {l : List (Name × Nat × List Bytes)} {rs : List Rec} (h : Groups l rs) {r : Rec}
    (hr : ValRec r) : Groups (addToList l r) (rs ++ [r]) := by
  have hex : ∀ (P : Rec → Prop), (∃ r' ∈ rs ++ [r], P r') ↔ (∃ r' ∈ rs, P r') ∨ P r := by
    intro P
    simp only [List.mem_append, List.mem_singleton]
    constructor
    · rintro ⟨r', h1 | h1, h2⟩
      · exact .inl ⟨r', h1, h2⟩
      · exact .inr (h1 ▸ h2)
    · rintro (⟨r', h1, h2⟩ | h2)
      · exact ⟨r', .inl h1, h2⟩
      · exact ⟨r, .inr rfl, h2⟩
  refine ⟨addToList_nodup r h.nodup, ?_, ?_, ?_, ?_⟩
  · intro e he
    rcases addToList_keys he with q | q | q
    · exact h.canon e q.1
    · rcases q.2.2 with ⟨d, h1, h2⟩ | ⟨_, h2⟩
      · rw [h2]; exact canon_insertRd (h.canon _ h1)
      · rw [h2]; simp [Rdataset.Canon]
    · exact h.canon e q.1
  · intro e he x
    rw [hex]
    rcases addToList_keys he with q | q | q
    · rw [h.sound e q.1]
      constructor
      · exact .inl
      · rintro (w | w)
        · exact w
        · exact absurd ⟨w.2.1.symm, w.2.2.1.symm⟩ q.2
    · rcases q.2.2 with ⟨d, h1, h2⟩ | ⟨h1, h2⟩
      · rw [h2, mem_insertRd]
        have := h.sound _ h1 x
        simp only at this
        rw [this, q.1, q.2.1]
        constructor
        · rintro (w | w)
          · exact .inr ⟨hr, rfl, rfl, w.symm⟩
          · exact .inl w
        · rintro (w | w)
          · exact .inr w
          · exact .inl w.2.2.2.symm
      · rw [h2, q.1, q.2.1]
        simp only [List.mem_singleton]
        constructor
        · exact fun w => .inr ⟨hr, by simp, by simp, w.symm⟩
        · rintro (⟨r', w1, w2, w3, w4, _⟩ | w)
          · obtain ⟨e', f1, f2, f3⟩ := h.full r' w1 w2
            exact absurd ⟨f2.trans w3, f3.trans w4⟩ (h1 e' f1)
          · exact w.2.2.2.symm
    · obtain ⟨_, _, _, _, _, _, _, h7⟩ := q
      exact absurd h.nodup h7
  · intro r' hr' hv
    rcases List.mem_append.mp hr' with w | w
    · obtain ⟨e, h1, h2, h3⟩ := h.full r' w hv
      obtain ⟨e', h4, h5, h6⟩ := addToList_mono (r := r) h1
      exact ⟨e', h4, h5.trans h2, h6.trans h3⟩
    · simp only [List.mem_singleton] at w
      subst w
      exact addToList_new l r'
  · intro e he
    rcases addToList_keys he with q | q | q
    · exact h.ne e q.1
    · rcases q.2.2 with ⟨d, h1, h2⟩ | ⟨_, h2⟩
      · intro hc
        have : r.data ∈ e.2.2 := by rw [h2]; exact mem_insertRd.mpr (.inl rfl)
        rw [hc] at this; cases this
      · rw [h2]; simp
    · exact h.ne e q.1

theorem Groups.skip {l : List (Name × Nat × List Bytes)} {rs : List Rec} (h : Groups l rs) {r : Rec}
    (hr : ¬ ValRec r) : Groups l (rs ++ [r]) := by
  refine ⟨h.nodup, h.canon, ?_, ?_, h.ne⟩
  · intro e he x
    rw [h.sound e he]
    constructor
    · rintro ⟨r', h1, h2⟩; exact ⟨r', by simp [h1], h2⟩
    · rintro ⟨r', h1, h2⟩
      rcases List.mem_append.mp h1 with w | w
      · exact ⟨r', w, h2⟩
      · simp only [List.mem_singleton] at w
        subst w; exact absurd h2.1 hr
  · intro r' h1 h2
    rcases List.mem_append.mp h1 with w | w
    · exact h.full r' w h2
    · simp only [List.mem_singleton] at w
      subst w; exact absurd h2 hr

theorem checkStored_ok {apex : Name} {z : Contents} (hz : Wf z) {rs : List Rec}
    (l : List (Name × Nat × List Bytes))
    (ha : ∀ e ∈ l, Apart apex z e.1 ∧ Under apex e.1 ∧ e.2.1 ≠ typeAny) :
    (checkStored apex z l = .ok 0 ∧ ∀ e ∈ l, recs (lookup z ⟨false, e.1, e.2.1⟩) = e.2.2) ∨
    (checkStored apex z l = .ok nxrrset ∧ ∃ e ∈ l, e.2.2 = [] ∨ recs (lookup z ⟨false, e.1, e.2.1⟩) ≠ e.2.2) := by
  induction l with
  | nil => exact .inl ⟨rfl, by simp⟩
  | cons e l ih =>
    obtain ⟨h1, h2, h3⟩ := ha e (by simp)
    unfold checkStored checkExists
    rw [if_neg h3, nodeRR_eq h1 h2]
    cases hl : lookup z ⟨false, e.1, e.2.1⟩ with
    | none =>
      refine .inr ⟨rfl, e, by simp, ?_⟩
      by_cases he : e.2.2 = []
      · exact .inl he
      · exact .inr (by rw [hl]; exact fun w => he w.symm)
    | some d =>
      by_cases hd : d.data = e.2.2
      · simp only [hd, if_true, Res.bind_ok, ne_eq, not_true, if_false]
        rcases ih (fun e' h => ha e' (by simp [h])) with ⟨f1, f2⟩ | ⟨f1, e', f2, f3⟩
        · refine .inl ⟨f1, ?_⟩
          intro e' he'
          rcases List.mem_cons.mp he' with w | w
          · subst w; rw [hl]; exact hd
          · exact f2 e' w
        · exact .inr ⟨f1, e', by simp [f2], f3⟩
      · simp only [hd, if_false, Res.bind_ok]
        exact .inr ⟨rfl, e, by simp, .inr (by rw [hl]; exact hd)⟩

theorem values_iff {z : Contents} (hz : Wf z) {rs : List Rec} {l : List (Name × Nat × List Bytes)}
    (h : Groups l rs) : Values z rs ↔ ∀ e ∈ l, recs (lookup z ⟨false, e.1, e.2.1⟩) = e.2.2 := by
  have hval : ∀ e ∈ l, ∀ x, x ∈ e.2.2 ↔ ∃ r' ∈ rs, r'.cls ≠ classAny ∧ r'.cls ≠ classNone ∧
      r'.owner = e.1 ∧ r'.type = e.2.1 ∧ r'.data = x := by
    intro e he x
    rw [h.sound e he]
    simp only [ValRec, and_assoc]
  constructor
  · intro hv e he
    obtain ⟨x, hx⟩ := List.exists_mem_of_ne_nil _ (h.ne e he)
    obtain ⟨r, hr, c1, c2, c3, c4, _⟩ := (hval e he x).mp hx
    have := hv r hr c1 c2
    rw [c3, c4] at this
    have hmem : ∀ y, y ∈ recs (lookup z ⟨false, e.1, e.2.1⟩) ↔ y ∈ e.2.2 := fun y =>
      (this y).trans (hval e he y).symm
    cases hl : lookup z ⟨false, e.1, e.2.1⟩ with
    | none =>
      have := (hmem x).mpr hx
      rw [hl] at this; cases this
    | some d =>
      rw [hl] at hmem
      exact Rdataset.canon_ext (hz.good hl).2 (h.canon e he) hmem
  · intro hg r hr c1 c2 x
    obtain ⟨e, he, e1, e2⟩ := h.full r hr ⟨c1, c2⟩
    unfold Has
    rw [← e1, ← e2, hg e he]
    exact hval e he x

/-- One prerequisite. -/
theorem processPrereq_ok {apex : Name} {z : Contents} (hz : Wf z) {qclass : Nat} {r : Rec}
    (ha : Apart apex z r.owner) (l : List (Name × Nat × List Bytes)) :
    (processPrereq apex z qclass l r = .ok (if ValRec r then addToList l r else l) ∧
      r.PreForm apex qclass ∧ r.Exist z) ∨
    (∃ c, processPrereq apex z qclass l r = .error c ∧ PreFail apex z qclass r c) := by
  have hzone : inZone apex r.owner = true ↔ Under apex r.owner := List.isSuffixOf_iff_suffix
  unfold processPrereq
  by_cases h1 : r.ttl = 0
  · rw [if_neg (fun e => e h1)]
    by_cases h2 : Under apex r.owner
    · rw [if_neg (fun e => e (hzone.mpr h2)), nodeRR_eq ha h2]
      have hty := @hasType_iff z hz r.owner r.type
      have hu := inUse_iff hz ha h2
      have hfail : ¬ r.PreForm apex qclass → PreFail apex z qclass r formerr := .form h1 h2
      by_cases h3 : r.cls = classAny
      · rw [if_pos h3]
        have hv : ¬ ValRec r := fun e => e.1 h3
        have hnn : r.cls ≠ classNone := by rw [h3]; decide
        rw [if_neg hv]
        by_cases h4 : r.data = []
        · rw [if_neg (fun e => e h4)]
          have hf : r.PreForm apex qclass := ⟨h1, h2, .inl ⟨.inl h3, h4⟩⟩
          by_cases h5 : r.type = typeAny
          · rw [if_pos h5]
            by_cases h6 : nodeRRsets apex z r.owner = []
            · rw [if_pos h6]
              exact .inr ⟨_, rfl, .nxdomain hf h3 h5 (by rw [hu]; simp [h6])⟩
            · rw [if_neg h6]
              exact .inl ⟨rfl, hf, fun _ _ => hu.mpr h6, fun _ e => absurd h5 e, fun e => absurd e hnn,
                fun e => absurd e hnn⟩
          · rw [if_neg h5]
            by_cases h6 : HasType z r.owner r.type
            · rw [if_pos (hty.mp h6)]
              exact .inl ⟨rfl, hf, fun _ e => absurd e h5, fun _ _ => h6, fun e => absurd e hnn,
                fun e => absurd e hnn⟩
            · rw [if_neg (fun e => h6 (hty.mpr e))]
              exact .inr ⟨_, rfl, .nxrrset hf h3 h5 h6⟩
        · rw [if_pos h4]
          refine .inr ⟨_, rfl, hfail ?_⟩
          rintro ⟨_, _, e | e⟩
          · exact h4 e.2
          · exact e.1 h3
      · rw [if_neg h3]
        by_cases h3' : r.cls = classNone
        · rw [if_pos h3']
          have hv : ¬ ValRec r := fun e => e.2 h3'
          rw [if_neg hv]
          by_cases h4 : r.data = []
          · rw [if_neg (fun e => e h4)]
            have hf : r.PreForm apex qclass := ⟨h1, h2, .inl ⟨.inr h3', h4⟩⟩
            by_cases h5 : r.type = typeAny
            · rw [if_pos h5]
              by_cases h6 : nodeRRsets apex z r.owner = []
              · rw [if_pos h6]
                exact .inl ⟨rfl, hf, fun e => absurd e h3, fun e => absurd e h3,
                  fun _ _ => by rw [hu]; simp [h6], fun _ e => absurd h5 e⟩
              · rw [if_neg h6]
                exact .inr ⟨_, rfl, .yxdomain hf h3' h5 (hu.mpr h6)⟩
            · rw [if_neg h5]
              by_cases h6 : HasType z r.owner r.type
              · rw [if_pos (hty.mp h6)]
                exact .inr ⟨_, rfl, .yxrrset hf h3' h5 h6⟩
              · rw [if_neg (fun e => h6 (hty.mpr e))]
                exact .inl ⟨rfl, hf, fun e => absurd e h3, fun e => absurd e h3, fun _ e => absurd e h5,
                  fun _ _ => h6⟩
          · rw [if_pos h4]
            refine .inr ⟨_, rfl, hfail ?_⟩
            rintro ⟨_, _, e | e⟩
            · exact h4 e.2
            · exact e.2.1 h3'
        · rw [if_neg h3']
          have hv : ValRec r := ⟨h3, h3'⟩
          rw [if_pos hv]
          by_cases h4 : r.cls = qclass
          · rw [if_pos h4]
            exact .inl ⟨rfl, ⟨h1, h2, .inr ⟨h3, h3', h4⟩⟩, fun e => absurd e h3, fun e => absurd e h3,
              fun e => absurd e h3', fun e => absurd e h3'⟩
          · rw [if_neg h4]
            refine .inr ⟨_, rfl, hfail ?_⟩
            rintro ⟨_, _, e | e⟩
            · rcases e.1 with w | w
              · exact h3 w
              · exact h3' w
            · exact h4 e.2.2
    · rw [if_pos (fun e => h2 (hzone.mp e))]
      exact .inr ⟨_, rfl, .zone h1 h2⟩
  · rw [if_pos h1]
    exact .inr ⟨_, rfl, .ttl h1⟩

end Knot.Ddns
