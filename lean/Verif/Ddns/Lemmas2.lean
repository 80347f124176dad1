import Verif.Ddns.Lemmas
/-! # Dynamic updates: records of the update section -/
namespace Knot.Ddns
open Knot.Dname (Name)
open Knot.Changeset

/-! ## Single changes of the zone -/

/-- The result of a call: one RRset is different. -/
def Sets (u : Update) (k : Key) (v : Option RRs) (res : Res Update) : Prop :=
  ∃ u', res = .ok u' ∧ u'.apex = u.apex ∧ Wf u'.zone ∧
    ∀ k', lookup u'.zone k' = if k' = k then v else lookup u.zone k'

theorem Sets.same {u : Update} (hz : Wf u.zone) (k : Key) : Sets u k (lookup u.zone k) (.ok u) :=
  ⟨u, rfl, rfl, hz, fun k' => by split <;> simp_all⟩

theorem sets_remove {u : Update} (hz : Wf u.zone) {k : Key} {d x : RRs} (ht : k.type ≠ soa)
    (hd : lookup u.zone k = some d) (hx : x.data ≠ []) (hs : ∀ y ∈ x.data, y ∈ d.data) :
    Sets u k (minus (some d) x) (zuRemove u (k, x)) := by
  rw [zuRemove, if_neg hx, if_neg ht, applyRemove_ok (rr := (k, x)) hd hs, Res.bind_ok]
  refine ⟨_, rfl, rfl, hz.zRem _, fun k' => ?_⟩
  simp only [lookup_zRem hz]
  split
  · rename_i e; rw [e, hd]
  · rfl

theorem sets_add {u : Update} (hz : Wf u.zone) {k : Key} {x : RRs} (hk : KeyOk k) (hn : k.nsec3 = false)
    (ht : k.type ≠ soa) (hg : Good x) (hs : ∀ d, lookup u.zone k = some d → ∀ y ∈ x.data, y ∉ d.data) :
    Sets u k (some (nodeAdd k.type (lookup u.zone k) x)) (zuAdd u (k, x)) := by
  have e : zuAdd u (k, x) = .ok { u with zone := zAdd u.zone (k, x), change := addAddition u.change (k, x) true } := by
    rw [zuAdd, zuAddN, if_neg hg.1, if_neg ht, applyAdd_ok (rr := (k, x)) hs, Res.bind_ok, solveTtl_ok]
    · rfl
    · intro h1 h2 e he
      have hkk : ({ k with nsec3 := false } : Key) = k := by rw [← hn]
      simp only [hkk, lookup_zAdd hz, if_true, Option.some.injEq] at he
      rw [← he]
      rcases nodeAdd_ttl (ty := k.type) (hz.goodO k) x with e | e
      · exact absurd e h1
      · exact e
  refine ⟨_, e, rfl, hz.zAdd hk hg, fun k' => ?_⟩
  simp only [lookup_zAdd hz]
  split
  · rename_i e; rw [e]
  · rfl

/-- An ordinary record of an update. -/
structure Plain (apex : Name) (z : Contents) (r : Rec) : Prop where
  inside : Under apex r.owner
  apart : Apart apex z r.owner
  nsec3 : nsec3rel r.type r.data = false

theorem Plain.type {apex : Name} {z : Contents} {r : Rec} (h : Plain apex z r) : r.type ≠ 50 := by
  intro e
  have := h.nsec3
  simp [nsec3rel, e] at this

theorem Plain.keyOk {apex : Name} {z : Contents} {r : Rec} (h : Plain apex z r) :
    KeyOk ⟨false, r.owner, r.type⟩ := ⟨by simp, fun _ => h.type⟩

theorem Plain.rr {apex : Name} {z : Contents} {r : Rec} (h : Plain apex z r) :
    r.rr = (⟨false, r.owner, r.type⟩, ⟨r.ttl, [r.data]⟩) := by rw [Rec.rr, h.nsec3]

theorem good_one (t : Nat) (x : Bytes) : Good ⟨t, [x]⟩ := ⟨by simp, by simp [Rdataset.Canon]⟩

/-! ## Additions -/

theorem addRec_none {u : Update} (hz : Wf u.zone) {r : Rec} (hp : Plain u.apex u.zone r) (ht : r.type ≠ soa)
    (hn : lookup u.zone ⟨false, r.owner, r.type⟩ = none) :
    Sets u ⟨false, r.owner, r.type⟩ (some ⟨r.ttl, [r.data]⟩) (addRec u r) := by
  have key : Sets u ⟨false, r.owner, r.type⟩ (some ⟨r.ttl, [r.data]⟩) (zuAdd u r.rr) := by
    rw [hp.rr]
    have := sets_add hz hp.keyOk rfl ht (good_one r.ttl r.data) (by rw [hn]; simp)
    rw [hn] at this
    exact this
  unfold addRec
  by_cases hc : r.type = cname ∨ r.type = dname ∨ r.type = nsec3param
  · rw [if_pos hc]
    unfold removeRrset
    rw [nodeRR_eq hp.apart hp.inside, hn]
    split <;> (rename_i h; first | (split at h <;> cases h; done) | exact key)
  · rw [if_neg hc]; exact key

theorem has_iff {z : Contents} {o : Name} {t : Nat} {x : Bytes} :
    Has z o t x ↔ ∃ d, lookup z ⟨false, o, t⟩ = some d ∧ x ∈ d.data := by
  unfold Has
  cases h : lookup z ⟨false, o, t⟩ with
  | none => simp [recs]
  | some d => simp [recs]

theorem add_cname {u : Update} (hz : Wf u.zone) {r : Rec} (hp : Plain u.apex u.zone r)
    (ht : r.type = cname ∨ r.type = dname) {d : RRs} (hd : lookup u.zone ⟨false, r.owner, r.type⟩ = some d) :
    Sets u ⟨false, r.owner, r.type⟩ (some ⟨r.ttl, [r.data]⟩) (processAddCname u r) := by
  have hs : r.type ≠ soa := by rcases ht with h | h <;> (rw [h]; decide)
  unfold processAddCname
  rw [nodeRR_eq hp.apart hp.inside, hd]
  simp only
  by_cases he : d.ttl = r.ttl ∧ d.data = [r.data]
  · rw [if_pos he]
    have : (⟨r.ttl, [r.data]⟩ : RRs) = d := by rw [← he.1, ← he.2]
    rw [this, ← hd]
    exact Sets.same hz _
  · rw [if_neg he]
    have hn : treeOf u.apex u.zone r.owner = false := by rw [treeOf, hasNode_of hd]; rfl
    rw [hn]
    obtain ⟨u1, e1, ea, hz1, hl1⟩ := sets_remove hz (k := ⟨false, r.owner, r.type⟩) hs hd (hz.good hd).1
      (fun _ h => h)
    rw [e1, Res.bind_ok]
    rw [minus_self] at hl1
    have hp1 : Plain u1.apex u1.zone r := by
      refine ⟨ea ▸ hp.inside, ?_, hp.nsec3⟩
      intro rr hm h3 s
      have : lookup u.zone rr.1 = some rr.2 := by
        have := mem_lookup hz1.1 hm
        rw [hl1] at this
        split at this
        · cases this
        · exact this
      rw [ea]
      exact hp.apart rr (lookup_mem this) h3 s
    obtain ⟨u2, e2, eb, hz2, hl2⟩ := addRec_none hz1 hp1 hs (by rw [hl1, if_pos rfl])
    refine ⟨u2, e2, eb.trans ea, hz2, fun k => ?_⟩
    rw [hl2, hl1]
    split <;> rfl

/-- The RRset after an addition. -/
def addedTo (z : Contents) (r : Rec) : RRs :=
  if r.type = soa ∨ r.type = cname ∨ r.type = dname then ⟨r.ttl, [r.data]⟩
  else nodeAdd r.type (lookup z ⟨false, r.owner, r.type⟩) ⟨r.ttl, [r.data]⟩

open Classical in
theorem add_step {u : Update} (hz : Proper u.apex u.zone) {serialOf : Bytes → Nat} {sn : Nat} {r : Rec}
    (hp : Plain u.apex u.zone r) (hc : r.cls = classIn)
    (hs : r.type = soa → SerialLt sn (serialOf r.data))
    (hn : r.type = nsec3param → lookup u.zone ⟨false, r.owner, r.type⟩ = none) :
    Sets u ⟨false, r.owner, r.type⟩
      (if Accepted u.apex serialOf sn u.zone r then some (addedTo u.zone r)
       else lookup u.zone ⟨false, r.owner, r.type⟩) (processAdd u r) := by
  have hw := hz.wf
  unfold processAdd
  by_cases hcn : r.type = cname ∨ r.type = dname
  · rw [if_pos hcn]
    have hs' : r.type ≠ soa := by rcases hcn with h | h <;> (rw [h]; decide)
    have ead : addedTo u.zone r = ⟨r.ttl, [r.data]⟩ := by
      unfold addedTo; rw [if_pos (.inr hcn)]
    cases hl : lookup u.zone ⟨false, r.owner, r.type⟩ with
    | some d =>
      have hty : HasType u.zone r.owner r.type := (hasType_iff hw).mpr (by rw [hl]; rfl)
      have hacc : Accepted u.apex serialOf sn u.zone r :=
        ⟨hc, fun e => absurd e hs', fun e => .inl (e ▸ hty), fun e => .inl (e ▸ hty),
          fun e => absurd (by rcases hcn with h | h <;> simp [h]) e⟩
      rw [if_pos hacc, ead]
      exact add_cname hw hp hcn hl
    | none =>
      have hty : ¬ HasType u.zone r.owner r.type := by rw [hasType_iff hw, hl]; simp
      have hno : Sets u ⟨false, r.owner, r.type⟩ none (.ok u) := by
        have := Sets.same hw (u := u) ⟨false, r.owner, r.type⟩
        rw [hl] at this; exact this
      have hyes := addRec_none hw hp hs' hl
      unfold processAddCname
      rw [nodeRR_eq hp.apart hp.inside, hl, nodeRR_eq hp.apart hp.inside]
      simp only
      have h1 := inUse_iff hw hp.apart hp.inside
      have h2 := subtreeEmpty_iff hw hp.apart hp.inside
      have h3 := addingToCname_iff hw hp.apart hp.inside
      have h4 := @hasType_iff _ hw r.owner cname
      rcases hcn with h | h
      · have hne : ¬ HasType u.zone r.owner cname := h ▸ hty
        have hd : r.type ≠ dname := by rw [h]; decide
        simp only [h, true_and, show ¬ (cname = dname) by decide, false_and, if_false, ← ne_eq]
        rw [h] at hno hyes
        by_cases a : nodeRRsets u.apex u.zone r.owner = []
        · have hu : ¬ InUse u.zone r.owner := by rw [h1]; simp [a]
          rw [if_neg (show ¬ (nodeRRsets u.apex u.zone r.owner ≠ []) from fun e => e a)]
          by_cases b : UnderDname u.apex u.zone r.owner
          · rw [if_pos (h3.mpr (.inr b))]
            rw [if_neg]
            · exact hno
            · intro hacc
              rcases hacc.2.2.1 h with e | e
              · exact hne e
              · exact e.2 b
          · rw [if_neg (show ¬ addingToCname u.apex u.zone r.owner = true from fun e => (h3.mp e).elim hne b), if_pos]
            · rw [ead]; exact hyes
            · exact ⟨hc, fun e => absurd e hs', fun _ => .inr ⟨hu, b⟩, fun e => absurd e hd,
                fun e => absurd (by simp [h]) e⟩
        · have hu : InUse u.zone r.owner := h1.mpr a
          rw [if_pos a, if_neg]
          · exact hno
          · intro hacc
            rcases hacc.2.2.1 h with e | e
            · exact hne e
            · exact e.1 hu
      · have hne : ¬ HasType u.zone r.owner dname := h ▸ hty
        have hd : r.type ≠ cname := by rw [h]; decide
        simp only [h, true_and, show ¬ (dname = cname) by decide, false_and, if_false]
        rw [h] at hno hyes
        by_cases a : ∀ s, Under r.owner s → s ≠ r.owner → ¬ InUse u.zone s
        · rw [if_neg (show ¬ ¬ subtreeEmpty u.apex u.zone r.owner = true from fun e => e (h2.mpr a))]
          by_cases b : HasType u.zone r.owner cname
          · rw [if_pos (h4.mp b), if_neg]
            · exact hno
            · intro hacc
              rcases hacc.2.2.2.1 h with e | e
              · exact hne e
              · exact e.2 b
          · rw [if_neg (show ¬ (lookup u.zone ⟨false, r.owner, cname⟩).isSome = true from fun e => b (h4.mpr e)), if_pos]
            · rw [ead]; exact hyes
            · exact ⟨hc, fun e => absurd e hs', fun e => absurd e hd, fun _ => .inr ⟨a, b⟩,
                fun e => absurd (by simp [h]) e⟩
        · rw [if_pos (show ¬ subtreeEmpty u.apex u.zone r.owner = true from fun e => a (h2.mp e)), if_neg]
          · exact hno
          · intro hacc
            rcases hacc.2.2.2.1 h with e | e
            · exact hne e
            · exact a e.1
  · rw [if_neg hcn]
    have hd : r.type ≠ cname ∧ r.type ≠ dname := ⟨fun e => hcn (.inl e), fun e => hcn (.inr e)⟩
    by_cases hsoa : r.type = soa
    · rw [if_pos hsoa]
      have ead : addedTo u.zone r = ⟨r.ttl, [r.data]⟩ := by
        unfold addedTo; rw [if_pos (.inl hsoa)]
      unfold processAddSoa
      rw [nodeRR_eq hp.apart hp.inside]
      rw [hsoa]
      cases hl : lookup u.zone ⟨false, r.owner, soa⟩ with
      | none =>
        simp only
        rw [if_neg]
        · have := Sets.same hw (u := u) ⟨false, r.owner, soa⟩
          rw [hl] at this; exact this
        · intro hacc
          obtain ⟨s, hs1, _⟩ := hz.soa
          rw [(hacc.2.1 hsoa).1] at hl
          rw [hl] at hs1; cases hs1
      | some d =>
        simp only
        have hap : r.owner = u.apex := by
          obtain ⟨x, hx⟩ := List.exists_mem_of_ne_nil _ (hw.good hl).1
          exact hz.only r.owner x (has_iff.mpr ⟨d, hl, hx⟩)
        have hacc : Accepted u.apex serialOf sn u.zone r :=
          ⟨hc, fun _ => ⟨hap, hs hsoa⟩, fun e => absurd e hd.1, fun e => absurd e hd.2,
            fun e => absurd (by simp [hsoa]) e⟩
        rw [if_pos hacc, ead]
        by_cases he : d.ttl = r.ttl ∧ d.data = [r.data]
        · rw [if_pos he]
          have : (⟨r.ttl, [r.data]⟩ : RRs) = d := by rw [← he.1, ← he.2]
          rw [this, ← hl]
          exact Sets.same hw _
        · rw [if_neg he]
          have : addRec u r = .ok (soaUp u ⟨r.ttl, [r.data]⟩) := by
            unfold addRec
            rw [if_neg (by rw [hsoa]; decide), hp.rr, hsoa, hap]
            exact zuAdd_soa hw (good_one _ _) (by rw [← hap, hl]; rfl)
          refine ⟨_, this, rfl, ?_, fun k => ?_⟩
          · exact hw.zSoa (rr := (soaKey u.apex, _)) ⟨by simp, fun _ => (by decide : (6 : Nat) ≠ 50)⟩ (good_one _ _)
          · simp only [soaUp, lookup_zSoa hw, hap]
    · rw [if_neg hsoa]
      have hni : r.type ∉ [soa, cname, dname] := by simp [hsoa, hd.1, hd.2]
      have ead : addedTo u.zone r =
          nodeAdd r.type (lookup u.zone ⟨false, r.owner, r.type⟩) ⟨r.ttl, [r.data]⟩ := by
        unfold addedTo
        rw [if_neg (fun e => e.elim hsoa (fun e => e.elim hd.1 hd.2))]
      have hh : nodeHas u.apex u.zone r = true ↔ Has u.zone r.owner r.type r.data := by
        unfold nodeHas
        rw [nodeRR_eq hp.apart hp.inside, has_iff]
        cases lookup u.zone ⟨false, r.owner, r.type⟩ <;> simp
      have h3 := addingToCname_iff hw hp.apart hp.inside
      unfold processAddNormal
      by_cases a : addingToCname u.apex u.zone r.owner = true
      · rw [if_pos a, if_neg]
        · exact Sets.same hw _
        · intro hacc
          have := hacc.2.2.2.2 hni
          rcases h3.mp a with e | e
          · exact this.1 e
          · exact this.2.1 e
      · rw [if_neg a]
        by_cases b : nodeHas u.apex u.zone r = true
        · rw [if_pos b, if_neg]
          · exact Sets.same hw _
          · intro hacc
            exact (hacc.2.2.2.2 hni).2.2 (hh.mp b)
        · rw [if_neg b]
          have hb : ¬ Has u.zone r.owner r.type r.data := fun e => b (hh.mpr e)
          rw [if_pos ⟨hc, fun e => absurd e hsoa, fun e => absurd e hd.1, fun e => absurd e hd.2,
            fun _ => ⟨fun e => a (h3.mpr (.inl e)), fun e => a (h3.mpr (.inr e)), hb⟩⟩, ead]
          by_cases hnp : r.type = nsec3param
          · have hl := hn hnp
            rw [hl]
            exact addRec_none hw hp hsoa hl
          · unfold addRec
            rw [if_neg (fun e => e.elim hd.1 (fun e => e.elim hd.2 hnp)), hp.rr]
            refine sets_add hw hp.keyOk rfl hsoa (good_one _ _) ?_
            intro d hd' y hy hc'
            simp only [List.mem_singleton] at hy
            subst hy
            exact hb (has_iff.mpr ⟨d, hd', hc'⟩)

end Knot.Ddns
