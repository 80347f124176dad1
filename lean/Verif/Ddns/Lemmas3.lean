import Verif.Ddns.Lemmas2
/-! # Dynamic updates: deletions, sequences -/
namespace Knot.Ddns
open Knot.Dname (Name)
open Knot.Changeset

/-! ## Deletions -/

theorem soa_iff {apex : Name} {z : Contents} (hz : Proper apex z) {o : Name} :
    (lookup z ⟨false, o, soa⟩).isSome ↔ o = apex := by
  constructor
  · intro h
    obtain ⟨d, hd⟩ := Option.isSome_iff_exists.mp h
    obtain ⟨x, hx⟩ := List.exists_mem_of_ne_nil _ (hz.wf.good hd).1
    exact hz.only o x (has_iff.mpr ⟨d, hd, hx⟩)
  · rintro rfl
    obtain ⟨s, hs, _⟩ := hz.soa
    rw [hs]; rfl

theorem isApex_iff {u : Update} (hz : Proper u.apex u.zone) {o : Name} (ha : Apart u.apex u.zone o)
    (hi : Under u.apex o) : isApex u o = true ↔ o = u.apex := by
  rw [isApex, nodeRR_eq ha hi, soa_iff hz]

theorem minus_not_mem {d : RRs} {t : Nat} {x : Bytes} (hg : Good d) (h : x ∉ d.data) :
    minus (some d) ⟨t, [x]⟩ = some d := by
  have : subtract d.data [x] = d.data := by
    unfold subtract
    rw [List.filter_eq_self]
    intro y hy
    simp only [List.mem_singleton, decide_eq_true_eq]
    rintro rfl
    exact h hy
  simp only [minus, this, if_neg hg.1]

open Classical in
theorem rem_rr_step {u : Update} (hz : Proper u.apex u.zone) {r : Rec} (hp : Plain u.apex u.zone r)
    (hs : r.type ≠ soa) :
    Sets u ⟨false, r.owner, r.type⟩
      (if r.owner = u.apex ∧ r.type = ns ∧ (∃ d, lookup u.zone ⟨false, r.owner, r.type⟩ = some d ∧ d.data.length = 1)
       then lookup u.zone ⟨false, r.owner, r.type⟩
       else minus (lookup u.zone ⟨false, r.owner, r.type⟩) ⟨0, [r.data]⟩) (processRemRr u r) := by
  have hw := hz.wf
  unfold processRemRr
  rw [nodeRR_eq hp.apart hp.inside]
  cases hl : lookup u.zone ⟨false, r.owner, r.type⟩ with
  | none =>
    have := Sets.same hw (u := u) ⟨false, r.owner, r.type⟩
    rw [hl] at this
    simp only [minus, ite_self]
    exact this
  | some d =>
    have hsame := Sets.same hw (u := u) ⟨false, r.owner, r.type⟩
    rw [hl] at hsame
    simp only [isApex_iff hz hp.apart hp.inside, Option.some.injEq, exists_eq_left']
    by_cases a : r.owner = u.apex ∧ r.type = ns ∧ d.data.length = 1
    · rw [if_pos a, if_pos a]; exact hsame
    · rw [if_neg a, if_neg a]
      by_cases b : r.data ∈ d.data
      · rw [if_pos b, hp.nsec3]
        have := sets_remove hw (x := ⟨d.ttl, [r.data]⟩) hs hl (by simp) (by simpa using b)
        exact this
      · rw [if_neg b, minus_not_mem (hw.good hl) b]
        exact hsame

theorem rem_rrset_step {u : Update} (hz : Proper u.apex u.zone) {o : Name} (ha : Apart u.apex u.zone o)
    (hi : Under u.apex o) {t : Nat} (hs : t ≠ soa) :
    Sets u ⟨false, o, t⟩ (if o = u.apex ∧ t = ns then lookup u.zone ⟨false, o, t⟩ else none)
      (processRemRrset u o t) := by
  have hw := hz.wf
  unfold processRemRrset
  rw [nodeRR_eq ha hi]
  have hsame := Sets.same hw (u := u) ⟨false, o, t⟩
  simp only [isApex_iff hz ha hi]
  by_cases a : o = u.apex ∧ t = ns
  · rw [if_pos a, if_pos a]; exact hsame
  · rw [if_neg a, if_neg a]
    cases hl : lookup u.zone ⟨false, o, t⟩ with
    | none => rw [hl] at hsame; exact hsame
    | some d =>
      simp only
      have hn : treeOf u.apex u.zone o = false := by rw [treeOf, hasNode_of hl]; rfl
      rw [hn, ← minus_self d]
      exact sets_remove hw hs hl (hw.good hl).1 (fun _ h => h)

/-- The types removed from a node. -/
def Gone (apex o : Name) (k : Key) : Prop :=
  k.nsec3 = false ∧ k.owner = o ∧ k.type ≠ soa ∧ ¬ (o = apex ∧ k.type = ns)

instance (apex o : Name) (k : Key) : Decidable (Gone apex o k) := by unfold Gone; infer_instance

theorem remTypes_ok {apex o : Name} (ts : List Nat) : ∀ {u : Update}, u.apex = apex → Proper apex u.zone →
    ∃ u', remTypes false o u ts = .ok u' ∧ u'.apex = apex ∧ Wf u'.zone ∧
      ∀ k, lookup u'.zone k = if Gone apex o k ∧ k.type ∈ ts then none else lookup u.zone k := by
  induction ts with
  | nil => exact fun {u} hu hz => ⟨u, rfl, hu, hz.wf, by simp⟩
  | cons t ts ih =>
    intro u hu hz
    unfold remTypes
    simp only [soa_iff hz]
    by_cases a : o = apex ∧ t = ns
    · rw [if_pos a]
      obtain ⟨u', e, e1, e2, e3⟩ := ih hu hz
      refine ⟨u', e, e1, e2, fun k => ?_⟩
      rw [e3]
      by_cases b : Gone apex o k
      · have : k.type ≠ t := fun e => b.2.2.2 ⟨a.1, e.trans a.2⟩
        simp [b, this]
      · simp [b]
    · rw [if_neg a]
      cases hl : lookup u.zone ⟨false, o, t⟩ with
      | none =>
        obtain ⟨u', e, e1, e2, e3⟩ := ih hu hz
        refine ⟨u', e, e1, e2, fun k => ?_⟩
        rw [e3]
        by_cases b : Gone apex o k
        · by_cases c : k.type = t
          · have : k = ⟨false, o, t⟩ := by rw [← b.1, ← b.2.1, ← c]
            rw [this, hl]; simp
          · simp [c]
        · simp [b]
      | some d =>
        simp only
        by_cases hs : t = soa
        · rw [zuRemove_soa hs, Res.bind_ok]
          obtain ⟨u', e, e1, e2, e3⟩ := ih hu hz
          refine ⟨u', e, e1, e2, fun k => ?_⟩
          rw [e3]
          by_cases b : Gone apex o k
          · have : k.type ≠ t := fun e => b.2.2.1 (e.trans hs)
            simp [this]
          · simp [b]
        · obtain ⟨u1, f, f1, f2, f3⟩ := sets_remove hz.wf (k := ⟨false, o, t⟩) hs hl (hz.wf.good hl).1
            (fun _ h => h)
          rw [minus_self] at f3
          rw [f, Res.bind_ok]
          have hz1 : Proper apex u1.zone := by
            refine ⟨f2, ?_, ?_⟩
            · obtain ⟨s, h1, h2⟩ := hz.soa
              refine ⟨s, ?_, h2⟩
              rw [f3, if_neg (by simp only [Key.mk.injEq]; exact fun e => hs e.2.2.symm), h1]
            · intro o' x hx
              obtain ⟨d', hd', hm⟩ := has_iff.mp hx
              rw [f3, if_neg (by simp only [Key.mk.injEq]; exact fun e => hs e.2.2.symm)] at hd'
              exact hz.only o' x (has_iff.mpr ⟨d', hd', hm⟩)
          obtain ⟨u', e, e1, e2, e3⟩ := ih (f1.trans hu) hz1
          refine ⟨u', e, e1, e2, fun k => ?_⟩
          rw [e3, f3]
          by_cases b : Gone apex o k
          · by_cases c : k.type = t
            · have : k = ⟨false, o, t⟩ := by rw [← b.1, ← b.2.1, ← c]
              rw [this] at b
              simp [this, b]
            · have : k ≠ ⟨false, o, t⟩ := fun e => c (by rw [e])
              simp [c, this]
          · have : k ≠ ⟨false, o, t⟩ := by
              rintro rfl
              exact b ⟨rfl, rfl, hs, a⟩
            simp [b, this]

theorem rem_node_step {u : Update} (hz : Proper u.apex u.zone) {o : Name} (ha : Apart u.apex u.zone o)
    (hi : Under u.apex o) :
    ∃ u', processRemNode u o = .ok u' ∧ u'.apex = u.apex ∧ Wf u'.zone ∧
      ∀ k, lookup u'.zone k = if Gone u.apex o k then none else lookup u.zone k := by
  unfold processRemNode
  cases hn : hasNode u.apex u.zone o with
  | false =>
    have h0 : nodeRRsets u.apex u.zone o = [] := by
      rw [List.eq_nil_iff_forall_not_mem]
      intro rr hm
      obtain ⟨h1, h2, h3⟩ := (mem_nodeRRsets ha hi).mp hm
      have := mem_lookup hz.wf.1 h1
      have hk : rr.1 = ⟨false, o, rr.1.type⟩ := by rw [← h2, ← h3]
      rw [hk] at this
      rw [hasNode_of (apex := u.apex) this] at hn; cases hn
    rw [h0]
    refine ⟨u, rfl, rfl, hz.wf, fun k => ?_⟩
    by_cases b : Gone u.apex o k
    · rw [if_pos b]
      cases hl : lookup u.zone k with
      | none => rfl
      | some d =>
        have hk : k = ⟨false, o, k.type⟩ := by rw [← b.1, ← b.2.1]
        rw [hk] at hl
        rw [hasNode_of (apex := u.apex) hl] at hn; cases hn
    · rw [if_neg b]
  | true =>
    have ht : treeOf u.apex u.zone o = false := by rw [treeOf, hn]; rfl
    rw [ht]
    obtain ⟨u', e, e1, e2, e3⟩ := remTypes_ok (o := o) ((nodeRRsets u.apex u.zone o).map (·.1.type)).reverse rfl hz
    refine ⟨u', e, e1, e2, fun k => ?_⟩
    rw [e3]
    by_cases b : Gone u.apex o k
    · rw [if_pos b]
      cases hl : lookup u.zone k with
      | none => simp
      | some d =>
        rw [if_pos]
        refine ⟨b, ?_⟩
        rw [List.mem_reverse, List.mem_map]
        exact ⟨(k, d), (mem_nodeRRsets ha hi).mpr ⟨lookup_mem hl, b.1, b.2.1⟩, rfl⟩
    · rw [if_neg b, if_neg (fun e => b e.1)]

end Knot.Ddns
