import Verif.Zonesign.Lemmas4
/-! # Lemmas: validation of nodes and trees -/
namespace Knot.Zonesign
open Knot
open Knot.Dname (Name)

theorem VReady.known (h : VReady C ctx n) (r : RRset) (hr : r ∈ n.rrsets) :
    VKnown C ctx n.owner r n.sigs (n.verified && !ctx.tagConflict) := by
  refine ⟨h.timely, fun hs k hk ht s hsm hn => ?_, h.keys, h.now, h.safe⟩
  simp only [Bool.and_eq_true, Bool.not_eq_true'] at hs
  exact h.flag hs.1 hs.2 r hr k hk ht s hsm hn

/-- What holds of an RRset after validation that gave the time `u`. -/
def Held (C : Crypto) (ctx : Ctx) (n : Node) (r : RRset) (u : Nat) : Prop :=
  Signable n r.type → ∃ s ∈ n.sigs, ∃ k ∈ ctx.keys, Tried ctx.apex n.owner r.type k ∧ Good C ctx.now 0 n.owner r k s ∧
    NotAfter ctx.now u s.expiration

theorem Held.mono (h : Held C ctx n r u) (hl : Le u' u) : Held C ctx n r u' := fun hs => by
  obtain ⟨s, h1, k, h2, h3, h4, h5⟩ := h hs
  exact ⟨s, h1, k, h2, h3, h4, h5.mono hl⟩

theorem validateAll_iff (C : Crypto) (ctx : Ctx) (n : Node) (hR : VReady C ctx n) (rs : List RRset) :
    ∀ u0, (∀ r ∈ rs, r ∈ n.rrsets) →
    validateAll C ctx n (n.verified && !ctx.tagConflict) rs u0 ≠ .ub ∧
    ((∃ u, validateAll C ctx n (n.verified && !ctx.tagConflict) rs u0 = .ok u) ↔
      (∀ r ∈ rs, Signable n r.type → ValidSet C ctx n.owner r n.sigs) ∧
      (∀ r ∈ rs, ¬ Signable n r.type → ∀ s ∈ n.sigs, s.covered ≠ r.type)) ∧
    ∀ u, validateAll C ctx n (n.verified && !ctx.tagConflict) rs u0 = .ok u → Le u u0 ∧ ∀ r ∈ rs, Held C ctx n r u := by
  induction rs with
  | nil =>
    intro u0 _
    refine ⟨by simp [validateAll], ⟨fun _ => ⟨by simp, by simp⟩, fun _ => ⟨u0, rfl⟩⟩, ?_⟩
    intro u h
    cases h
    exact ⟨Le.refl _, by simp⟩
  | cons r rs ih =>
    intro u0 hm
    have hr := hm r List.mem_cons_self
    have ih := fun u0 => ih u0 (fun r' h' => hm r' (List.mem_cons_of_mem _ h'))
    simp only [validateAll, List.mem_cons, forall_eq_or_imp]
    by_cases hs : shouldSign n r.type = true
    · have hsn := (shouldSign_iff ..).1 hs
      have V := validateRR_iff C ctx n.owner r n.sigs _ (hR.known r hr)
      have D := validateRR_defined C ctx n.owner r n.sigs (n.verified && !ctx.tagConflict)
      rw [if_neg (by simp [hs])]
      cases hv : validateRR C ctx n.owner r n.sigs (n.verified && !ctx.tagConflict) with
      | ub => exact absurd hv D
      | err e =>
        refine ⟨by simp, ⟨?_, ?_⟩, ?_⟩
        · rintro ⟨u, h⟩; cases h
        · intro h
          obtain ⟨u, hu⟩ := V.1.2 (h.1.1 hsn)
          rw [hv] at hu; cases hu
        · intro u h; cases h
      | ok t =>
        simp only [Res.bind_ok]
        obtain ⟨i1, i2, i3⟩ := ih (timeMin u0 t)
        refine ⟨i1, ?_, ?_⟩
        · rw [i2]
          constructor
          · intro h
            exact ⟨⟨fun _ => V.1.1 ⟨t, hv⟩, h.1⟩, ⟨fun hn => absurd hsn hn, h.2⟩⟩
          · intro h
            exact ⟨h.1.2, h.2.2⟩
        · intro u h
          obtain ⟨j1, j2⟩ := i3 u h
          refine ⟨j1.trans (timeMin_left _ _), ?_, j2⟩
          intro _
          obtain ⟨s, h1, k, h2, h3, h4, h5⟩ := V.2 t hv
          exact ⟨s, h1, k, h2, h3, h4, h5.mono (j1.trans (timeMin_right _ _))⟩
    · have hsn : ¬ Signable n r.type := fun h => hs ((shouldSign_iff ..).2 h)
      rw [if_pos (by simpa using hs)]
      by_cases hc : covering r.type n.sigs = []
      · rw [if_neg (by simpa using hc)]
        obtain ⟨i1, i2, i3⟩ := ih u0
        refine ⟨i1, ?_, ?_⟩
        · rw [i2]
          constructor
          · intro h
            refine ⟨⟨fun hx => absurd hx hsn, h.1⟩, ⟨fun _ s hsm he => ?_, h.2⟩⟩
            have : s ∈ covering r.type n.sigs := (mem_covering ..).2 ⟨hsm, he⟩
            rw [hc] at this; cases this
          · intro h
            exact ⟨h.1.2, h.2.2⟩
        · intro u h
          obtain ⟨j1, j2⟩ := i3 u h
          exact ⟨j1, fun hx => absurd hx hsn, j2⟩
      · rw [if_pos hc]
        refine ⟨by simp, ⟨?_, ?_⟩, ?_⟩
        · rintro ⟨u, h⟩; cases h
        · intro h
          refine absurd (List.eq_nil_iff_forall_not_mem.2 fun s hsm => ?_) hc
          rw [mem_covering] at hsm
          exact h.2.1 hsn s hsm.1 hsm.2
        · intro u h; cases h

theorem validateNode_iff (C : Crypto) (ctx : Ctx) (n : Node) (hR : VReady C ctx n) :
    validateNode C ctx n ≠ .ub ∧
    ((∃ x, validateNode C ctx n = .ok x) ↔ ValidNode C ctx n) ∧
    ∀ l u, validateNode C ctx n = .ok (l, u) → l = standalone n ∧ ∀ r ∈ n.rrsets, Held C ctx n r u := by
  obtain ⟨i1, i2, i3⟩ := validateAll_iff C ctx n hR n.rrsets 0 (fun _ h => h)
  unfold validateNode
  cases hv : validateAll C ctx n (n.verified && !ctx.tagConflict) n.rrsets 0 with
  | ub => exact absurd hv i1
  | err e =>
    refine ⟨by simp, ⟨?_, ?_⟩, ?_⟩
    · rintro ⟨x, h⟩; cases h
    · intro h
      obtain ⟨u, hu⟩ := i2.2 ⟨h.signed, h.others⟩
      rw [hv] at hu; cases hu
    · intro l u h; cases h
  | ok t =>
    simp only [Res.bind_ok]
    have h2 := i2.1 ⟨t, hv⟩
    by_cases hc : covering 46 n.sigs = []
    · rw [if_neg (by simpa using hc)]
      refine ⟨by simp, ⟨fun _ => ⟨h2.1, h2.2, ?_⟩, fun _ => ⟨_, rfl⟩⟩, ?_⟩
      · intro s hs he
        have : s ∈ covering 46 n.sigs := (mem_covering ..).2 ⟨hs, he⟩
        rw [hc] at this; cases this
      · intro l u h
        cases h
        exact ⟨rfl, (i3 _ hv).2⟩
    · rw [if_pos hc]
      refine ⟨by simp, ⟨?_, ?_⟩, ?_⟩
      · rintro ⟨x, h⟩; cases h
      · intro h
        refine absurd (List.eq_nil_iff_forall_not_mem.2 fun s hsm => ?_) hc
        rw [mem_covering] at hsm
        exact h.rrsig s hsm.1 hsm.2
      · intro l u h; cases h

theorem standalone_iff (n : Node) : standalone n = [] ↔ NoStray n := by
  constructor
  · intro h s hs
    by_cases h1 : s.covered ∈ n.rrsets.map (·.type)
    · exact .inl h1
    · right
      by_cases h2 : s.covered = 46
      · exact h2
      · have := (mem_standalone n s).2 ⟨hs, h1, h2⟩
        rw [h] at this; cases this
  · intro h
    refine List.eq_nil_iff_forall_not_mem.2 fun s hs => ?_
    rw [mem_standalone] at hs
    rcases h s hs.1 with h1 | h1
    · exact hs.2.1 h1
    · exact hs.2.2 h1

/-- A thread that validates. -/
theorem threadValidate_spec (C : Crypto) (ctx : Ctx) (num idx : Nat) (ns : List Node) :
    ∀ (c : Nat) (ch : Bool) (u : Nat), (∀ n ∈ ns, VReady C ctx n) →
    ∃ e ch' u', threadValidate C ctx num idx c ns ch u = .ok (e, ch', u') ∧
      (e = none ↔ ∀ p ∈ owners num c ns, p.2 = some idx → ValidNode C ctx p.1) ∧
      (e = none → (ch' = true ↔ ch = true ∨ ∃ p ∈ owners num c ns, p.2 = some idx ∧ ¬ NoStray p.1)) ∧
      ((∀ n ∈ ns, NoStray n) → ch' = ch) ∧ Le u' u ∧
      (e = none → ∀ p ∈ owners num c ns, p.2 = some idx → ∀ r ∈ p.1.rrsets, Held C ctx p.1 r u') := by
  induction ns with
  | nil =>
    intro c ch u _
    exact ⟨none, ch, u, rfl, by simp [owners], by simp [owners], fun _ => rfl, Le.refl _, by simp [owners]⟩
  | cons n ns ih =>
    intro c ch u hR
    have hRn := hR n List.mem_cons_self
    have ih := fun c ch u => ih c ch u (fun n' h' => hR n' (List.mem_cons_of_mem _ h'))
    simp only [threadValidate, owners]
    by_cases he : n.rrsets = [] ∧ n.sigs = []
    · rw [if_pos he, if_pos he]
      obtain ⟨e, ch', u', h1, h2, h3, h4, h5, h6⟩ := ih c ch u
      refine ⟨e, ch', u', h1, by rw [h2]; simp, fun h => by rw [h3 h]; simp,
        fun h => h4 fun n' h' => h n' (List.mem_cons_of_mem _ h'), h5, ?_⟩
      intro hn p hp hpi
      rcases List.mem_cons.1 hp with rfl | hp
      · cases hpi
      · exact h6 hn p hp hpi
    · rw [if_neg he, if_neg he]
      by_cases hc : c % num = idx
      · rw [if_neg (by simpa using hc)]
        obtain ⟨v1, v2, v3⟩ := validateNode_iff C ctx n hRn
        cases hv : validateNode C ctx n with
        | ub => exact absurd hv v1
        | err er =>
          refine ⟨some er, ch, u, rfl, ⟨fun h => (by cases h), fun h => ?_⟩, fun h => (by cases h), fun _ => rfl, Le.refl _,
            fun h => (by cases h)⟩
          have := v2.2 (h (n, some (c % num)) List.mem_cons_self (by rw [hc]))
          obtain ⟨x, hx⟩ := this
          rw [hv] at hx; cases hx
        | ok x =>
          obtain ⟨l, t⟩ := x
          obtain ⟨hl, hH⟩ := v3 l t hv
          subst hl
          have hval := v2.1 ⟨_, hv⟩
          dsimp only
          obtain ⟨e, ch', u', h1, h2, h3, h4, h5, h6⟩ := ih (c + 1) (ch || decide (standalone n ≠ [])) (timeMin u t)
          refine ⟨e, ch', u', h1, ?_, ?_, ?_, h5.trans (timeMin_left _ _), ?_⟩
          · rw [h2]
            simp only [List.mem_cons, forall_eq_or_imp, hc, hval, implies_true, true_and]
          · intro hn
            rw [h3 hn]
            have hst := standalone_iff n
            simp only [Bool.or_eq_true, decide_eq_true_eq, ne_eq, hst, List.mem_cons, exists_eq_or_imp, hc, true_and]
            exact or_assoc
          · intro hns
            rw [h4 fun n' h' => hns n' (List.mem_cons_of_mem _ h'), (standalone_iff n).2 (hns n List.mem_cons_self)]
            simp
          · intro hn p hp hpi
            rcases List.mem_cons.1 hp with rfl | hp
            · intro r hr
              exact (hH r hr).mono (h5.trans (timeMin_right _ _))
            · exact h6 hn p hp hpi
      · rw [if_pos (by simpa using hc)]
        obtain ⟨e, ch', u', h1, h2, h3, h4, h5, h6⟩ := ih (c + 1) ch u
        refine ⟨e, ch', u', h1, by rw [h2]; simp [hc], fun h => by rw [h3 h]; simp [hc],
          fun h => h4 fun n' h' => h n' (List.mem_cons_of_mem _ h'), h5, ?_⟩
        intro hn p hp hpi
        rcases List.mem_cons.1 hp with rfl | hp
        · exact absurd (Option.some.inj hpi) hc
        · exact h6 hn p hp hpi

theorem collectValidate_none (C : Crypto) (ctx : Ctx) (num : Nat) (nodes : List Node) (hR : ∀ n ∈ nodes, VReady C ctx n)
    (is : List Nat) : ∀ (e : Option Err) (u u' : Nat), collectValidate C ctx num nodes is e u = .ok u' → e = none := by
  induction is with
  | nil =>
    intro e u u' h
    cases e with
    | none => rfl
    | some e => cases h
  | cons a is ih =>
    intro e u u' h
    obtain ⟨er', ch', t', g1, _⟩ := threadValidate_spec C ctx num a nodes 0 false 0 hR
    cases e with
    | none => rfl
    | some e =>
      simp only [collectValidate] at h
      rw [g1] at h
      simp only [Res.bind_ok] at h
      split at h
      · cases h
      · exact ih _ _ _ h

theorem collectValidate_spec (C : Crypto) (ctx : Ctx) (num : Nat) (nodes : List Node) (hR : ∀ n ∈ nodes, VReady C ctx n)
    (is : List Nat) : ∀ (e : Option Err) (u : Nat),
    ((∀ n ∈ nodes, NoStray n) →
      collectValidate C ctx num nodes is e u ≠ .ub ∧
      ((∃ u', collectValidate C ctx num nodes is e u = .ok u') ↔
        e = none ∧ ∀ p ∈ owners num 0 nodes, ∀ i ∈ is, p.2 = some i → ValidNode C ctx p.1)) ∧
    (∀ u', collectValidate C ctx num nodes is e u = .ok u' → Le u' u ∧
      ∀ p ∈ owners num 0 nodes, ∀ i ∈ is, p.2 = some i → ∀ r ∈ p.1.rrsets, Held C ctx p.1 r u') ∧
    ((∀ p ∈ owners num 0 nodes, ∀ i ∈ is, p.2 = some i → ValidNode C ctx p.1) → e = none →
      (∃ p ∈ owners num 0 nodes, ∃ i ∈ is, p.2 = some i ∧ ¬ NoStray p.1) →
      collectValidate C ctx num nodes is e u = .ub) := by
  induction is with
  | nil =>
    intro e u
    refine ⟨fun _ => ?_, ?_, ?_⟩
    · cases e with
      | none =>
        refine ⟨by simp [collectValidate], ?_⟩
        simp [collectValidate]
      | some e =>
        refine ⟨by simp [collectValidate], ?_⟩
        simp [collectValidate]
    · intro u' h
      cases e with
      | none => cases h; exact ⟨Le.refl _, fun p _ i hi => by cases hi⟩
      | some e => cases h
    · rintro _ _ ⟨p, _, i, hi, _⟩
      cases hi
  | cons i is ih =>
    intro e u
    obtain ⟨er, ch, t, h1, h2, h3, h4, h5, h6⟩ := threadValidate_spec C ctx num i nodes 0 false 0 hR
    have hstep : collectValidate C ctx num nodes (i :: is) e u =
        if ch then .ub else collectValidate C ctx num nodes is (firstErr e er) (timeMin u t) := by
      cases e <;> · simp only [collectValidate]; rw [h1]; rfl
    rw [hstep]
    obtain ⟨j1, j2, j3⟩ := ih (firstErr e er) (timeMin u t)
    refine ⟨?_, ?_, ?_⟩
    · intro hns
      rw [h4 hns]
      simp only [Bool.false_eq_true, if_false]
      obtain ⟨k1, k2⟩ := j1 hns
      refine ⟨k1, ?_⟩
      rw [k2]
      cases e with
      | none =>
        simp only [firstErr]
        rw [h2]
        simp only [List.mem_cons, forall_eq_or_imp, true_and]
        constructor
        · rintro ⟨a, b⟩ p hp
          exact ⟨a p hp, b p hp⟩
        · intro a
          exact ⟨fun p hp => (a p hp).1, fun p hp => (a p hp).2⟩
      | some e => simp [firstErr]
    · intro u' h
      cases hch : ch
      · rw [hch] at h
        simp only [Bool.false_eq_true, if_false] at h
        obtain ⟨k1, k2⟩ := j2 u' h
        refine ⟨k1.trans (timeMin_left _ _), ?_⟩
        intro p hp j hj hpj r hr
        rcases List.mem_cons.1 hj with rfl | hj
        · have hern : er = none := by
            have : (firstErr e er) = none := collectValidate_none C ctx num nodes hR is _ _ u' h
            cases e with
            | none => exact this
            | some e => cases this
          exact (h6 hern p hp hpj r hr).mono (k1.trans (timeMin_right _ _))
        · exact k2 p hp j hj hpj r hr
      · rw [hch] at h
        cases h
    · rintro hval rfl ⟨p, hp, j, hj, hpj, hst⟩
      have hern := h2.2 (fun q hq hqi => hval q hq i List.mem_cons_self hqi)
      cases hch : ch
      · simp only [Bool.false_eq_true, if_false]
        simp only [firstErr] at j3 ⊢
        refine j3 (fun q hq k hk hqk => hval q hq k (List.mem_cons_of_mem _ hk) hqk) hern ?_
        rcases List.mem_cons.1 hj with rfl | hj
        · have := (h3 hern).2 (.inr ⟨p, hp, hpj, hst⟩)
          rw [hch] at this; cases this
        · exact ⟨p, hp, j, hj, hpj, hst⟩
      · rfl

theorem validateTree_spec (C : Crypto) (ctx : Ctx) (num : Nat) (hn : 0 < num) (nodes : List Node)
    (hR : ∀ n ∈ nodes, VReady C ctx n) :
    ((∀ n ∈ nodes, NoStray n) → validateTree C ctx num nodes ≠ .ub ∧
      ((∃ u, validateTree C ctx num nodes = .ok u) ↔ ∀ n ∈ nodes, ValidNode C ctx n)) ∧
    (∀ u, validateTree C ctx num nodes = .ok u → ∀ n ∈ nodes, ∀ r ∈ n.rrsets, Held C ctx n r u) ∧
    ((∀ n ∈ nodes, ValidNode C ctx n) → (∃ n ∈ nodes, ¬ NoStray n) → validateTree C ctx num nodes = .ub) := by
  obtain ⟨j1, j2, j3⟩ := collectValidate_spec C ctx num nodes hR (List.range num) none 0
  have hmem : ∀ n ∈ nodes, ∃ p ∈ owners num 0 nodes, p.1 = n := by
    intro n hn
    rw [← owners_fst num nodes 0] at hn
    obtain ⟨p, hp, he⟩ := List.mem_map.1 hn
    exact ⟨p, hp, he⟩
  have hmem' : ∀ p ∈ owners num 0 nodes, p.1 ∈ nodes := by
    intro p hp
    have := List.mem_map_of_mem (f := (·.1)) hp
    rw [owners_fst] at this
    exact this
  refine ⟨fun hns => ⟨(j1 hns).1, (j1 hns).2.trans ⟨?_, ?_⟩⟩, ?_, ?_⟩
  · rintro ⟨_, h⟩ n hnm
    obtain ⟨p, hp, rfl⟩ := hmem n hnm
    cases hp2 : p.2 with
    | none =>
      have h0 := owners_none num nodes 0 p hp hp2
      exact ⟨by rw [h0.1]; simp, by rw [h0.1]; simp, by rw [h0.2]; simp⟩
    | some i => exact h p hp i (List.mem_range.2 (owners_lt num hn nodes 0 p hp i hp2)) hp2
  · intro h
    exact ⟨rfl, fun p hp _ _ _ => h p.1 (hmem' p hp)⟩
  · intro u hu n hnm r hr
    obtain ⟨p, hp, rfl⟩ := hmem n hnm
    cases hp2 : p.2 with
    | none =>
      have h0 := owners_none num nodes 0 p hp hp2
      rw [h0.1] at hr; cases hr
    | some i => exact (j2 u hu).2 p hp i (List.mem_range.2 (owners_lt num hn nodes 0 p hp i hp2)) hp2 r hr
  · rintro hval ⟨n, hnm, hst⟩
    refine j3 (fun p hp _ _ _ => hval p.1 (hmem' p hp)) rfl ?_
    obtain ⟨p, hp, rfl⟩ := hmem n hnm
    cases hp2 : p.2 with
    | none =>
      have h0 := owners_none num nodes 0 p hp hp2
      exact absurd (fun s hs => by rw [h0.2] at hs; cases hs) hst
    | some i => exact ⟨p, hp, i, List.mem_range.2 (owners_lt num hn nodes 0 p hp i hp2), hp2, hst⟩

end Knot.Zonesign
