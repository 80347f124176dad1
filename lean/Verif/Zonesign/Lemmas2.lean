import Verif.Zonesign.Lemmas
/-! # Lemmas: the signatures of a node, of a tree -/
namespace Knot.Zonesign
open Knot
open Knot.Dname (Name)

/-- The signatures considered, and whether they are taken as verified. -/
def source (ctx : Ctx) (n : Node) : List Sig := if ctx.dropExisting then [] else n.sigs
def trust (ctx : Ctx) (n : Node) : Bool := !ctx.dropExisting && (n.verified && !ctx.tagConflict)

/-- What is done to the signatures of one RRset. -/
structure One (C : Crypto) (ctx : Ctx) (n : Node) (e : Nat) (r : RRset) (rm ad : List Sig) : Prop where
  rem : ∀ s ∈ rm, s ∈ n.sigs ∧ s.covered = r.type
  add : ∀ s ∈ ad, s.covered = r.type
  sign : Signable n r.type → Did C ctx n.owner r (source ctx n) (trust ctx n) e n.sigs rm ad
  non : ¬ Signable n r.type → ad = [] ∧ ∀ s ∈ n.sigs, s.covered = r.type → s ∈ rm

theorem Did.mono {e e' : Nat} (h : Did C ctx owner r sigs skip e old rm ad) (hl : Le e' e) :
    Did C ctx owner r sigs skip e' old rm ad :=
  ⟨h.rem, h.add, fun k hk hs => by
    obtain ⟨s, h1, h2, h3⟩ := h.every k hk hs
    exact ⟨s, h1, h2, h3.mono hl⟩, h.only, h.offline⟩

theorem One.mono {e e' : Nat} (h : One C ctx n e r rm ad) (hl : Le e' e) : One C ctx n e' r rm ad :=
  ⟨h.rem, h.add, fun hs => (h.sign hs).mono hl, h.non⟩

theorem Ready.known (hR : Ready C ctx n) (r : RRset) (hr : r ∈ n.rrsets) (hs : Signable n r.type) :
    Known C ctx n.owner r n.sigs (n.verified && !ctx.tagConflict) := by
  refine ⟨hR.timely, fun h k hk hsg s hs' hn => ?_⟩
  simp only [Bool.and_eq_true, Bool.not_eq_true'] at h
  exact hR.flag h.1 h.2 r hr hs k hk hsg s hs' hn

theorem signOne_one (C : Crypto) (ctx : Ctx) (n : Node) (w w' : Work) (r : RRset) (hS : Sane ctx) (hC : Sound C)
    (hR : Ready C ctx n) (hr : r ∈ n.rrsets) (h : signOne C ctx n (n.verified && !ctx.tagConflict) w r = .ok w') :
    ∃ rm ad, w'.rem = w.rem ++ rm ∧ w'.add = w.add ++ ad ∧ Le w'.expire w.expire ∧ One C ctx n w'.expire r rm ad := by
  unfold signOne at h
  have hx := shouldSign_iff n r.type
  split at h
  · rename_i hn
    have hns : ¬ Signable n r.type := fun hs => by rw [hx.2 hs] at hn; cases hn
    cases h
    refine ⟨covering r.type n.sigs, [], rfl, by simp, Le.refl _, ⟨?_, by simp, fun hs => absurd hs hns, fun _ => ⟨rfl, ?_⟩⟩⟩
    · intro s hs; rwa [mem_covering] at hs
    · intro s hs hc; rw [mem_covering]; exact ⟨hs, hc⟩
  · rename_i hn
    have hsn : Signable n r.type := hx.1 (by simpa using hn)
    split at h
    · rename_i hd
      cases ha : addMissing C ctx n.owner r [] false w.expire with
      | err e => rw [ha] at h; cases h
      | ub => rw [ha] at h; cases h
      | ok x =>
        rw [ha] at h
        cases h
        have hK : Known C ctx n.owner r [] false := ⟨by simp, by simp⟩
        obtain ⟨H, hl⟩ := addMissing_did C ctx n.owner r [] false _ _ hS hC hK ha
        have he : x.rem = [] := List.eq_nil_iff_forall_not_mem.2 fun s hs => by have := (H.rem s hs).1; cases this
        refine ⟨covering r.type n.sigs ++ x.rem, x.add, by simp, rfl, hl, ⟨?_, H.add, fun _ => ?_, fun hns => absurd hsn hns⟩⟩
        · intro s hs
          simp only [he, List.append_nil, mem_covering] at hs
          exact hs
        · have e1 : source ctx n = [] := by simp [source, hd]
          have e2 : trust ctx n = false := by simp [trust, hd]
          rw [e1, e2, he]
          refine ⟨?_, H.add, ?_, ?_, ?_⟩
          · intro s hs
            simp only [List.append_nil, mem_covering] at hs
            exact hs
          · intro k hk hsg
            obtain ⟨s, h1, h2, h3⟩ := H.every k hk hsg
            refine ⟨s, h1, ?_, h3⟩
            rcases h2 with h2 | h2
            · exact .inl h2
            · cases h2.1
          · intro s hsc hs
            refine H.only s hsc (.inl ?_)
            rcases hs with hs | hs
            · exact hs
            · exact absurd (by simp only [List.append_nil, mem_covering]; exact ⟨hs.1, hsc⟩) hs.2
          · intro ho s hs hsc
            rcases H.offline ho s hs hsc with h2 | h2
            · exact .inl h2
            · cases h2.1
    · rename_i hd
      cases ha : addMissing C ctx n.owner r n.sigs (n.verified && !ctx.tagConflict) w.expire with
      | err e => rw [ha] at h; cases h
      | ub => rw [ha] at h; cases h
      | ok x =>
        rw [ha] at h
        cases h
        obtain ⟨H, hl⟩ := addMissing_did C ctx n.owner r _ _ _ _ hS hC (hR.known r hr hsn) ha
        refine ⟨x.rem, x.add, rfl, rfl, hl, ⟨H.rem, H.add, fun _ => ?_, fun hns => absurd hsn hns⟩⟩
        have e1 : source ctx n = n.sigs := by simp [source, hd]
        have e2 : trust ctx n = (n.verified && !ctx.tagConflict) := by simp [trust, hd]
        rw [e1, e2]
        exact H

theorem signAll_all (C : Crypto) (ctx : Ctx) (n : Node) (hS : Sane ctx) (hC : Sound C) (hR : Ready C ctx n) (rs : List RRset) :
    ∀ (w w' : Work), (∀ r ∈ rs, r ∈ n.rrsets) → signAll C ctx n (n.verified && !ctx.tagConflict) rs w = .ok w' →
    ∃ ds : List (RRset × List Sig × List Sig), ds.map (·.1) = rs ∧ w'.rem = w.rem ++ ds.flatMap (·.2.1) ∧
      w'.add = w.add ++ ds.flatMap (·.2.2) ∧ Le w'.expire w.expire ∧
      ∀ d ∈ ds, One C ctx n w'.expire d.1 d.2.1 d.2.2 := by
  induction rs with
  | nil =>
    intro w w' _ h
    cases h
    exact ⟨[], rfl, by simp, by simp, Le.refl _, by simp⟩
  | cons r rs ih =>
    intro w w' hm h
    simp only [signAll] at h
    cases h1 : signOne C ctx n (n.verified && !ctx.tagConflict) w r with
    | err e => rw [h1] at h; cases h
    | ub => rw [h1] at h; cases h
    | ok w1 =>
      rw [h1] at h
      simp only [Res.bind_ok] at h
      obtain ⟨rm, ad, ha, hb, hc, hd⟩ := signOne_one C ctx n w w1 r hS hC hR (hm r List.mem_cons_self) h1
      obtain ⟨ds, g1, g2, g3, g4, g5⟩ := ih w1 w' (fun r' hr' => hm r' (List.mem_cons_of_mem _ hr')) h
      refine ⟨(r, rm, ad) :: ds, by simp [g1], by simp [g2, ha], by simp [g3, hb], g4.trans hc, ?_⟩
      intro d hdm
      rcases List.mem_cons.1 hdm with rfl | hdm
      · exact hd.mono g4
      · exact g5 d hdm

theorem type_inj (n : Node) (h : Proper n) (a b : RRset) (ha : a ∈ n.rrsets) (hb : b ∈ n.rrsets) (ht : a.type = b.type) : a = b := by
  have h := h.types
  generalize n.rrsets = l at *
  induction l with
  | nil => cases ha
  | cons x l ih =>
    simp only [List.map_cons, List.nodup_cons, List.mem_map, not_exists, not_and] at h
    rcases List.mem_cons.1 ha with rfl | ha'
    · rcases List.mem_cons.1 hb with rfl | hb'
      · rfl
      · exact absurd ht.symm (h.1 b hb')
    · rcases List.mem_cons.1 hb with rfl | hb'
      · exact absurd ht (h.1 a ha')
      · exact ih ha' hb' h.2

theorem mem_standalone (n : Node) (s : Sig) :
    s ∈ standalone n ↔ s ∈ n.sigs ∧ s.covered ∉ n.rrsets.map (·.type) ∧ s.covered ≠ 46 := by
  simp only [standalone, List.mem_filter, decide_eq_true_eq]

/-- What is done to a node. -/
structure NodeDone (C : Crypto) (ctx : Ctx) (n : Node) (w : Work) : Prop where
  each : ∀ r ∈ n.rrsets, ∃ rm ad, One C ctx n w.expire r rm ad ∧
    ∀ s : Sig, s.covered = r.type → ((s ∈ w.rem ↔ s ∈ rm) ∧ (s ∈ w.add ↔ s ∈ ad))
  add : ∀ s ∈ w.add, ∃ r ∈ n.rrsets, s.covered = r.type
  stray : ∀ s ∈ n.sigs, s.covered ∉ n.rrsets.map (·.type) → s ∈ w.rem
  rem : ∀ s ∈ w.rem, s ∈ n.sigs

theorem signNode_done (C : Crypto) (ctx : Ctx) (n : Node) (w : Work) (hS : Sane ctx) (hC : Sound C) (hR : Ready C ctx n)
    (h : signNode C ctx n = .ok w) : NodeDone C ctx n w := by
  unfold signNode at h
  dsimp only at h
  cases h1 : signAll C ctx n (n.verified && !ctx.tagConflict) n.rrsets ⟨[], [], 0⟩ with
  | err e => rw [h1] at h; cases h
  | ub => rw [h1] at h; cases h
  | ok w1 =>
    rw [h1] at h
    simp only [Res.bind_ok, Res.ok.injEq] at h
    obtain ⟨ds, g1, g2, g3, _, g5⟩ := signAll_all C ctx n hS hC hR n.rrsets _ _ (fun _ h => h) h1
    simp only [List.nil_append] at g2 g3
    subst h
    have hin : ∀ d ∈ ds, d.1 ∈ n.rrsets := fun d hd => g1 ▸ List.mem_map_of_mem hd
    have hnd : ∀ d ∈ ds, ∀ d' ∈ ds, d.1.type = d'.1.type → d = d' := by
      have ht := hR.proper.types
      rw [← g1, List.map_map] at ht
      clear g1 g2 g3 g5 hin
      intro d hd d' hd' he
      induction ds with
      | nil => cases hd
      | cons x l ih =>
        simp only [List.map_cons, List.nodup_cons, List.mem_map, not_exists, not_and, Function.comp_apply] at ht
        rcases List.mem_cons.1 hd with rfl | ha'
        · rcases List.mem_cons.1 hd' with rfl | hb'
          · rfl
          · exact absurd he.symm (ht.1 d' hb')
        · rcases List.mem_cons.1 hd' with rfl | hb'
          · exact absurd he (ht.1 d ha')
          · exact ih ht.2 ha' hb'
    refine ⟨?_, ?_, ?_, ?_⟩
    · intro r hr
      have hr' := hr
      rw [← g1] at hr'
      obtain ⟨d, hd, rfl⟩ := List.mem_map.1 hr'
      refine ⟨d.2.1, d.2.2, g5 d hd, fun s hs => ⟨?_, ?_⟩⟩
      · show s ∈ w1.rem ++ covering 46 n.sigs ++ standalone n ↔ _
        rw [g2]
        simp only [List.mem_append, List.mem_flatMap, mem_covering, mem_standalone]
        constructor
        · rintro ((⟨d', hd', hs'⟩ | ⟨_, h46⟩) | ⟨_, hst, _⟩)
          · have := (g5 d' hd').rem s hs'
            rw [hnd d' hd' d hd (by rw [← this.2, hs])] at hs'
            exact hs'
          · exact absurd (List.mem_map.2 ⟨d.1, hr, by rw [← hs, h46]⟩) hR.proper.rrsig
          · exact absurd (List.mem_map.2 ⟨d.1, hr, hs.symm⟩) hst
        · intro hs'
          exact .inl (.inl ⟨d, hd, hs'⟩)
      · show s ∈ w1.add ↔ _
        rw [g3]
        simp only [List.mem_flatMap]
        constructor
        · rintro ⟨d', hd', hs'⟩
          have := (g5 d' hd').add s hs'
          rw [hnd d' hd' d hd (by rw [← this, hs])] at hs'
          exact hs'
        · intro hs'
          exact ⟨d, hd, hs'⟩
    · intro s hs
      have hs : s ∈ w1.add := hs
      rw [g3] at hs
      obtain ⟨d, hd, hs⟩ := List.mem_flatMap.1 hs
      exact ⟨d.1, hin d hd, (g5 d hd).add s hs⟩
    · intro s hs hst
      show s ∈ w1.rem ++ covering 46 n.sigs ++ standalone n
      simp only [List.mem_append, mem_covering, mem_standalone]
      by_cases h46 : s.covered = 46
      · exact .inl (.inr ⟨hs, h46⟩)
      · exact .inr ⟨hs, hst, h46⟩
    · intro s hs
      have hs : s ∈ w1.rem ++ covering 46 n.sigs ++ standalone n := hs
      rw [g2] at hs
      simp only [List.mem_append, List.mem_flatMap, mem_covering, mem_standalone] at hs
      rcases hs with (⟨d, hd, hs⟩ | hs) | hs
      · exact ((g5 d hd).rem s hs).1
      · exact hs.1
      · exact hs.1

theorem applyWork_fields (n : Node) (w : Work) : (applyWork n w).owner = n.owner ∧ (applyWork n w).deleg = n.deleg ∧
    (applyWork n w).nonauth = n.nonauth ∧ (applyWork n w).rrsets = n.rrsets := by
  unfold applyWork
  split <;> exact ⟨rfl, rfl, rfl, rfl⟩

theorem applyWork_sigs (n : Node) (w : Work) (s : Sig) :
    s ∈ (applyWork n w).sigs ↔ s ∈ w.add ∨ (s ∈ n.sigs ∧ s ∉ w.rem) := by
  unfold applyWork
  split
  · rename_i h
    simp [h.1, h.2]
  · simp only [mem_foldl_insertSig, List.mem_filter, decide_eq_true_eq]
    exact Or.comm

theorem signable_apply (n : Node) (w : Work) (t : Nat) : Signable (applyWork n w) t ↔ Signable n t := by
  have := applyWork_fields n w
  unfold Signable
  rw [this.2.1, this.2.2.1]

/-- The known conditions on the signatures used. -/
theorem Ready.known' (hR : Ready C ctx n) (r : RRset) (hr : r ∈ n.rrsets) (hs : Signable n r.type) :
    Known C ctx n.owner r (source ctx n) (trust ctx n) := by
  unfold source trust
  cases ctx.dropExisting
  · exact hR.known r hr hs
  · exact ⟨by simp, by simp⟩

/-- For each key the signature in the result, and nothing else but offline ones. -/
theorem done_facts (C : Crypto) (ctx : Ctx) (n : Node) (w : Work) (hD : NodeDone C ctx n w) :
    (∀ r ∈ n.rrsets, Signable n r.type → ∀ k ∈ ctx.keys, Signs ctx.apex n.owner r.type k →
      ∃ s ∈ (applyWork n w).sigs, pick C ctx n.owner r (source ctx n) (trust ctx n) k = some s ∧
        NotAfter ctx.now w.expire s.expiration) ∧
    (∀ s ∈ (applyWork n w).sigs, ∃ r ∈ n.rrsets, Signable n r.type ∧ s.covered = r.type ∧
      ((∃ k ∈ ctx.keys, Signs ctx.apex n.owner r.type k ∧
        pick C ctx n.owner r (source ctx n) (trust ctx n) k = some s) ∨ (n.owner = ctx.apex ∧ s ∈ ctx.offline))) ∧
    (n.owner = ctx.apex → ∀ s ∈ ctx.offline, ∀ r ∈ n.rrsets, Signable n r.type → s.covered = r.type →
      s ∈ (applyWork n w).sigs) := by
  refine ⟨?_, ?_, ?_⟩
  · intro r hr hs k hk hsg
    obtain ⟨rm, ad, hO, hm⟩ := hD.each r hr
    obtain ⟨s, h1, h2, h3⟩ := (hO.sign hs).every k hk hsg
    refine ⟨s, (applyWork_sigs ..).2 ?_, h1, h3⟩
    have hc : s.covered = r.type ∨ s.covered ≠ r.type := Decidable.em _
    rcases hc with hc | hc
    · rw [(hm s hc).1, (hm s hc).2]; exact h2
    · rcases h2 with h2 | h2
      · exact absurd (hO.add s h2) hc
      · refine .inr ⟨h2.1, fun hx => ?_⟩
        -- the signature picked covers the type
        unfold pick at h1
        cases hf : firstValid C ctx n.owner r k (margin ctx) (trust ctx n) (source ctx n) with
        | some s' =>
          rw [hf] at h1
          cases h1
          exact hc (firstValid_some _ _ _ _ _ _ _ _ _ hf).2.1.1
        | none =>
          rw [hf] at h1
          cases hg : signRRset C ctx n.owner r k with
          | ok x =>
            rw [hg] at h1
            obtain ⟨s', e⟩ := x
            cases h1
            unfold signRRset at hg
            dsimp only at hg
            cases hcmp : Serial.serialCompare ((18446744073709551616 + ctx.now - 5400) % 18446744073709551616 % 4294967296)
              ((ctx.now + ctx.lifetime) % 18446744073709551616 % 4294967296) with
            | err e => rw [hcmp] at hg; simp only [Res.bind_err, reduceCtorEq] at hg
            | ub => rw [hcmp] at hg; simp only [Res.bind_ub, reduceCtorEq] at hg
            | ok c =>
              rw [hcmp] at hg
              simp only [Res.bind_ok] at hg
              split at hg
              · simp only [reduceCtorEq] at hg
              · split at hg
                · simp only [reduceCtorEq] at hg
                · simp only [Res.ok.injEq, Prod.mk.injEq] at hg
                  exact hc (by rw [← hg.1])
          | err e => rw [hg] at h1; cases h1
          | ub => rw [hg] at h1; cases h1
  · intro s hs
    rw [applyWork_sigs] at hs
    have hex : ∃ r ∈ n.rrsets, s.covered = r.type := by
      rcases hs with hs | ⟨hs, hn⟩
      · exact hD.add s hs
      · by_cases hst : s.covered ∈ n.rrsets.map (·.type)
        · obtain ⟨r, hr, he⟩ := List.mem_map.1 hst
          exact ⟨r, hr, he.symm⟩
        · exact absurd (hD.stray s hs hst) hn
    obtain ⟨r, hr, hc⟩ := hex
    obtain ⟨rm, ad, hO, hm⟩ := hD.each r hr
    rw [(hm s hc).1, (hm s hc).2] at hs
    by_cases hsn : Signable n r.type
    · exact ⟨r, hr, hsn, hc, (hO.sign hsn).only s hc hs⟩
    · have := hO.non hsn
      rcases hs with hs | ⟨hs, hn⟩
      · rw [this.1] at hs; cases hs
      · exact absurd (this.2 s hs hc) hn
  · intro ho s hs r hr hsn hc
    obtain ⟨rm, ad, hO, hm⟩ := hD.each r hr
    rw [applyWork_sigs, (hm s hc).1, (hm s hc).2]
    exact (hO.sign hsn).offline ho s hs hc

/-- A node after signing. -/
theorem signNode_signed (C : Crypto) (ctx : Ctx) (n : Node) (w : Work) (hS : Sane ctx) (hC : Sound C) (hR : Ready C ctx n)
    (h : signNode C ctx n = .ok w) : Signed C ctx (applyWork n w) := by
  have hD := signNode_done C ctx n w hS hC hR h
  obtain ⟨f1, f2, f3⟩ := done_facts C ctx n w hD
  have hf := applyWork_fields n w
  refine ⟨?_, ?_, ?_⟩
  · intro r hr hsn k hk hsg
    rw [hf.2.2.2] at hr
    rw [signable_apply] at hsn
    rw [hf.1] at hsg ⊢
    obtain ⟨s, h1, h2, _⟩ := f1 r hr hsn k hk hsg
    exact ⟨s, h1, pick_good C ctx n.owner r _ _ k s hS hC (hR.known' r hr hsn) hk hsg h2⟩
  · intro s hs
    obtain ⟨r, hr, hsn, hc, hx⟩ := f2 s hs
    rw [hf.2.2.2, hf.1]
    refine ⟨r, hr, (signable_apply ..).2 hsn, hc, ?_⟩
    rcases hx with ⟨k, hk, hsg, hp⟩ | hx
    · exact .inl ⟨k, hk, hsg, pick_good C ctx n.owner r _ _ k s hS hC (hR.known' r hr hsn) hk hsg hp⟩
    · exact .inr hx
  · intro ho s hs r hr hsn hc
    rw [hf.2.2.2] at hr
    rw [signable_apply] at hsn
    rw [hf.1] at ho
    exact f3 ho s hs r hr hsn hc

theorem signNode_minimal (C : Crypto) (ctx : Ctx) (n : Node) (w : Work) (hS : Sane ctx) (hC : Sound C) (hR : Ready C ctx n)
    (hE : Exclusive C ctx) (hA : Apart ctx) (h : signNode C ctx n = .ok w) : Minimal C ctx (applyWork n w) := by
  have hD := signNode_done C ctx n w hS hC hR h
  obtain ⟨f1, f2, f3⟩ := done_facts C ctx n w hD
  have hf := applyWork_fields n w
  intro r hr k hk hsg
  rw [hf.2.2.2] at hr
  rw [hf.1] at hsg ⊢
  have key : ∀ s ∈ (applyWork n w).sigs, Good C ctx.now (ctx.refresh + ctx.prerefresh) n.owner r k s →
      pick C ctx n.owner r (source ctx n) (trust ctx n) k = some s := by
    intro s hs hg
    obtain ⟨r', hr', hsn, hc, hx⟩ := f2 s hs
    have he : r' = r := type_inj n hR.proper r' r hr' hr (by rw [← hc, hg.1.1])
    subst he
    rcases hx with ⟨k', hk', hsg', hp⟩ | ⟨ho, hoff⟩
    · have hg' := pick_good C ctx n.owner r' _ _ k' s hS hC (hR.known' r' hr' hsn) hk' hsg' hp
      rw [hE k hk k' hk' n.owner r' s hg.2.1 hg'.2.1]
      exact hp
    · rw [ho] at hsg
      exact absurd hg.1 (hA s hoff k hk r' hsg)
  intro s₁ h₁ s₂ h₂ g₁ g₂
  have := (key s₁ h₁ g₁).symm.trans (key s₂ h₂ g₂)
  exact Option.some.inj this

end Knot.Zonesign
