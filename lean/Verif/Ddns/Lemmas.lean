import Verif.Ddns.Spec
import Verif.Changeset.Lemmas4
/-! # Dynamic updates: names and nodes -/
namespace Knot.Ddns
open Knot.Dname (Name)
open Knot.Changeset

/-! ## What a node is -/

theorem hasType_iff {z : Contents} (hz : Wf z) {o : Name} {t : Nat} :
    HasType z o t ↔ (lookup z ⟨false, o, t⟩).isSome := by
  unfold HasType Has
  cases h : lookup z ⟨false, o, t⟩ with
  | none => simp [recs]
  | some d =>
    obtain ⟨x, hx⟩ := List.exists_mem_of_ne_nil _ (hz.good h).1
    simp only [Option.isSome_some, iff_true]
    exact ⟨x, hx⟩

theorem hasNode_of {z : Contents} {apex o : Name} {t : Nat} {d : RRs}
    (h : lookup z ⟨false, o, t⟩ = some d) : hasNode apex z o = true := by
  unfold hasNode
  rw [Bool.or_eq_true]
  refine .inr (List.any_eq_true.mpr ⟨_, lookup_mem h, ?_⟩)
  simp

theorem hasNsec3_of {z : Contents} {o : Name} {t : Nat} {d : RRs}
    (h : lookup z ⟨true, o, t⟩ = some d) : hasNsec3 z o = true := by
  refine List.any_eq_true.mpr ⟨_, lookup_mem h, ?_⟩
  simp

theorem under_antisymm {a b : Name} (h : Under a b) (h' : Under b a) : a = b :=
  h.eq_of_length_le h'.length_le

theorem not_nsec3 {z : Contents} {apex o s : Name} (ha : Apart apex z o) (hs : Under s o)
    (hi : Under apex s) (hn : hasNode apex z s = false) : hasNsec3 z s = false := by
  rw [Bool.eq_false_iff]
  intro hc
  obtain ⟨rr, hm, hr⟩ := List.any_eq_true.mp hc
  simp only [Bool.and_eq_true, List.isSuffixOf_iff_suffix] at hr
  have := under_antisymm (ha rr hm hr.1 s hs hr.2) hi
  subst this
  simp [hasNode] at hn

theorem nodeRR_eq {z : Contents} {apex o : Name} (ha : Apart apex z o) (hi : Under apex o) (t : Nat) :
    nodeRR apex z o t = lookup z ⟨false, o, t⟩ := by
  unfold nodeRR treeOf
  cases hn : hasNode apex z o with
  | true => rfl
  | false =>
    have h3 := not_nsec3 ha (List.suffix_refl o) hi hn
    have e1 : lookup z ⟨true, o, t⟩ = none := by
      cases h : lookup z ⟨true, o, t⟩ with
      | none => rfl
      | some d => rw [hasNsec3_of h] at h3; cases h3
    have e2 : lookup z ⟨false, o, t⟩ = none := by
      cases h : lookup z ⟨false, o, t⟩ with
      | none => rfl
      | some d => rw [hasNode_of (apex := apex) h] at hn; cases hn
    simp [e1, e2]

theorem mem_nodeRRsets {z : Contents} {apex o : Name} (ha : Apart apex z o) (hi : Under apex o) {rr : RRset} :
    rr ∈ nodeRRsets apex z o ↔ rr ∈ z ∧ rr.1.nsec3 = false ∧ rr.1.owner = o := by
  unfold nodeRRsets treeOf
  rw [List.mem_filter]
  simp only [decide_eq_true_eq]
  cases hn : hasNode apex z o with
  | true => simp
  | false =>
    have h3 := not_nsec3 ha (List.suffix_refl o) hi hn
    simp only [Bool.not_false]
    constructor
    · rintro ⟨hm, h1, h2⟩
      have : hasNsec3 z o = true := List.any_eq_true.mpr ⟨rr, hm, by simp [h1, h2]⟩
      rw [this] at h3; cases h3
    · rintro ⟨hm, h1, h2⟩
      have : hasNode apex z o = true := by
        unfold hasNode
        rw [Bool.or_eq_true]
        exact .inr (List.any_eq_true.mpr ⟨rr, hm, by simp [h1, h2]⟩)
      rw [this] at hn; cases hn

theorem inUse_iff {z : Contents} (hz : Wf z) {apex o : Name} (ha : Apart apex z o) (hi : Under apex o) :
    InUse z o ↔ nodeRRsets apex z o ≠ [] := by
  constructor
  · rintro ⟨t, ht⟩ hc
    obtain ⟨d, hd⟩ := Option.isSome_iff_exists.mp ((hasType_iff hz).mp ht)
    have : (⟨false, o, t⟩, d) ∈ nodeRRsets apex z o := (mem_nodeRRsets ha hi).mpr ⟨lookup_mem hd, rfl, rfl⟩
    rw [hc] at this; cases this
  · intro hne
    obtain ⟨rr, hr⟩ := List.exists_mem_of_ne_nil _ hne
    obtain ⟨hm, h1, h2⟩ := (mem_nodeRRsets ha hi).mp hr
    refine ⟨rr.1.type, (hasType_iff hz).mpr ?_⟩
    have : rr.1 = ⟨false, o, rr.1.type⟩ := by rw [← h1, ← h2]
    rw [← this, mem_lookup hz.1 hm]
    rfl

theorem inUse_mem {z : Contents} (hz : Wf z) {o : Name} :
    InUse z o ↔ ∃ rr ∈ z, rr.1.nsec3 = false ∧ rr.1.owner = o := by
  constructor
  · rintro ⟨t, ht⟩
    obtain ⟨d, hd⟩ := Option.isSome_iff_exists.mp ((hasType_iff hz).mp ht)
    exact ⟨_, lookup_mem hd, rfl, rfl⟩
  · rintro ⟨rr, hm, h1, h2⟩
    refine ⟨rr.1.type, (hasType_iff hz).mpr ?_⟩
    have : rr.1 = ⟨false, o, rr.1.type⟩ := by rw [← h1, ← h2]
    rw [← this, mem_lookup hz.1 hm]
    rfl

/-! ## DNAME above -/

theorem dnameAbove_iff {z : Contents} (hz : Wf z) {apex : Name} (o : Name) (hi : Under apex o) :
    dnameAbove apex z o = true ↔ UnderDname apex z o := by
  induction o with
  | nil =>
    simp only [dnameAbove, Bool.false_eq_true, false_iff]
    rintro ⟨s, _, h2, h3, _⟩
    exact h3 (List.suffix_nil.mp h2)
  | cons l o ih =>
    unfold dnameAbove
    by_cases he : l :: o = apex
    · rw [if_pos he]
      simp only [Bool.false_eq_true, false_iff]
      rintro ⟨s, h1, h2, h3, _⟩
      exact h3 (under_antisymm h2 (he ▸ h1))
    · rw [if_neg he]
      have hi' : Under apex o := by
        rcases List.suffix_cons_iff.mp hi with h | h
        · exact absurd h.symm he
        · exact h
      rw [Bool.or_eq_true, ← hasType_iff hz, ih hi']
      constructor
      · rintro (h | ⟨s, h1, h2, h3, h4⟩)
        · exact ⟨o, hi', List.suffix_cons l o, by simp, h⟩
        · refine ⟨s, h1, h2.trans (List.suffix_cons l o), ?_, h4⟩
          intro e
          have := h2.length_le
          rw [e] at this; simp at this; omega
      · rintro ⟨s, h1, h2, h3, h4⟩
        rcases List.suffix_cons_iff.mp h2 with h | h
        · exact absurd h h3
        · by_cases e : s = o
          · subst e; exact .inl h4
          · exact .inr ⟨s, h1, h, e, h4⟩

theorem dnameUp_eq {z : Contents} {apex o0 : Name} (ha : Apart apex z o0) (o : Name)
    (hs : Under o o0) (hi : Under apex o) : dnameUp apex z o = dnameAbove apex z o := by
  induction o with
  | nil => rfl
  | cons l o ih =>
    rw [dnameUp, dnameAbove]
    by_cases he : l :: o = apex
    · rw [if_pos he, if_pos he]
    · rw [if_neg he, if_neg he]
      have hi' : Under apex o := by
        rcases List.suffix_cons_iff.mp hi with h | h
        · exact absurd h.symm he
        · exact h
      have hs' : Under o o0 := (List.suffix_cons l o).trans hs
      cases hn : hasNode apex z o with
      | true => simp
      | false =>
        rw [not_nsec3 ha hs' hi' hn, ih hs' hi']
        have : lookup z ⟨false, o, dname⟩ = none := by
          cases h : lookup z ⟨false, o, dname⟩ with
          | none => rfl
          | some d => rw [hasNode_of (apex := apex) h] at hn; cases hn
        simp [this]

theorem addingToCname_iff {z : Contents} (hz : Wf z) {apex o : Name} (ha : Apart apex z o)
    (hi : Under apex o) :
    addingToCname apex z o = true ↔ HasType z o cname ∨ UnderDname apex z o := by
  unfold addingToCname isNode
  rw [nodeRR_eq ha hi]
  cases hn : hasNode apex z o with
  | true =>
    simp only [Bool.true_or, not_true, if_false]
    rw [hasType_iff hz, ← dnameAbove_iff hz o hi]
    cases (lookup z ⟨false, o, cname⟩).isSome <;> simp
  | false =>
    rw [not_nsec3 ha (List.suffix_refl o) hi hn]
    simp only [Bool.or_self, Bool.false_eq_true, not_false_eq_true, if_true]
    rw [dnameUp_eq ha o (List.suffix_refl o) hi, dnameAbove_iff hz o hi]
    have : ¬ HasType z o cname := by
      rw [hasType_iff hz]
      cases h : lookup z ⟨false, o, cname⟩ with
      | none => simp
      | some d => rw [hasNode_of (apex := apex) h] at hn; cases hn
    simp [this]

theorem subtreeEmpty_iff {z : Contents} (hz : Wf z) {apex o : Name} (ha : Apart apex z o)
    (hi : Under apex o) :
    subtreeEmpty apex z o = true ↔ ∀ s, Under o s → s ≠ o → ¬ InUse z s := by
  unfold subtreeEmpty isNode
  cases hn : hasNode apex z o with
  | true =>
    simp only [Bool.true_or, Bool.not_true, Bool.false_or, List.all_eq_true, Bool.or_eq_true,
      decide_eq_true_eq, Bool.not_eq_true']
    constructor
    · intro h s hs hne hu
      obtain ⟨rr, hm, h1, h2⟩ := (inUse_mem hz).mp hu
      rcases h rr hm with (e | e) | e
      · rw [h1] at e; cases e
      · exact hne (h2 ▸ e)
      · rw [h2] at e
        rw [List.isSuffixOf_iff_suffix.mpr hs] at e
        cases e
    · intro h rr hm
      cases hb : rr.1.nsec3 with
      | true => exact .inl (.inl rfl)
      | false =>
        by_cases he : rr.1.owner = o
        · exact .inl (.inr he)
        · refine .inr ?_
          rw [Bool.eq_false_iff]
          intro hs
          exact h rr.1.owner (List.isSuffixOf_iff_suffix.mp hs) he ((inUse_mem hz).mpr ⟨rr, hm, hb, rfl⟩)
  | false =>
    rw [not_nsec3 ha (List.suffix_refl o) hi hn]
    simp only [Bool.or_self, Bool.not_false, Bool.true_or, true_iff]
    intro s hs _ hu
    obtain ⟨rr, hm, h1, h2⟩ := (inUse_mem hz).mp hu
    have : hasNode apex z o = true := by
      unfold hasNode
      rw [Bool.or_eq_true]
      refine .inr (List.any_eq_true.mpr ⟨rr, hm, ?_⟩)
      simp only [h1, Bool.not_false, Bool.true_and, List.isSuffixOf_iff_suffix, h2]
      exact hs
    rw [this] at hn; cases hn

end Knot.Ddns
