import Verif.Adjust.Lemmas2
/-! # Lemmas for C54: the pointers to the previous node -/
namespace Knot.Adjust

/-- Nodes the pass takes for authoritative, by the flags it starts with. -/
def taken (fl0 : Name → Fl) (x : Node) : Bool := !(fl0 x.name).nonauth && decide (x.rrs ≠ [])

/-- The last of them. -/
def lastTaken (fl0 : Name → Fl) (l : Zone) : Option Name := ((l.filter (taken fl0)).getLast?).map (·.name)

theorem lastTaken_snoc (fl0 : Name → Fl) (l : Zone) (nd : Node) :
    lastTaken fl0 (l ++ [nd]) = if taken fl0 nd then some nd.name else lastTaken fl0 l := by
  unfold lastTaken
  rw [List.filter_append]
  cases h : taken fl0 nd
  · simp [h]
  · simp [h]

/-- The pointers after a part of the zone. -/
structure PPart (fl0 : Name → Fl) (l : Zone) (p : Pass) : Prop where
  previous : p.previous = lastTaken fl0 l
  first : p.first = l.head?.map (·.name)
  prev : ∀ l1 nd l2, l = l1 ++ nd :: l2 → (lastTaken fl0 l1).isSome → p.prev nd.name = lastTaken fl0 l1

theorem ppart_step {z l r : Zone} {nd : Node} {fl0 : Name → Fl} {p : Pass} (hw : WF z)
    (hz : z = l ++ nd :: r) (h : Part z fl0 l p.fl) (hp : PPart fl0 l p) :
    PPart fl0 (l ++ [nd]) (single true p nd) := by
  have hnl : ∀ x ∈ l, x.name ≠ nd.name := by
    intro x hx he
    have hs := hw.sorted
    rw [hz, List.pairwise_append] at hs
    have := hs.2.2 x hx nd (by simp)
    rw [he] at this
    exact name_irrefl _ this
  have hfl : p.fl nd.name = fl0 nd.name := h.rest nd.name hnl
  unfold single
  dsimp only
  refine ⟨?_, ?_, ?_⟩
  · dsimp only
    rw [lastTaken_snoc, hfl, hp.previous]
    rfl
  · dsimp only
    rw [hp.first]
    cases l <;> simp
  · dsimp only
    intro l1 x l2 he hs
    rcases List.eq_nil_or_concat l2 with hl | ⟨l2', y, hl⟩
    · subst hl
      obtain ⟨h1, h2⟩ := List.append_inj' he rfl
      rw [List.cons.injEq] at h2
      rw [← h2.1]
      subst h1
      by_cases hm : p.prev nd.name = p.previous
      · rw [if_neg (by simp [hm]), hm, hp.previous]
      · rw [if_pos (by rw [hp.previous] at hm ⊢; simp [hs, hm]), put_same, hp.previous]
    · rw [List.concat_eq_append] at hl
      subst hl
      rw [← List.cons_append, ← List.append_assoc] at he
      obtain ⟨h1, h2⟩ := List.append_inj' he rfl
      have hxl : x ∈ l := by rw [h1]; simp
      have := hp.prev l1 x l2' h1 hs
      split
      · rw [put_other (hnl x hxl)]; exact this
      · exact this

theorem ppart_fold {z : Zone} {fl0 : Name → Fl} (hw : WF z) : ∀ (r l : Zone) (p : Pass),
    z = l ++ r → Part z fl0 l p.fl → PPart fl0 l p → PPart fl0 z (r.foldl (single true) p)
  | [], l, p, hz, _, hp => by rw [List.append_nil] at hz; rw [hz]; exact hp
  | nd :: r, l, p, hz, h, hp => by
    rw [List.foldl_cons]
    apply ppart_fold hw r (l ++ [nd]) (single true p nd)
    · rw [hz]; simp
    · exact part_step hw hz h
    · exact ppart_step hw hz h hp

theorem lastTaken_some {fl0 : Name → Fl} {l : Zone} {m : Name} (hs : l.Pairwise (fun a b => a.name < b.name))
    (h : lastTaken fl0 l = some m) :
    ∃ x ∈ l, x.name = m ∧ taken fl0 x = true ∧ ∀ y ∈ l, taken fl0 y = true → ¬ m < y.name := by
  unfold lastTaken at h
  rw [Option.map_eq_some_iff] at h
  obtain ⟨x, hx, hm⟩ := h
  have hmem : x ∈ l.filter (taken fl0) := List.mem_of_getLast? hx
  have hmem' := List.mem_filter.mp hmem
  refine ⟨x, hmem'.1, hm, hmem'.2, ?_⟩
  intro y hy hyt hlt
  have hyf : y ∈ l.filter (taken fl0) := List.mem_filter.mpr ⟨hy, hyt⟩
  have hsf := hs.filter (taken fl0)
  rw [List.getLast?_eq_some_iff] at hx
  obtain ⟨ys, hys⟩ := hx
  rw [hys] at hyf hsf
  rw [List.pairwise_append] at hsf
  rcases List.mem_append.mp hyf with h1 | h1
  · have := hsf.2.2 y h1 x (by simp)
    rw [hm] at this
    exact name_asymm hlt this
  · rw [List.mem_singleton] at h1
    rw [h1, hm] at hlt
    exact name_irrefl _ hlt

theorem lastTaken_isSome {fl0 : Name → Fl} {l : Zone} {x : Node} (hx : x ∈ l) (h : taken fl0 x = true) :
    (lastTaken fl0 l).isSome := by
  unfold lastTaken
  rw [Option.isSome_map, ← Option.ne_none_iff_isSome, Ne, List.getLast?_eq_none_iff]
  intro hn
  have : x ∈ l.filter (taken fl0) := List.mem_filter.mpr ⟨hx, h⟩
  rw [hn] at this
  simp at this

/-- The pointers after a pass: to the nearest node taken for authoritative. -/
theorem prevs_taken {z : Zone} (hw : WF z) {fl : Name → Fl} (prev : Name → Option Name)
    (ha : (fl []).nonauth = false) : ∀ nd ∈ z, ∃ x ∈ z, taken fl x = true ∧
      (adjustTree true z fl prev).prev nd.name = some x.name ∧
      ∀ y ∈ z, taken fl y = true → ¬ Between x.name y.name nd.name := by
  have hp : PPart fl z (z.foldl (single true) { fl, prev }) := by
    apply ppart_fold hw z [] _ rfl
    · exact ⟨by simp, by simp, by simp, by simp, fun m _ => rfl⟩
    · refine ⟨rfl, rfl, ?_⟩
      intro l1 nd l2 h
      simp at h
  obtain ⟨a, l, hz, han, har⟩ := hw.apex
  have hat : taken fl a = true := by unfold taken; simp [han, ha, har]
  have hfirst : (z.foldl (single true) { fl, prev }).first = some [] := by
    rw [hp.first, hz]
    simp [han]
  have hadj : (adjustTree true z fl prev).prev =
      put (z.foldl (single true) { fl, prev }).prev [] (lastTaken fl z) := by
    unfold adjustTree
    dsimp only
    rw [← hp.previous]
    rw [hfirst]
  have haz : a ∈ z := by rw [hz]; simp
  intro nd hnd
  by_cases hne : nd.name = []
  · obtain ⟨m, hm⟩ := Option.isSome_iff_exists.mp (lastTaken_isSome haz hat)
    obtain ⟨x, hx, hxm, hxt, hxl⟩ := lastTaken_some hw.sorted hm
    refine ⟨x, hx, hxt, ?_, ?_⟩
    · rw [hadj, hne, put_same, hm, hxm]
    · intro y hy hyt hb
      rw [hne] at hb
      rw [hxm] at hb
      rcases hb with ⟨h1, _⟩ | ⟨_, h1 | h1⟩
      · exact absurd h1 (by simp)
      · exact hxl y hy hyt h1
      · exact absurd h1 (by simp)
  · obtain ⟨l1, l2, hsp⟩ := List.append_of_mem hnd
    have hs := hw.sorted
    rw [hsp, List.pairwise_append, List.pairwise_cons] at hs
    have hal : a ∈ l1 := by
      rw [hsp] at hz
      cases l1 with
      | nil => rw [List.nil_append, List.cons.injEq] at hz; rw [hz.1] at hne; exact absurd han hne
      | cons b l1 => rw [List.cons_append, List.cons.injEq] at hz; rw [hz.1]; simp
    have hsome := lastTaken_isSome hal hat
    obtain ⟨m, hm⟩ := Option.isSome_iff_exists.mp hsome
    obtain ⟨x, hx, hxm, hxt, hxl⟩ := lastTaken_some hs.1 hm
    refine ⟨x, by rw [hsp]; exact List.mem_append_left _ hx, hxt, ?_, ?_⟩
    · rw [hadj, put_other hne, hp.prev l1 nd l2 hsp hsome, hm, hxm]
    · intro y hy hyt hb
      have hlt : x.name < nd.name := hs.2.2 x hx nd (by simp)
      rcases hb with ⟨_, h2, h3⟩ | ⟨h1, _⟩
      · rw [hsp] at hy
        rcases List.mem_append.mp hy with h | h
        · rw [hxm] at h2; exact hxl y h hyt h2
        · rcases List.mem_cons.mp h with h | h
          · rw [h] at h3; exact name_irrefl _ h3
          · exact name_asymm h3 (hs.2.1.1 y h)
      · exact h1 hlt

/-- With the right flags before the pass. -/
theorem prevs_ok {z : Zone} (hw : WF z) {fl : Name → Fl} (prev : Name → Option Name)
    (hf : ∀ nd ∈ z, ((fl nd.name).nonauth = true ↔ Below z nd.name)) :
    ∀ nd ∈ z, PrevOk z nd.name ((adjustTree true z fl prev).prev nd.name) := by
  have ht : ∀ x ∈ z, (taken fl x = true ↔ Auth z x.name) := by
    intro x hx
    unfold taken Auth
    rw [Bool.and_eq_true, Bool.not_eq_true', decide_eq_true_iff, ← Bool.not_eq_true, hf x hx]
    constructor
    · rintro ⟨h1, h2⟩; exact ⟨⟨x, hx, rfl, h2⟩, h1⟩
    · rintro ⟨⟨y, hy, hn, h2⟩, h1⟩
      rw [sorted_inj hw.sorted hy hx hn] at h2
      exact ⟨h1, h2⟩
  obtain ⟨a, l, hz, han, har⟩ := hw.apex
  have haz : a ∈ z := by rw [hz]; simp
  have ha : (fl []).nonauth = false := by
    have := hf a haz
    rw [han] at this
    cases h : (fl []).nonauth
    · rfl
    · exact absurd (this.mp h) (not_below_apex z)
  intro nd hnd
  obtain ⟨x, hx, hxt, hp, hno⟩ := prevs_taken hw prev ha nd hnd
  refine ⟨x.name, hp, (ht x hx).mp hxt, ?_⟩
  intro b hb
  obtain ⟨⟨y, hy, hyn, _⟩, _⟩ := id hb
  rw [← hyn] at hb ⊢
  exact hno y hy ((ht y hy).mpr hb)

/-- With flags before the pass that miss no authoritative node. -/
theorem prevs_noskip {z : Zone} (hw : WF z) {fl : Name → Fl} (prev : Name → Option Name)
    (hf : ∀ nd ∈ z, (fl nd.name).nonauth = true → nd.rrs ≠ [] → Below z nd.name) :
    ∀ nd ∈ z, NoSkip z nd.name ((adjustTree true z fl prev).prev nd.name) := by
  have ht : ∀ x ∈ z, Auth z x.name → taken fl x = true := by
    intro x hx h
    unfold taken
    obtain ⟨⟨y, hy, hn, h2⟩, h1⟩ := h
    rw [sorted_inj hw.sorted hy hx hn] at h2
    rw [Bool.and_eq_true, Bool.not_eq_true', decide_eq_true_iff]
    refine ⟨?_, h2⟩
    cases h : (fl x.name).nonauth
    · rfl
    · exact absurd (hf x hx h h2) h1
  obtain ⟨a, l, hz, han, har⟩ := hw.apex
  have haz : a ∈ z := by rw [hz]; simp
  have ha : (fl []).nonauth = false := by
    have := hf a haz
    rw [han] at this
    cases h : (fl []).nonauth
    · rfl
    · exact absurd (this h har) (not_below_apex z)
  intro nd hnd
  obtain ⟨x, hx, hxt, hp, hno⟩ := prevs_taken hw prev ha nd hnd
  refine ⟨x.name, hp, ⟨x, hx, rfl⟩, ?_⟩
  intro b hb
  obtain ⟨⟨y, hy, hyn, _⟩, _⟩ := id hb
  rw [← hyn] at hb ⊢
  exact hno y hy (ht y hy hb)

/-! Changed nodes -/

/-- The names put among the changed ones so far. -/
theorem single_changed (prevs : Bool) (p : Pass) (nd : Node) (m : Name) (h : m ∈ p.changed) :
    m ∈ (single prevs p nd).changed := by
  unfold single
  dsimp only
  split <;> split <;> simp [h]

theorem fold_changed (prevs : Bool) (m : Name) : ∀ (r : Zone) (p : Pass), m ∈ p.changed →
    m ∈ (r.foldl (single prevs) p).changed
  | [], _, h => h
  | nd :: r, p, h => by
    rw [List.foldl_cons]
    exact fold_changed prevs m r _ (single_changed prevs p nd m h)

theorem adjust_changed (prevs : Bool) (z : Zone) (fl : Name → Fl) (prev : Name → Option Name) (m : Name)
    (h : m ∈ (z.foldl (single prevs) { fl, prev }).changed) : m ∈ (adjustTree prevs z fl prev).changed := by
  unfold adjustTree
  dsimp only
  split
  · exact List.mem_cons_of_mem _ h
  · exact h

/-- A node whose first two flags are changed is among the changed ones. -/
theorem changed_own {z : Zone} (hw : WF z) (prevs : Bool) (fl : Name → Fl) (prev : Name → Option Name)
    {nd : Node} (hnd : nd ∈ z)
    (hd : ((adjustTree prevs z fl prev).fl nd.name).nonauth ≠ (fl nd.name).nonauth ∨
      ((adjustTree prevs z fl prev).fl nd.name).deleg ≠ (fl nd.name).deleg) :
    nd.name ∈ (adjustTree prevs z fl prev).changed := by
  obtain ⟨l, r, hz⟩ := List.append_of_mem hnd
  apply adjust_changed
  rw [hz, List.foldl_append, List.foldl_cons]
  apply fold_changed
  -- the state at the node
  have hpart : ∀ (r' l' : Zone) (p : Pass), l = l' ++ r' → Part z fl l' p.fl →
      Part z fl l (r'.foldl (single prevs) p).fl := by
    intro r'
    induction r' with
    | nil => intro l' p he h; rw [List.append_nil] at he; rw [he]; exact h
    | cons x r' ih =>
      intro l' p he h
      rw [List.foldl_cons]
      apply ih (l' ++ [x])
      · rw [he]; simp
      · apply part_step (r := r' ++ nd :: r) hw _ h
        rw [hz, he]; simp
  have h0 := hpart l [] { fl, prev } rfl ⟨by simp, by simp, by simp, by simp, fun m _ => rfl⟩
  generalize l.foldl (single prevs) { fl, prev } = p at h0 ⊢
  have hnl : ∀ x ∈ l, x.name ≠ nd.name := by
    intro x hx he
    have hs := hw.sorted
    rw [hz, List.pairwise_append] at hs
    have := hs.2.2 x hx nd (by simp)
    rw [he] at this
    exact name_irrefl _ this
  have hfl : p.fl nd.name = fl nd.name := h0.rest nd.name hnl
  have h1 := part_step hw hz h0
  have hfin := (flags_ok hw prevs fl prev).1 nd hnd
  have hc : cbFlags nd p.fl nd.name ≠ p.fl nd.name := by
    intro he
    rw [hfl] at he
    have e1 := h1.nonauth nd (by simp)
    have e2 := h1.deleg nd (by simp)
    rw [he] at e1 e2
    rcases hd with hd | hd
    · exact hd (Bool.eq_iff_iff.mpr (hfin.1.trans e1.symm))
    · exact hd (Bool.eq_iff_iff.mpr (hfin.2.1.trans e2.symm))
  unfold single
  dsimp only
  rw [if_pos (by simp [hc])]
  simp

end Knot.Adjust
