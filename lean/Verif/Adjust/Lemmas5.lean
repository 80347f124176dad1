import Verif.Adjust.Lemmas4
/-! # Lemmas for C54: additional nodes -/
namespace Knot.Adjust

theorem mem_names {z : Zone} {n : Name} : n ∈ names z ↔ ∃ nd ∈ z, nd.name = n := by
  unfold names; simp

theorem encloser_spec {z : Zone} (ha : [] ∈ names z) (n : Name) : ∀ k, k ≤ n.length →
    encloser z n k ∈ names z ∧ encloser z n k <+: n ∧ (encloser z n k).length ≤ k ∧
    ∀ j, j ≤ k → (encloser z n k).length < j → n.take j ∉ names z
  | 0, _ => by
    refine ⟨ha, List.nil_prefix, by simp [encloser], ?_⟩
    intro j h1 h2
    omega
  | k + 1, hk => by
    obtain ⟨i1, i2, i3, i4⟩ := encloser_spec ha n k (by omega)
    unfold encloser
    split
    · rename_i h
      refine ⟨h, List.take_prefix _ _, by rw [List.length_take]; omega, ?_⟩
      intro j h1 h2
      rw [List.length_take] at h2
      omega
    · rename_i h
      refine ⟨i1, i2, by omega, ?_⟩
      intro j h1 h2
      by_cases hj : j = k + 1
      · rw [hj]; exact h
      · exact i4 j (by omega) h2

theorem find_iff {z : Zone} (hw : WF z) (r m : Name) : find z r = some m ↔ Answers z r m := by
  obtain ⟨a, l, hz, han, har⟩ := hw.apex
  have ha : [] ∈ names z := mem_names.mpr ⟨a, by rw [hz]; simp, han⟩
  obtain ⟨e1, e2, e3, e4⟩ := encloser_spec ha r r.length (Nat.le_refl _)
  unfold find Answers
  dsimp only
  simp only [← mem_names]
  generalize encloser z r r.length = e at e1 e2 e3 e4
  split
  · rename_i h
    rw [Option.some.injEq]
    constructor
    · intro he; exact .inl ⟨he, by rw [← he]; exact h⟩
    · rintro (⟨h1, _⟩ | ⟨h1, _⟩)
      · exact h1
      · exact absurd h h1
  · rename_i h
    constructor
    · intro h1
      split at h1
      · rename_i hs
        rw [Option.some.injEq] at h1
        refine .inr ⟨h, e, h1.symm, e2, by rw [← h1]; exact hs, ?_⟩
        intro e' hp hl hn
        apply e4 e'.length hp.length_le hl
        rw [← List.prefix_iff_eq_take.mp hp]
        exact hn
      · simp at h1
    · rintro (⟨h1, h2⟩ | ⟨_, f, h1, h2, h3, h4⟩)
      · rw [h1] at h; exact absurd h2 h
      · have hfe : f = e := by
          have hfn : f ∈ names z := by
            rw [mem_names] at h3 ⊢
            obtain ⟨x, hx, hxn⟩ := h3
            exact hw.closed x hx f (by rw [hxn, h1]; exact List.prefix_append _ _)
          rcases Nat.lt_trichotomy f.length e.length with hl | hl | hl
          · exact absurd e1 (h4 e e2 hl)
          · exact (List.prefix_of_prefix_length_le h2 e2 (by omega)).eq_of_length hl
          · have := e4 f.length h2.length_le hl
            rw [← List.prefix_iff_eq_take.mp h2] at this
            exact absurd hfn this
        subst hfe
        have : f ++ [star] = m := h1.symm
        rw [this, if_pos h3]

/-! Discovery -/

theorem mem_glues (z : Zone) (fl : Name → Fl) (o : Name) (t : Nat) (g : Glue) : ∀ (l : List (Option Name)) (i : Nat),
    g ∈ glues z fl o t i l ↔ ∃ j x, g.pos = i + j ∧ l[j]? = some (some x) ∧ find z x = some g.node ∧
      g.optional = !(((fl g.node).deleg || (fl g.node).nonauth) && t == tNS && decide (o <+: g.node))
  | [], i => by simp [glues]
  | r :: l, i => by
    have ih := mem_glues z fl o t g l (i + 1)
    have hsucc : (∃ j x, g.pos = i + 1 + j ∧ l[j]? = some (some x) ∧ find z x = some g.node ∧
        g.optional = !(((fl g.node).deleg || (fl g.node).nonauth) && t == tNS && decide (o <+: g.node))) ↔
        ∃ j x, g.pos = i + (j + 1) ∧ (r :: l)[j + 1]? = some (some x) ∧ find z x = some g.node ∧
        g.optional = !(((fl g.node).deleg || (fl g.node).nonauth) && t == tNS && decide (o <+: g.node)) := by
      constructor
      · rintro ⟨j, x, h1, h2⟩; exact ⟨j, x, by omega, by rw [List.getElem?_cons_succ]; exact h2⟩
      · rintro ⟨j, x, h1, h2⟩; exact ⟨j, x, by omega, by rw [List.getElem?_cons_succ] at h2; exact h2⟩
    unfold glues
    cases hb : r.bind (find z) with
    | none =>
      dsimp only
      rw [ih, hsucc]
      constructor
      · rintro ⟨j, x, h⟩; exact ⟨j + 1, x, h⟩
      · rintro ⟨j, x, h1, h2, h3, h4⟩
        cases j with
        | zero =>
          rw [List.getElem?_cons_zero, Option.some.injEq] at h2
          rw [h2, Option.bind_some, h3] at hb
          simp at hb
        | succ j => exact ⟨j, x, h1, h2, h3, h4⟩
    | some n =>
      dsimp only
      rw [List.mem_cons, ih, hsucc]
      rw [Option.bind_eq_some_iff] at hb
      obtain ⟨x0, hr, hf⟩ := hb
      constructor
      · rintro (h | ⟨j, x, h⟩)
        · subst h
          exact ⟨0, x0, rfl, by rw [List.getElem?_cons_zero, hr], hf, rfl⟩
        · exact ⟨j + 1, x, h⟩
      · rintro ⟨j, x, h1, h2, h3, h4⟩
        cases j with
        | zero =>
          left
          rw [List.getElem?_cons_zero, Option.some.injEq, hr, Option.some.injEq] at h2
          rw [← h2, hf, Option.some.injEq] at h3
          cases g
          dsimp only at h1 h3 h4
          rw [h1, ← h3, h4, ← h3]
          rfl
        | succ j => exact .inr ⟨j, x, h1, h2, h3, h4⟩

theorem glues_pos (z : Zone) (fl : Name → Fl) (o : Name) (t : Nat) : ∀ (l : List (Option Name)) (i : Nat),
    (glues z fl o t i l).Pairwise (fun a b => a.pos < b.pos)
  | [], i => by simp [glues]
  | r :: l, i => by
    have ih := glues_pos z fl o t l (i + 1)
    unfold glues
    cases hb : r.bind (find z) with
    | none => exact ih
    | some n =>
      dsimp only
      rw [List.pairwise_cons]
      refine ⟨?_, ih⟩
      intro g hg
      obtain ⟨j, x, h1, _⟩ := (mem_glues z fl o t g l (i + 1)).mp hg
      dsimp only
      omega

theorem mem_discover (z : Zone) (fl : Name → Fl) (o : Name) (r : RR) (g : Glue) :
    g ∈ discover z fl o r ↔ ∃ x, r.refs[g.pos]? = some (some x) ∧ find z x = some g.node ∧
      g.optional = !(((fl g.node).deleg || (fl g.node).nonauth) && r.type == tNS && decide (o <+: g.node)) := by
  unfold discover
  dsimp only
  rw [List.mem_append, List.mem_filter, List.mem_filter, mem_glues]
  simp only [Nat.zero_add]
  constructor
  · rintro (⟨⟨j, x, h1, h2⟩, _⟩ | ⟨⟨j, x, h1, h2⟩, _⟩) <;> exact ⟨x, by rw [h1]; exact h2⟩
  · rintro ⟨x, h⟩
    cases ho : g.optional
    · left; exact ⟨⟨g.pos, x, rfl, by rw [← ho]; exact h⟩, rfl⟩
    · right; exact ⟨⟨g.pos, x, rfl, by rw [← ho]; exact h⟩, rfl⟩

theorem discover_order (z : Zone) (fl : Name → Fl) (o : Name) (r : RR) :
    (discover z fl o r).Pairwise
      (fun a b => (a.optional = b.optional ∧ a.pos < b.pos) ∨ (a.optional = false ∧ b.optional = true)) := by
  unfold discover
  dsimp only
  have h := glues_pos z fl o r.type r.refs 0
  rw [List.pairwise_append]
  refine ⟨?_, ?_, ?_⟩
  · apply List.Pairwise.imp_of_mem _ (h.filter _)
    intro a b ha hb hab
    have h1 := (List.mem_filter.mp ha).2
    have h2 := (List.mem_filter.mp hb).2
    rw [Bool.not_eq_true'] at h1 h2
    exact .inl ⟨h1.trans h2.symm, hab⟩
  · apply List.Pairwise.imp_of_mem _ (h.filter _)
    intro a b ha hb hab
    have h1 := (List.mem_filter.mp ha).2
    have h2 := (List.mem_filter.mp hb).2
    exact .inl ⟨h1.trans h2.symm, hab⟩
  · intro a ha b hb
    have h1 := (List.mem_filter.mp ha).2
    have h2 := (List.mem_filter.mp hb).2
    rw [Bool.not_eq_true'] at h1
    exact .inr ⟨h1, h2⟩

theorem discover_nodup (z : Zone) (fl : Name → Fl) (o : Name) (r : RR) :
    ((discover z fl o r).map (·.pos)).Nodup := by
  unfold discover
  dsimp only
  have h := glues_pos z fl o r.type r.refs 0
  have hinj : ∀ a ∈ glues z fl o r.type 0 r.refs, ∀ b ∈ glues z fl o r.type 0 r.refs, a.pos = b.pos →
      a.optional = b.optional := by
    intro a ha b hb he
    obtain ⟨j, x, h1, h2, h3, h4⟩ := (mem_glues _ _ _ _ a _ _).mp ha
    obtain ⟨j', x', h1', h2', h3', h4'⟩ := (mem_glues _ _ _ _ b _ _).mp hb
    have hj : j = j' := by omega
    subst hj
    rw [h2, Option.some.injEq, Option.some.injEq] at h2'
    subst h2'
    rw [h3, Option.some.injEq] at h3'
    rw [h4, h4', h3']
  rw [List.map_append, List.nodup_append]
  refine ⟨?_, ?_, ?_⟩
  · unfold List.Nodup
    rw [List.pairwise_map]
    apply (h.filter _).imp
    intro a b hab; omega
  · unfold List.Nodup
    rw [List.pairwise_map]
    apply (h.filter _).imp
    intro a b hab; omega
  · intro p hp q hq he
    obtain ⟨a, ha, hap⟩ := List.mem_map.mp hp
    obtain ⟨b, hb, hbp⟩ := List.mem_map.mp hq
    obtain ⟨ha1, ha2⟩ := List.mem_filter.mp ha
    obtain ⟨hb1, hb2⟩ := List.mem_filter.mp hb
    have := hinj a ha1 b hb1 (by omega)
    rw [Bool.not_eq_true'] at ha2
    rw [ha2, hb2] at this
    simp at this

/-- The flags that the discovery looks at. -/
theorem must_iff {z : Zone} {fl : Name → Fl} (hf : ∀ nd ∈ z, FlagsOk z nd.name (fl nd.name)) {m o : Name}
    (hm : m ∈ names z) (t : Nat) :
    (((fl m).deleg || (fl m).nonauth) && t == tNS && decide (o <+: m)) = true ↔ Must z o t m := by
  obtain ⟨nd, hnd, hn⟩ := mem_names.mp hm
  have := hf nd hnd
  rw [hn] at this
  obtain ⟨h1, h2, _⟩ := this
  unfold Must
  rw [Bool.and_eq_true, Bool.and_eq_true, Bool.or_eq_true, h1, h2, decide_eq_true_iff, beq_iff_eq]
  unfold tNS
  constructor
  · rintro ⟨⟨h3 | h3, h4⟩, h5⟩
    · exact ⟨h4, h5, .inl h3.1⟩
    · exact ⟨h4, h5, .inr h3⟩
  · rintro ⟨h3, h4, h5⟩
    refine ⟨⟨?_, h3⟩, h4⟩
    by_cases hb : Below z m
    · exact .inr hb
    · rcases h5 with h5 | h5
      · exact .inl ⟨h5, hb⟩
      · exact absurd h5 hb

theorem answers_node {z : Zone} {r m : Name} (h : Answers z r m) : m ∈ names z := by
  rw [mem_names]
  rcases h with ⟨_, h⟩ | ⟨_, e, _, _, h, _⟩ <;> exact h

theorem discover_ok {z : Zone} (hw : WF z) {fl : Name → Fl}
    (hf : ∀ nd ∈ z, FlagsOk z nd.name (fl nd.name)) (o : Name) (r : RR) : AddsOk z o r (discover z fl o r) := by
  refine ⟨?_, discover_order z fl o r⟩
  intro g
  rw [mem_discover]
  constructor
  · rintro ⟨x, h1, h2, h3⟩
    rw [find_iff hw] at h2
    refine ⟨x, h1, h2, ?_⟩
    rw [h3, ← must_iff hf (answers_node h2)]
    simp only [Bool.not_eq_false']
  · rintro ⟨x, h1, h2, h3⟩
    refine ⟨x, h1, (find_iff hw _ _).mpr h2, ?_⟩
    rw [← must_iff hf (answers_node h2)] at h3
    generalize (((fl g.node).deleg || (fl g.node).nonauth) && r.type == tNS && decide (o <+: g.node)) = c at h3
    cases c <;> cases ho : g.optional <;> simp [ho] at h3 <;> rfl

theorem ok_loose {z : Zone} (hw : WF z) {o : Name} {r : RR} {l : List Glue} (h : AddsOk z o r l)
    (hn : (l.map (·.pos)).Nodup) : AddsLoose z r l := by
  refine ⟨?_, ?_, hn⟩
  · intro g hg
    obtain ⟨x, h1, h2, _⟩ := (h.1 g).mp hg
    refine ⟨mem_names.mp (answers_node h2), x, h1, ?_⟩
    rcases h2 with ⟨h3, _⟩ | ⟨h3, e, h4, h5, ⟨nd, h6, h7⟩, _⟩
    · exact .inl h3.symm
    · refine .inr ⟨h3, e, h4, h5, ?_⟩
      intro he
      apply h3
      rw [← he]
      exact hw.closed nd h6 e (by rw [h7, h4]; exact List.prefix_append _ _)
  · intro i x hx hn
    by_cases hm : Must z o r.type x
    · exact ⟨⟨x, i, false⟩, (h.1 _).mpr ⟨x, hx, .inl ⟨rfl, hn⟩, by simp [hm]⟩, rfl, rfl⟩
    · exact ⟨⟨x, i, true⟩, (h.1 _).mpr ⟨x, hx, .inl ⟨rfl, hn⟩, by simp [hm]⟩, rfl, rfl⟩

/-! The lists of all nodes -/

theorem cbAdds_other (z : Zone) (fl : Name → Fl) (nd : Node) {m : Name} (hm : m ≠ nd.name) :
    ∀ (rrs : List RR) (a : Adds),
    rrs.foldl (fun (a : Adds) r =>
      if needsAdd r.type then
        put a nd.name (fun t => if t = r.type then discover z fl nd.name r else a nd.name t)
      else a) a m = a m
  | [], a => rfl
  | r :: l, a => by
    rw [List.foldl_cons, cbAdds_other z fl nd hm l]
    split
    · rw [put_other hm]
    · rfl

theorem cbAdds_type (z : Zone) (fl : Name → Fl) (nd : Node) (t : Nat) :
    ∀ (rrs : List RR) (a : Adds), (∀ r ∈ rrs, r.type ≠ t) →
    rrs.foldl (fun (a : Adds) r =>
      if needsAdd r.type then
        put a nd.name (fun t => if t = r.type then discover z fl nd.name r else a nd.name t)
      else a) a nd.name t = a nd.name t
  | [], a, _ => rfl
  | r :: l, a, h => by
    rw [List.foldl_cons, cbAdds_type z fl nd t l _ (fun x hx => h x (List.mem_cons_of_mem _ hx))]
    split
    · rw [put_same, if_neg (fun he => h r (by simp) he.symm)]
    · rfl

theorem cbAdds_same (z : Zone) (fl : Name → Fl) (nd : Node) (r : RR) (hr : needsAdd r.type = true) :
    ∀ (rrs : List RR) (a : Adds), (rrs.map (·.type)).Nodup → r ∈ rrs →
    rrs.foldl (fun (a : Adds) r =>
      if needsAdd r.type then
        put a nd.name (fun t => if t = r.type then discover z fl nd.name r else a nd.name t)
      else a) a nd.name r.type = discover z fl nd.name r
  | x :: l, a, hn, hm => by
    rw [List.map_cons, List.nodup_cons] at hn
    rw [List.foldl_cons]
    rcases List.mem_cons.mp hm with h | h
    · subst h
      rw [cbAdds_type z fl nd r.type l, if_pos hr, put_same, if_pos rfl]
      intro y hy he
      exact hn.1 (List.mem_map.mpr ⟨y, hy, he⟩)
    · exact cbAdds_same z fl nd r hr l _ hn.2 h

theorem addsAt_spec {z : Zone} (hw : WF z) (fl : Name → Fl) {nd : Node} (hnd : nd ∈ z) {r : RR}
    (hr : r ∈ nd.rrs) (ht : needsAdd r.type = true) : ∀ (l : List Name) (a : Adds),
    addsAt z fl a l nd.name r.type =
      if nd.name ∈ l then discover z fl nd.name r else a nd.name r.type
  | [], a => by simp [addsAt]
  | n :: l, a => by
    have ih := addsAt_spec hw fl hnd hr ht l
    have hstep : addsAt z fl a (n :: l) =
        addsAt z fl (match get? z n with | some nd => cbAdds z fl a nd | none => a) l := rfl
    rw [hstep, ih]
    by_cases hn : n = nd.name
    · have hg := (get?_some hw.sorted).mpr ⟨hnd, hn.symm⟩
      rw [hg]
      dsimp only
      have : cbAdds z fl a nd nd.name r.type = discover z fl nd.name r :=
        cbAdds_same z fl nd r ht nd.rrs a (hw.types nd hnd) hr
      rw [this, ite_self, if_pos (by rw [hn]; simp)]
    · have : (match get? z n with | some nd => cbAdds z fl a nd | none => a) nd.name r.type =
          a nd.name r.type := by
        cases hg : get? z n with
        | none => rfl
        | some x =>
          dsimp only
          have hx := (get?_some hw.sorted).mp hg
          unfold cbAdds
          rw [cbAdds_other z fl x (by rw [hx.2]; exact fun h => hn h.symm)]
      rw [this]
      simp only [List.mem_cons, show ¬ nd.name = n from fun h => hn h.symm, false_or]

/-! The reverse tree -/

/-- The names a node refers to. -/
def refsAt (z : Zone) (n : Name) : List Name := ((get? z n).map refsOf).getD []

theorem revUpdate_mem (rev : Rev) (n : Name) (old new : Option Node) (p : Name × Name) :
    p ∈ revUpdate rev n old new ↔
      (p ∈ rev ∧ ¬ (p.2 = n ∧ p.1 ∈ (old.map refsOf).getD [])) ∨ (p.2 = n ∧ p.1 ∈ (new.map refsOf).getD []) := by
  unfold revUpdate
  dsimp only
  rw [List.mem_append, List.mem_filter, List.mem_map]
  constructor
  · rintro (⟨h1, h2⟩ | ⟨r, h1, h2⟩)
    · left
      refine ⟨h1, ?_⟩
      rintro ⟨h3, h4⟩
      simp only [h3, beq_self_eq_true, Bool.true_and, Bool.not_eq_true', List.contains_eq_mem] at h2
      simp [h4] at h2
    · right
      rw [← h2]
      exact ⟨rfl, h1⟩
  · rintro (⟨h1, h2⟩ | ⟨h1, h2⟩)
    · left
      refine ⟨h1, ?_⟩
      rw [Bool.not_eq_true', Bool.and_eq_false_iff]
      by_cases h3 : p.2 = n
      · right
        rw [List.contains_eq_mem, decide_eq_false_iff_not]
        exact fun h4 => h2 ⟨h3, h4⟩
      · left
        simpa using h3
    · right
      exact ⟨p.1, h2, by rw [← h1]⟩

theorem revFrom_fold (z0 : Zone) : ∀ (z : Zone) (rev : Rev) (p : Name × Name),
    p ∈ z.foldl (fun rev nd => revUpdate rev nd.name none (some nd)) rev ↔
      p ∈ rev ∨ ∃ nd ∈ z, nd.name = p.2 ∧ p.1 ∈ refsOf nd
  | [], rev, p => by simp
  | nd :: z, rev, p => by
    rw [List.foldl_cons, revFrom_fold z0 z, revUpdate_mem]
    simp only [Option.map_none, Option.getD_none, List.not_mem_nil, and_false, not_false_eq_true, and_true,
      Option.map_some, Option.getD_some, List.mem_cons, exists_eq_or_imp]
    constructor
    · rintro ((h | ⟨h1, h2⟩) | h)
      · exact .inl h
      · exact .inr (.inl ⟨h1.symm, h2⟩)
      · exact .inr (.inr h)
    · rintro (h | ⟨h1, h2⟩ | h)
      · exact .inl (.inl h)
      · exact .inl (.inr ⟨h1.symm, h2⟩)
      · exact .inr h

theorem refsAt_mem {z : Zone} (hs : z.Pairwise (fun a b => a.name < b.name)) {n x : Name} :
    x ∈ refsAt z n ↔ ∃ nd ∈ z, nd.name = n ∧ x ∈ refsOf nd := by
  unfold refsAt
  cases h : get? z n with
  | none =>
    rw [get?_none] at h
    simp only [Option.map_none, Option.getD_none, List.not_mem_nil, false_iff, not_exists, not_and]
    intro nd h1 h2
    exact absurd h2 (h nd h1)
  | some nd =>
    rw [get?_some hs] at h
    simp only [Option.map_some, Option.getD_some]
    constructor
    · intro h1; exact ⟨nd, h.1, h.2, h1⟩
    · rintro ⟨y, h1, h2, h3⟩
      rw [← sorted_inj hs h1 h.1 (h2.trans h.2.symm)]; exact h3

theorem revFrom_mem {z : Zone} (hs : z.Pairwise (fun a b => a.name < b.name)) (p : Name × Name) :
    p ∈ revFrom z ↔ p.1 ∈ refsAt z p.2 := by
  unfold revFrom
  rw [revFrom_fold z, refsAt_mem hs]
  simp

theorem revUpdateAll_fold (z z' : Zone) : ∀ (l done : List Name) (rev : Rev),
    (∀ p, p ∈ rev ↔ if p.2 ∈ done then p.1 ∈ refsAt z' p.2 else p.1 ∈ refsAt z p.2) →
    ∀ p, p ∈ l.foldl (fun rev n => revUpdate rev n (get? z n) (get? z' n)) rev ↔
      if p.2 ∈ l ++ done then p.1 ∈ refsAt z' p.2 else p.1 ∈ refsAt z p.2
  | [], done, rev, h => by simpa using h
  | n :: l, done, rev, h => by
    intro p
    rw [List.foldl_cons]
    have := revUpdateAll_fold z z' l (n :: done) (revUpdate rev n (get? z n) (get? z' n)) ?_ p
    · rw [this]
      have : p.2 ∈ l ++ n :: done ↔ p.2 ∈ n :: l ++ done := by
        simp only [List.mem_append, List.mem_cons]
        constructor
        · rintro (h | h | h) <;> simp [h]
        · rintro ((h | h) | h) <;> simp [h]
      simp only [this]
    · intro q
      rw [revUpdate_mem, h q]
      have e1 : ((get? z n).map refsOf).getD [] = refsAt z n := rfl
      have e2 : ((get? z' n).map refsOf).getD [] = refsAt z' n := rfl
      rw [e1, e2]
      by_cases hq : q.2 = n
      · have hin : q.2 ∈ n :: done := by rw [hq]; simp
        simp only [hin, if_true]
        rw [← hq]
        simp only [true_and]
        split
        · constructor
          · rintro (h1 | h1)
            · exact h1.1
            · exact h1
          · intro h1; exact .inr h1
        · constructor
          · rintro (h1 | h1)
            · exact absurd h1.1 h1.2
            · exact h1
          · intro h1; exact .inr h1
      · simp only [hq, false_and, not_false_eq_true, and_true, or_false, List.mem_cons, false_or]

theorem revUpdateAll_mem {z z' : Zone} {rev : Rev} (hr : ∀ p, p ∈ rev ↔ p.1 ∈ refsAt z p.2)
    (ptrs : List Name) (hc : ∀ n, n ∉ ptrs → get? z n = get? z' n) (p : Name × Name) :
    p ∈ revUpdateAll rev z z' ptrs ↔ p.1 ∈ refsAt z' p.2 := by
  unfold revUpdateAll
  rw [revUpdateAll_fold z z' ptrs [] rev (by simpa using hr) p, List.append_nil]
  split
  · rfl
  · rename_i h
    unfold refsAt
    rw [hc p.2 h]

theorem same_get {z z' : Zone} {ptrs : List Name} (hs : z.Pairwise (fun a b => a.name < b.name))
    (hs' : z'.Pairwise (fun a b => a.name < b.name)) (hc : Same z z' ptrs) (n : Name) (hn : n ∉ ptrs) :
    get? z n = get? z' n := by
  apply Option.ext
  intro nd
  rw [get?_some hs, get?_some hs']
  constructor
  · rintro ⟨h1, h2⟩; exact ⟨(hc nd (by rw [h2]; exact hn)).mp h1, h2⟩
  · rintro ⟨h1, h2⟩; exact ⟨(hc nd (by rw [h2]; exact hn)).mpr h1, h2⟩

theorem mem_refsOf {nd : Node} {r : RR} (hr : r ∈ nd.rrs) (ht : needsAdd r.type = true) {i : Nat} {x : Name}
    (hx : r.refs[i]? = some (some x)) (hne : x ≠ []) : x ∈ refsOf nd := by
  unfold refsOf
  rw [List.mem_filter]
  refine ⟨?_, by simpa using hne⟩
  rw [List.mem_flatMap]
  refine ⟨r, List.mem_filter.mpr ⟨hr, ht⟩, ?_⟩
  rw [List.mem_filterMap]
  exact ⟨some x, List.mem_of_getElem? hx, rfl⟩

/-- A node that refers to a changed name is adjusted. -/
theorem reverse_exact {rev : Rev} {n x : Name} (h : (x, n) ∈ rev) (hne : x ≠ []) : n ∈ reverse rev x := by
  unfold reverse
  split
  · rw [List.mem_map]
    refine ⟨(x, n), ?_, rfl⟩
    rw [List.mem_filter]
    exact ⟨h, by simpa using ⟨List.dropLast_prefix x, fun he => dropLast_ne hne he.symm⟩⟩
  · rw [List.mem_map]
    exact ⟨(x, n), List.mem_filter.mpr ⟨h, by simp⟩, rfl⟩

/-- A node that refers to a name below a changed wildcard is adjusted. -/
theorem reverse_wild {rev : Rev} {n x q : Name} (h : (x, n) ∈ rev) (hq : q <+: x) (hne : q ≠ x) :
    n ∈ reverse rev (q ++ [star]) := by
  unfold reverse
  rw [if_pos (by simp [isWild])]
  rw [List.mem_map]
  refine ⟨(x, n), ?_, rfl⟩
  rw [List.mem_filter]
  refine ⟨h, ?_⟩
  rw [List.dropLast_concat]
  simpa using ⟨hq, fun he => hne he.symm⟩

end Knot.Adjust
