import Verif.Adjust.Lemmas5
/-! # Lemmas for C54: lives of a zone -/
namespace Knot.Adjust

/-- What holds in every life. -/
structure Inv (s : St) : Prop where
  wf : WF s.z
  flags : ∀ nd ∈ s.z, FlagsOk s.z nd.name (s.fl nd.name)
  size : s.size = totalSize s.z
  ttl : ∀ b, s.ttl ≤ b ↔ ∀ nd ∈ s.z, ∀ r ∈ nd.rrs, r.ttl ≤ b
  rev : ∀ p, p ∈ s.rev ↔ p.1 ∈ refsAt s.z p.2
  loose : ∀ nd ∈ s.z, ∀ r ∈ nd.rrs, needsAdd r.type = true → AddsLoose s.z r (s.adds nd.name r.type)

theorem full_fresh {z : Zone} (hw : WF z) (fl : Name → Fl) (prev : Name → Option Name) :
    ∀ nd ∈ z, ∀ r ∈ nd.rrs, needsAdd r.type = true →
      AddsOk z nd.name r ((adjustFull z fl prev).adds nd.name r.type) ∧
      AddsLoose z r ((adjustFull z fl prev).adds nd.name r.type) := by
  intro nd hnd r hr ht
  have h := (flags_ok hw true fl prev).1
  unfold adjustFull
  dsimp only
  rw [addsAt_spec hw _ hnd hr ht, if_pos (mem_names.mpr ⟨nd, hnd, rfl⟩)]
  have := discover_ok hw h nd.name r
  exact ⟨this, ok_loose hw this (discover_nodup _ _ _ _)⟩

theorem full_inv {z : Zone} (hw : WF z) (fl : Name → Fl) (prev : Name → Option Name) :
    Inv (adjustFull z fl prev) :=
  ⟨hw, (flags_ok hw true fl prev).1, by
    show measureSize z = totalSize z
    rw [measureSize_sum, totalSize_eq], measureTtl_le z, revFrom_mem hw.sorted,
    fun nd hnd r hr ht => (full_fresh hw fl prev nd hnd r hr ht).2⟩

/-- Whether the list of a node is made again. -/
theorem update_adds {s : St} {z' : Zone} (hw : WF z') (ptrs : List Name) (fl : Name → Fl) {nd : Node}
    (hnd : nd ∈ z') {r : RR} (hr : r ∈ nd.rrs) (ht : needsAdd r.type = true) :
    (adjustUpdate s z' ptrs fl).adds nd.name r.type =
        discover z' (adjustTree true z' fl s.prev).fl nd.name r ∨
    (nd.name ∉ ptrs ∧ (∀ p ∈ ptrs, nd.name ∉ reverse (revUpdateAll s.rev s.z z' ptrs) p) ∧
      (adjustUpdate s z' ptrs fl).adds nd.name r.type = s.adds nd.name r.type) := by
  unfold adjustUpdate
  dsimp only
  rw [addsAt_spec hw _ hnd hr ht, addsAt_spec hw _ hnd hr ht]
  by_cases h1 : nd.name ∈ ptrs
  · rw [if_pos h1]; exact .inl rfl
  · rw [if_neg h1]
    by_cases h2 : nd.name ∈ ptrs.flatMap (reverse (revUpdateAll s.rev s.z z' ptrs))
    · rw [if_pos h2]; exact .inl rfl
    · rw [if_neg h2]
      refine .inr ⟨h1, ?_, rfl⟩
      intro p hp h
      exact h2 (List.mem_flatMap.mpr ⟨p, hp, h⟩)

/-- The names a node refers to that is not adjusted are not changed, nor are wildcards above them. -/
theorem untouched {s : St} {z' : Zone} {ptrs : List Name} (hi : Inv s) (hw : WF z') (hc : Same s.z z' ptrs)
    {nd : Node} (hnd : nd ∈ z') {r : RR} (hr : r ∈ nd.rrs) (ht : needsAdd r.type = true)
    (hno : ∀ p ∈ ptrs, nd.name ∉ reverse (revUpdateAll s.rev s.z z' ptrs) p) {i : Nat} {x : Name}
    (hx : r.refs[i]? = some (some x)) (hne : x ≠ []) :
    x ∉ ptrs ∧ ∀ q, q <+: x → q ≠ x → q ++ [42] ∉ ptrs := by
  have hrev : (x, nd.name) ∈ revUpdateAll s.rev s.z z' ptrs := by
    rw [revUpdateAll_mem hi.rev ptrs (same_get hi.wf.sorted hw.sorted hc)]
    rw [refsAt_mem hw.sorted]
    exact ⟨nd, hnd, rfl, mem_refsOf hr ht hx hne⟩
  constructor
  · intro h
    exact hno x h (reverse_exact hrev hne)
  · intro q h1 h2 h
    exact hno _ h (reverse_wild hrev h1 h2)

theorem same_node {z z' : Zone} {ptrs : List Name} (hc : Same z z' ptrs) {n : Name} (hn : n ∉ ptrs) :
    (∃ nd ∈ z, nd.name = n) ↔ ∃ nd ∈ z', nd.name = n := by
  constructor
  · rintro ⟨nd, h1, h2⟩; exact ⟨nd, (hc nd (by rw [h2]; exact hn)).mp h1, h2⟩
  · rintro ⟨nd, h1, h2⟩; exact ⟨nd, (hc nd (by rw [h2]; exact hn)).mpr h1, h2⟩

theorem apex_node {z : Zone} (hw : WF z) : ∃ nd ∈ z, nd.name = [] := by
  obtain ⟨a, l, hz, han, _⟩ := hw.apex
  exact ⟨a, by rw [hz]; simp, han⟩

theorem update_inv {s : St} {z' : Zone} {ptrs : List Name} (hi : Inv s) (hw : WF z') (hn : ptrs.Nodup)
    (hc : Same s.z z' ptrs) (fl : Name → Fl) : Inv (adjustUpdate s z' ptrs fl) := by
  refine ⟨hw, (flags_ok hw true fl s.prev).1, ?_, ?_, ?_, ?_⟩
  · show s.size + diffSize s.z z' ptrs = totalSize z'
    rw [hi.size]
    exact diff_ok hi.wf.sorted hw.sorted hn hc
  · exact finishTtl_le hi.wf.sorted hw.sorted hc hi.ttl
  · exact revUpdateAll_mem hi.rev ptrs (same_get hi.wf.sorted hw.sorted hc)
  · intro nd hnd r hr ht
    show AddsLoose z' r _
    rcases update_adds hw ptrs fl hnd hr ht (s := s) with h | ⟨h1, h2, h3⟩
    · rw [h]
      exact ok_loose hw (discover_ok hw (flags_ok hw true fl s.prev).1 nd.name r) (discover_nodup _ _ _ _)
    · rw [h3]
      have hndz : nd ∈ s.z := (hc nd h1).mpr hnd
      obtain ⟨l1, l2, l3⟩ := hi.loose nd hndz r hr ht
      have hkey : ∀ {i : Nat} {x : Name}, r.refs[i]? = some (some x) → ((∃ nd ∈ s.z, nd.name = x) ↔ ∃ nd ∈ z', nd.name = x) := by
        intro i x hx
        by_cases hne : x = []
        · rw [hne]
          exact ⟨fun _ => apex_node hw, fun _ => apex_node hi.wf⟩
        · exact same_node hc (untouched hi hw hc hnd hr ht h2 hx hne).1
      refine ⟨?_, ?_, l3⟩
      · intro g hg
        obtain ⟨g1, x, g2, g3⟩ := l1 g hg
        rcases g3 with g3 | ⟨g3, q, g4, g5, g6⟩
        · refine ⟨?_, x, g2, .inl g3⟩
          rw [g3] at g1 ⊢
          exact (hkey g2).mp g1
        · have hne : x ≠ [] := by
            intro he
            rw [he] at g3
            exact g3 (apex_node hi.wf)
          refine ⟨?_, x, g2, .inr ⟨fun h => g3 ((hkey g2).mpr h), q, g4, g5, g6⟩⟩
          rw [g4] at g1 ⊢
          exact (same_node hc ((untouched hi hw hc hnd hr ht h2 g2 hne).2 q g5 g6)).mp g1
      · intro i x hx hn
        exact l2 i x hx ((hkey hx).mpr hn)

theorem same_more {z z' : Zone} {ptrs new : List Name} (h : Same z z' ptrs) : Same z z' (insertAll ptrs new) := by
  intro nd hn
  apply h
  intro h1
  exact hn ((insertAll_mem _ _ _).mpr (.inl h1))

theorem covers_same {z z' : Zone} {ptrs : List Name} (h : Covers z z' ptrs) : Same z z' ptrs := h.diff

theorem life_inv {s : St} (h : Life s) : Inv s := by
  induction h with
  | load hw => exact full_inv hw _ _
  | update _ hw hc ih => exact update_inv ih hw hc.nodup (covers_same hc) _
  | checked _ hw hc ih =>
    exact update_inv ih hw (insertAll_nodup _ _ hc.nodup) (same_more (covers_same hc)) _

theorem clean_life {s : St} (h : Clean s) : Life s := by
  induction h with
  | load hw => exact .load hw
  | update _ hw hc _ ih => exact .update ih hw hc
  | checked _ hw hc _ ih => exact .checked ih hw hc

/-! Lists that are up to date -/

theorem flags_cut {z : Zone} {n : Name} {f : Fl} (h : FlagsOk z n f) :
    (f.deleg || f.nonauth) = true ↔ Cut z n ∨ Below z n := by
  obtain ⟨h1, h2, _⟩ := h
  rw [Bool.or_eq_true, h1, h2]
  constructor
  · rintro (h | h)
    · exact .inl h.1
    · exact .inr h
  · intro h
    by_cases hb : Below z n
    · exact .inr hb
    · rcases h with h | h
      · exact .inl ⟨h, hb⟩
      · exact absurd h hb

theorem answers_iff {z : Zone} (hw : WF z) (x m : Name) :
    Answers z x m ↔ ((x = m ∧ ∃ nd ∈ z, nd.name = m) ∨ ((¬ ∃ nd ∈ z, nd.name = x) ∧ ∃ e, Closest z x e ∧ e ≠ x ∧
      m = e ++ [42] ∧ ∃ nd ∈ z, nd.name = e ++ [42])) := by
  unfold Answers Closest
  constructor
  · rintro (h | ⟨h1, e, h2, h3, ⟨nd, h4, h5⟩, h6⟩)
    · exact .inl h
    · have he := hw.closed nd h4 e (by rw [h5, h2]; exact List.prefix_append _ _)
      refine .inr ⟨h1, e, ⟨h3, he, h6⟩, ?_, h2, nd, h4, h5.trans h2⟩
      intro hx
      rw [hx] at he
      exact h1 he
  · rintro (h | ⟨h1, e, ⟨h3, he, h6⟩, _, h2, nd, h4, h5⟩)
    · exact .inl h
    · exact .inr ⟨h1, e, h2, h3, ⟨nd, h4, h5.trans h2.symm⟩, h6⟩

theorem has_same {z z' : Zone} {ptrs : List Name} (hc : Same z z' ptrs) {n : Name} (hn : n ∉ ptrs) (t : Nat) :
    Has z n t ↔ Has z' n t := by
  unfold Has
  constructor
  · rintro ⟨nd, h1, h2, h3⟩; exact ⟨nd, (hc nd (by rw [h2]; exact hn)).mp h1, h2, h3⟩
  · rintro ⟨nd, h1, h2, h3⟩; exact ⟨nd, (hc nd (by rw [h2]; exact hn)).mpr h1, h2, h3⟩

theorem update_fresh {s : St} {z' : Zone} {ptrs : List Name} (hi : Inv s)
    (hf : ∀ nd ∈ s.z, ∀ r ∈ nd.rrs, needsAdd r.type = true → AddsOk s.z nd.name r (s.adds nd.name r.type))
    (hw : WF z') (hc : Same s.z z' ptrs) (hk : KeepsEnclosers s.z z') (fl : Name → Fl)
    (hap : [] ∉ ptrs → Same s.z z' []) :
    ∀ nd ∈ z', ∀ r ∈ nd.rrs, needsAdd r.type = true →
      AddsOk z' nd.name r ((adjustUpdate s z' ptrs fl).adds nd.name r.type) := by
  intro nd hnd r hr ht
  rcases update_adds hw ptrs fl hnd hr ht (s := s) with h | ⟨h1, h2, h3⟩
  · rw [h]
    exact discover_ok hw (flags_ok hw true fl s.prev).1 nd.name r
  · rw [h3]
    have hndz : nd ∈ s.z := (hc nd h1).mpr hnd
    obtain ⟨o1, o2⟩ := hf nd hndz r hr ht
    refine ⟨?_, o2⟩
    have hans : ∀ {i : Nat} {x : Name}, r.refs[i]? = some (some x) → ∀ m, Answers s.z x m ↔ Answers z' x m := by
      intro i x hx m
      rw [answers_iff hi.wf, answers_iff hw]
      by_cases hne : x = []
      · subst hne
        constructor
        · rintro (⟨h4, _⟩ | ⟨h4, _⟩)
          · exact .inl ⟨h4, by rw [← h4]; exact apex_node hw⟩
          · exact absurd (apex_node hi.wf) h4
        · rintro (⟨h4, _⟩ | ⟨h4, _⟩)
          · exact .inl ⟨h4, by rw [← h4]; exact apex_node hi.wf⟩
          · exact absurd (apex_node hw) h4
      · obtain ⟨u1, u2⟩ := untouched hi hw hc hnd hr ht h2 hx hne
        have e1 := same_node hc u1
        rcases hk nd hnd r hr x (List.mem_of_getElem? hx) with hcl | ⟨hn1, hn2⟩
        · constructor
          · rintro (⟨h4, h5⟩ | ⟨h4, e, h5, h6, h7, h8⟩)
            · subst h4; exact .inl ⟨rfl, e1.mp h5⟩
            · exact .inr ⟨fun h => h4 (e1.mpr h), e, (hcl e).mp h5, h6, h7,
                (same_node hc (u2 e h5.1 h6)).mp h8⟩
          · rintro (⟨h4, h5⟩ | ⟨h4, e, h5, h6, h7, h8⟩)
            · subst h4; exact .inl ⟨rfl, e1.mpr h5⟩
            · exact .inr ⟨fun h => h4 (e1.mp h), e, (hcl e).mpr h5, h6, h7,
                (same_node hc (u2 e h5.1 h6)).mpr h8⟩
        · constructor
          · rintro (⟨h4, h5⟩ | ⟨h4, e, h5, h6, h7, y, h8, h9⟩)
            · subst h4; exact .inl ⟨rfl, e1.mp h5⟩
            · exact absurd h9 (hn1 y h8 e h5.1)
          · rintro (⟨h4, h5⟩ | ⟨h4, e, h5, h6, h7, y, h8, h9⟩)
            · subst h4; exact .inl ⟨rfl, e1.mpr h5⟩
            · exact absurd h9 (hn2 y h8 e h5.1)
    have hmust : ∀ {i : Nat} {x : Name}, r.refs[i]? = some (some x) → ∀ m, Answers s.z x m →
        (Must s.z nd.name r.type m ↔ Must z' nd.name r.type m) := by
      intro i x hx m hm
      have hm' := (hans hx m).mp hm
      unfold Must
      by_cases ho : nd.name = []
      · have hcb : (Cut s.z m ∨ Below s.z m) ↔ (Cut z' m ∨ Below z' m) := by
          have hs := hap (by rw [← ho]; exact h1)
          have hcut : ∀ n, Cut s.z n ↔ Cut z' n := by
            intro n; unfold Cut; rw [has_same hs (by simp)]
          have hbel : Below s.z m ↔ Below z' m := by
            unfold Below; simp only [hcut]
          rw [hcut, hbel]
        rw [hcb]
      · have key : ∀ z0 : Zone, nd ∈ z0 → r.type = 2 → nd.name <+: m → Cut z0 m ∨ Below z0 m := by
          intro z0 h4 h5 h6
          have hcut0 : Cut z0 nd.name := ⟨ho, nd, h4, rfl, r, hr, h5⟩
          by_cases he : nd.name = m
          · rw [← he]; exact .inl hcut0
          · exact .inr ⟨nd.name, hcut0, h6, he⟩
        constructor
        · rintro ⟨h4, h5, _⟩; exact ⟨h4, h5, key z' hnd h4 h5⟩
        · rintro ⟨h4, h5, _⟩; exact ⟨h4, h5, key s.z hndz h4 h5⟩
    intro g
    rw [o1]
    constructor
    · rintro ⟨x, h4, h5, h6⟩
      exact ⟨x, h4, (hans h4 _).mp h5, by rw [h6, hmust h4 _ h5]⟩
    · rintro ⟨x, h4, h5, h6⟩
      have h5' := (hans h4 _).mpr h5
      exact ⟨x, h4, h5', by rw [h6, hmust h4 _ h5']⟩

theorem carry_in {s : St} {n : Name} (h : ∃ nd ∈ s.z, nd.name = n) : carry s n = s.fl n := by
  unfold carry
  rw [if_pos (mem_names.mpr h)]

/-- Any change is a change of the apex. -/
theorem covers_apex {z z' : Zone} {ptrs : List Name} (hc : Covers z z' ptrs) (h : [] ∉ ptrs) : Same z z' [] := by
  cases ptrs with
  | nil => exact hc.diff
  | cons n l => exact absurd (hc.up n (by simp) [] List.nil_prefix) h

theorem clean_fresh {s : St} (h : Clean s) :
    ∀ nd ∈ s.z, ∀ r ∈ nd.rrs, needsAdd r.type = true → AddsOk s.z nd.name r (s.adds nd.name r.type) := by
  induction h with
  | load hw => exact fun nd hnd r hr ht => (full_fresh hw _ _ nd hnd r hr ht).1
  | update hl hw hc hk ih =>
    exact update_fresh (life_inv (clean_life hl)) ih hw (covers_same hc) hk _ (covers_apex hc)
  | checked hl hw hc hk ih =>
    exact update_fresh (life_inv (clean_life hl)) ih hw (same_more (covers_same hc)) hk _
      (fun h => covers_apex hc (fun h1 => h ((insertAll_mem _ _ _).mpr (.inl h1))))

/-! Both versions of nodes -/

/-- If nothing at or below a node is changed, and neither the status of it, all flags of it are the same. -/
theorem flags_same {z z' : Zone} {ptrs : List Name} {n : Name} {f f' : Fl} (hc : Same z z' ptrs)
    (hup : ∀ d, n <+: d → d ∉ ptrs) (h : FlagsOk z n f) (h' : FlagsOk z' n f') (he : f'.nonauth = f.nonauth) :
    f' = f := by
  have hb : Below z n ↔ Below z' n := by rw [← h.1, ← h'.1, he]
  have hcut : ∀ d, n <+: d → (Cut z d ↔ Cut z' d) := by
    intro d hd
    unfold Cut
    rw [has_same hc (hup d hd)]
  have hbel : ∀ d, n <+: d → (Below z d ↔ Below z' d) := by
    have key : ∀ {z z' : Zone}, (Below z n → Below z' n) → (∀ d, n <+: d → Cut z d → Cut z' d) →
        ∀ d, n <+: d → Below z d → Below z' d := by
      rintro z z' k1 k2 d hd ⟨m, h1, h2, h3⟩
      rcases Nat.lt_or_ge m.length n.length with hl | hl
      · have hmn := List.prefix_of_prefix_length_le h2 hd (by omega)
        obtain ⟨m', g1, g2, g3⟩ := k1 ⟨m, h1, hmn, fun e => by rw [e] at hl; omega⟩
        refine ⟨m', g1, g2.trans hd, ?_⟩
        intro e
        rw [e] at g2 g3
        exact g3 (List.IsPrefix.eq_of_length g2 (Nat.le_antisymm g2.length_le hd.length_le))
      · have hnm := List.prefix_of_prefix_length_le hd h2 hl
        exact ⟨m, k2 m hnm h1, h2, h3⟩
    intro d hd
    exact ⟨key hb.mp (fun d hd => (hcut d hd).mp) d hd, key hb.mpr (fun d hd => (hcut d hd).mpr) d hd⟩
  have hdata : ∀ d, n <+: d → (Data z d ↔ Data z' d) := by
    intro d hd
    unfold Data
    constructor
    · rintro ⟨t, h1, h2⟩; exact ⟨t, (has_same hc (hup d hd) t).mp h1, h2⟩
    · rintro ⟨t, h1, h2⟩; exact ⟨t, (has_same hc (hup d hd) t).mpr h1, h2⟩
  have hauth : ∀ d, n <+: d → (AuthData z d ↔ AuthData z' d) := by
    intro d hd
    unfold AuthData
    rw [hbel d hd, hcut d hd, has_same hc (hup d hd), hdata d hd]
  obtain ⟨_, h2, h3, h4⟩ := h
  obtain ⟨_, h2', h3', h4'⟩ := h'
  have e2 : f'.deleg = f.deleg := by
    apply Bool.eq_iff_iff.mpr
    rw [h2, h2', hb, hcut n List.prefix_rfl]
  have e3 : f'.sauth = f.sauth := by
    apply Bool.eq_iff_iff.mpr
    rw [h3, h3']
    constructor
    · rintro ⟨d, h5, h6⟩; exact ⟨d, h5, (hauth d h5).mpr h6⟩
    · rintro ⟨d, h5, h6⟩; exact ⟨d, h5, (hauth d h5).mp h6⟩
  have e4 : f'.sdata = f.sdata := by
    apply Bool.eq_iff_iff.mpr
    rw [h4, h4']
    constructor
    · rintro ⟨d, h5, h6⟩; exact ⟨d, h5, (hdata d h5).mpr h6⟩
    · rintro ⟨d, h5, h6⟩; exact ⟨d, h5, (hdata d h5).mp h6⟩
  cases f; cases f'
  dsimp only at he e2 e3 e4
  rw [he, e2, e3, e4]

theorem flags_unique {z : Zone} {n : Name} {f f' : Fl} (h : FlagsOk z n f) (h' : FlagsOk z n f') : f' = f := by
  obtain ⟨h1, h2, h3, h4⟩ := h
  obtain ⟨h1', h2', h3', h4'⟩ := h'
  have e1 := Bool.eq_iff_iff.mpr (h1'.trans h1.symm)
  have e2 := Bool.eq_iff_iff.mpr (h2'.trans h2.symm)
  have e3 := Bool.eq_iff_iff.mpr (h3'.trans h3.symm)
  have e4 := Bool.eq_iff_iff.mpr (h4'.trans h4.symm)
  cases f; cases f'
  dsimp only at e1 e2 e3 e4
  rw [e1, e2, e3, e4]

/-- A node whose flags are changed is among the changed ones. -/
theorem flags_changed {s : St} {z' : Zone} {ptrs : List Name} (hi : Inv s) (hw : WF z') (hc : Covers s.z z' ptrs)
    (prevs : Bool) {nd : Node} (hnd : nd ∈ z') (hn : nd.name ∉ ptrs)
    (hch : nd.name ∉ (adjustTree prevs z' (carry s) s.prev).changed) :
    (adjustTree prevs z' (carry s) s.prev).fl nd.name = s.fl nd.name := by
  have hndz : nd ∈ s.z := (hc.diff nd hn).mpr hnd
  have f1 := hi.flags nd hndz
  have f2 := (flags_ok hw prevs (carry s) s.prev).1 nd hnd
  refine flags_same hc.diff ?_ f1 f2 ?_
  · intro d hd h
    exact hn (hc.up d h nd.name hd)
  · apply Classical.byContradiction
    intro he
    apply hch
    apply changed_own hw prevs _ _ hnd
    left
    rw [carry_in ⟨nd, hndz, rfl⟩]
    exact he

theorem prev_fold (prevs : Bool) (prev0 : Name → Option Name) : ∀ (r : Zone) (p : Pass),
    (∀ m, p.prev m ≠ prev0 m → m ∈ p.changed) →
    ∀ m, (r.foldl (single prevs) p).prev m ≠ prev0 m → m ∈ (r.foldl (single prevs) p).changed
  | [], p, h => h
  | nd :: r, p, h => by
    rw [List.foldl_cons]
    apply prev_fold prevs prev0 r
    intro m hm
    by_cases hp : p.prev m = prev0 m
    · unfold single at hm ⊢
      dsimp only at hm ⊢
      by_cases hmv : (prevs && p.previous.isSome && decide (p.prev nd.name ≠ p.previous)) = true
      · rw [if_pos hmv] at hm
        rw [if_pos hmv]
        by_cases he : m = nd.name
        · rw [he]
          split <;> simp
        · rw [put_other he] at hm
          exact absurd hp hm
      · rw [if_neg hmv] at hm
        exact absurd hp hm
    · exact single_changed prevs p nd m (h m hp)

theorem prev_changed (prevs : Bool) (z : Zone) (fl : Name → Fl) (prev : Name → Option Name) (m : Name)
    (hm : (adjustTree prevs z fl prev).prev m ≠ prev m) : m ∈ (adjustTree prevs z fl prev).changed := by
  have h := prev_fold prevs prev z { fl, prev } (fun m h => absurd rfl h) m
  unfold adjustTree at hm ⊢
  dsimp only at hm ⊢
  generalize z.foldl (single prevs) { fl, prev } = p at h hm ⊢
  cases prevs
  · exact h hm
  · cases hf : p.first with
    | none => rw [hf] at hm; exact h hm
    | some f =>
      rw [hf] at hm
      by_cases he : m = f
      · rw [he]; simp
      · dsimp only at hm
        rw [put_other he] at hm
        exact List.mem_cons_of_mem _ (h hm)

end Knot.Adjust
