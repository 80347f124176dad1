import Verif.Kru.Lemmas6
/-! # Lemmas: the loads returned -/
namespace Knot.Kru

/-- A line that is not aged any more at the time `now`. -/
def Stable (now : Nat) (l : Line) : Prop :=
  ticks now l.time = 0 ∨ ticks now l.time > 2 ^ 32 - 1024

theorem updateTime_stable (d : Decay) (now : Nat) (l : Line) (g : Rng) (h : Stable now l) :
    (updateTime d now l g).1 = l := by
  unfold updateTime
  split
  · rfl
  · rename_i h0
    rw [if_pos (h.resolve_left h0)]

theorem ageBoth_stable (k : Kru) (c : Ctx) (g : Rng) (li : Bool) (row : Nat)
    (h : Stable c.now (k.tab.line li row)) : (ageBoth k c g).1.tab.line li row = k.tab.line li row := by
  cases h0 : updateTime k.decay c.now (k.tab.line false c.spot.r0) g with
  | mk l0 g0 =>
    cases h1 : updateTime k.decay c.now ((k.tab.put false c.spot.r0 l0).line true c.spot.r1) g0 with
    | mk l1 g1 =>
      rw [ageBoth_eq k c g l0 l1 g0 g1 h0 h1]
      dsimp only
      have hx : (k.tab.put false c.spot.r0 l0).line true c.spot.r1 = k.tab.line true c.spot.r1 := by
        rw [put_line, if_neg (by simp)]
      rw [hx] at h1
      rw [put_line]
      split
      · rename_i e
        obtain ⟨rfl, rfl⟩ := e
        have := updateTime_stable k.decay c.now _ g0 h
        rw [h1] at this
        exact this
      · rw [put_line]
        split
        · rename_i e
          obtain ⟨rfl, rfl⟩ := e
          have := updateTime_stable k.decay c.now _ g h
          rw [h0] at this
          exact this
        · rfl

theorem fetch_table (k : Kru) (c : Ctx) (g : Rng) : ∃ c1 g1, c1.now = c.now ∧ c1.spot = c.spot ∧
    (fetch k c g).2.2.1 = (ageBoth k c1 g1).1 := by
  cases h0 : setPrice c g with
  | mk c1 g1 =>
  cases h1 : ageBoth k c1 g1 with
  | mk k1 g2 =>
  refine ⟨c1, g1, ?_, ?_, ?_⟩
  · have : c1 = (setPrice c g).1 := by rw [h0]
    rw [this]; unfold setPrice; split <;> rfl
  · have : c1 = (setPrice c g).1 := by rw [h0]
    rw [this]; unfold setPrice; split <;> rfl
  · simp only [fetch, h0, h1]

theorem fetch_stable (k : Kru) (c : Ctx) (g : Rng) (li : Bool) (row : Nat)
    (h : Stable c.now (k.tab.line li row)) : (fetch k c g).2.2.1.tab.line li row = k.tab.line li row := by
  obtain ⟨c1, g1, e1, e2, e3⟩ := fetch_table k c g
  rw [e3]
  exact ageBoth_stable k c1 g1 li row (by rw [e1]; exact h)

theorem fetchAll_stable (now : Nat) : ∀ (cs : List Ctx) (k : Kru) (g : Rng), (∀ c ∈ cs, c.now = now) →
    ∀ li row, Stable now (k.tab.line li row) →
      (fetchAll k cs g).2.2.1.tab.line li row = k.tab.line li row
  | [], _, _, _, _, _, _ => rfl
  | c :: cs, k, g, hn, li, row, h => by
    have h1 := fetch_stable k c g li row (by rw [hn c (by simp)]; exact h)
    cases e : fetch k c g with
    | mk b r =>
    obtain ⟨c1, k1, g1⟩ := r
    rw [e] at h1
    dsimp only at h1
    have ih := fetchAll_stable now cs k1 g1 (fun c hc => hn c (by simp [hc])) li row (by rw [h1]; exact h)
    cases e2 : fetchAll k1 cs g1 with
    | mk bs r2 =>
    obtain ⟨cs2, k2, g2⟩ := r2
    rw [e2] at ih
    have : (fetchAll k (c :: cs) g).2.2.1 = k2 := by
      simp only [fetchAll, e, e2]
    rw [this]
    exact ih.trans h1

/-- The counter found for a spot, zero if none is. -/
def found (t : Tab) (s : Spot) : Nat :=
  match locate t s with
  | none => 0
  | some p => loadAt t s p

theorem found_lines (t t' : Tab) (s : Spot) (h : ∀ li, t'.line li (s.row li) = t.line li (s.row li)) :
    found t' s = found t s := by
  have h0 : t'.line false s.r0 = t.line false s.r0 := h false
  have h1 : t'.line true s.r1 = t.line true s.r1 := h true
  have hl : locate t' s = locate t s := by unfold locate; rw [h0, h1]
  unfold found
  rw [hl]
  cases locate t s with
  | none => rfl
  | some p =>
    unfold loadAt
    dsimp only
    rw [h]

theorem fetchAll_final (now : Nat) (hn : now < 2 ^ 32) : ∀ (cs : List Ctx) (k : Kru) (g : Rng),
    Valid k → (∀ c ∈ cs, Begun now c) →
    (fetchAll k cs g).2.1.map (·.final) = cs.map fun c => found (fetchAll k cs g).2.2.1.tab c.spot
  | [], _, _, _, _ => rfl
  | c :: cs, k, g, hk, hb => by
    have hc := hb c (by simp)
    have f := fetch_spec k hk.2 hk.1 c (by rw [hc.1]; exact hn) hc.2 g
    cases e : fetch k c g with
    | mk b r =>
    obtain ⟨c1, k1, g1⟩ := r
    rw [e] at f
    obtain ⟨fd, -, ff⟩ := f
    dsimp only at fd ff
    have hk1 : Valid k1 := ⟨fd.aged.ok, by rw [fd.decay]; exact hk.2⟩
    have ih := fetchAll_final now hn cs k1 g1 hk1 (fun c hc => hb c (by simp [hc]))
    have hst := fetchAll_stable now cs k1 g1 (fun c hc => (hb c (by simp [hc])).1)
    cases e2 : fetchAll k1 cs g1 with
    | mk bs r2 =>
    obtain ⟨cs2, k2, g2⟩ := r2
    rw [e2] at ih hst
    have e3 : fetchAll k (c :: cs) g = (b || bs, c1 :: cs2, k2, g2) := by
      simp only [fetchAll, e, e2]
    rw [e3]
    dsimp only at ih hst ⊢
    rw [List.map_cons, List.map_cons, ih]
    congr 1
    have hs : ∀ li, k2.tab.line li (c.spot.row li) = k1.tab.line li (c.spot.row li) := by
      intro li
      apply hst
      have ht := fd.time li
      rw [hc.1] at ht
      unfold Stable
      rw [ht]
      split
      · rename_i h; exact .inr h
      · left
        unfold ticks
        omega
    rw [found_lines _ _ _ hs, ff]
    unfold found
    rw [Aged.locate fd.aged c.spot]
    cases locate k.tab c.spot <;> rfl

theorem pickMax_spec : ∀ (cs : List Ctx) (ps : List Nat) (r : Nat × Nat), cs.length = ps.length →
    r.1 ≤ (pickMax cs ps r).1 ∧ (∀ c ∈ cs, c.final ≤ (pickMax cs ps r).1) ∧
    (pickMax cs ps r = r ∨ ∃ (i : Nat) (c : Ctx) (p : Nat), cs[i]? = some c ∧ ps[i]? = some p ∧
      pickMax cs ps r = (c.final, p))
  | [], [], r, _ => by simp [pickMax]
  | c :: cs, p :: ps, (load, pf), h => by
    rw [pickMax]
    by_cases hlt : load < c.final
    · rw [if_pos hlt]
      have ih := pickMax_spec cs ps (c.final, p) (by simpa using h)
      have h1 : c.final ≤ (pickMax cs ps (c.final, p)).1 := ih.1
      refine ⟨by show load ≤ _; omega, ?_, ?_⟩
      · intro x hx
        rcases List.mem_cons.1 hx with rfl | hx
        · exact h1
        · exact ih.2.1 x hx
      · rcases ih.2.2 with h1 | ⟨i, c', p', h1, h2, h3⟩
        · exact .inr ⟨0, c, p, rfl, rfl, h1⟩
        · exact .inr ⟨i + 1, c', p', by simpa using h1, by simpa using h2, h3⟩
    · rw [if_neg hlt]
      have ih := pickMax_spec cs ps (load, pf) (by simpa using h)
      have h1 : load ≤ (pickMax cs ps (load, pf)).1 := ih.1
      refine ⟨h1, ?_, ?_⟩
      · intro x hx
        rcases List.mem_cons.1 hx with rfl | hx
        · omega
        · exact ih.2.1 x hx
      · rcases ih.2.2 with h1 | ⟨i, c', p', h1, h2, h3⟩
        · exact .inl h1
        · exact .inr ⟨i + 1, c', p', by simpa using h1, by simpa using h2, h3⟩

/-- The load without charging. -/
theorem peek_load (k : Kru) (hk : Valid k) (now : Nat) (hn : now < 2 ^ 32) (ns : UInt8) (key : List UInt8)
    (ps : List (Nat × Nat)) (g : Rng) :
    (∀ p ∈ ps, found (loadMultiPrefixMax k now ns key ps false g).2.1.tab
      (spot k (prefixInput ns key p.1)) ≤ (loadMultiPrefixMax k now ns key ps false g).1.1) ∧
    ((loadMultiPrefixMax k now ns key ps false g).1 = (0, 0) ∨ ∃ p ∈ ps,
      (loadMultiPrefixMax k now ns key ps false g).1 =
        (found (loadMultiPrefixMax k now ns key ps false g).2.1.tab
          (spot k (prefixInput ns key p.1)), p.1)) := by
  unfold loadMultiPrefixMax
  dsimp only
  simp only [Bool.false_eq_true, if_false]
  have e0 : prefetchPrefixes k now ns key (ps.map fun p => (p.1, 0)) =
      ps.map fun p => prefetch k now (prefixInput ns key p.1) 0 := by
    unfold prefetchPrefixes
    rw [List.map_map]
    rfl
  have e1 : (ps.map fun p => (p.1, 0)).map (·.1) = ps.map (·.1) := by
    rw [List.map_map]
    rfl
  rw [e0, e1]
  have hb : ∀ c ∈ ps.map fun p => prefetch k now (prefixInput ns key p.1) 0, Begun now c := by
    intro c hc
    obtain ⟨p, -, rfl⟩ := List.mem_map.1 hc
    exact ⟨rfl, Nat.two_pow_pos 32⟩
  have hf := fetchAll_final now hn _ k g hk hb
  rw [List.map_map] at hf
  cases e : fetchAll k (ps.map fun p => prefetch k now (prefixInput ns key p.1) 0) g with
  | mk b r =>
  obtain ⟨cs, k1, g1⟩ := r
  rw [e] at hf
  dsimp only at hf ⊢
  have hlen : cs.length = ps.length := by
    have := congrArg List.length hf
    simpa using this
  have pm := pickMax_spec cs (ps.map (·.1)) (0, 0) (by simpa using hlen)
  have at_ : ∀ (i : Nat) (c : Ctx) (p : Nat × Nat), cs[i]? = some c → ps[i]? = some p →
      c.final = found k1.tab (spot k (prefixInput ns key p.1)) := by
    intro i c p h1 h2
    have := congrArg (fun l => l[i]?) hf
    simp only [List.getElem?_map, h1, h2, Option.map_some, Option.some.injEq] at this
    exact this
  refine ⟨?_, ?_⟩
  · intro p hp
    obtain ⟨i, hi⟩ := List.mem_iff_getElem?.1 hp
    have hil : i < cs.length := by
      rw [hlen]
      exact (List.getElem?_eq_some_iff.1 hi).1
    have hc : cs[i]? = some cs[i] := List.getElem?_eq_getElem hil
    rw [← at_ i _ p hc hi]
    exact pm.2.1 _ (List.getElem_mem hil)
  · rcases pm.2.2 with h | ⟨i, c, p, h1, h2, h3⟩
    · exact .inl h
    · rw [List.getElem?_map] at h2
      cases h4 : ps[i]? with
      | none => rw [h4] at h2; cases h2
      | some q =>
        rw [h4] at h2
        cases h2
        refine .inr ⟨q, List.mem_of_getElem? h4, ?_⟩
        rw [h3, at_ i c q h1 h4]

end Knot.Kru
