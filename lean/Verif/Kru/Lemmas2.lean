import Verif.Kru.Lemmas
/-! # Lemmas: charging; calls -/
namespace Knot.Kru

/-- What the third phase does to the table. -/
structure Raised (t t' : Tab) (top : Nat) : Prop where
  ok : OkTab t'
  time : ∀ li row, (t'.line li row).time = (t.line li row).time
  lower : ∀ li row (i : Nat), (t.line li row).loads.getD i 0 ≤ (t'.line li row).loads.getD i 0
  upper : ∀ b, (∀ li row (i : Nat), (t.line li row).loads.getD i 0 ≤ b) →
    ∀ li row (i : Nat), (t'.line li row).loads.getD i 0 ≤ b + top

theorem Raised.refl (t : Tab) (h : OkTab t) : Raised t t 0 :=
  ⟨h, fun _ _ => rfl, fun _ _ _ => Nat.le_refl _, fun _ hb li row i => hb li row i⟩

theorem Raised.mono {t t' : Tab} {a b : Nat} (h : Raised t t' a) (hab : a ≤ b) : Raised t t' b :=
  ⟨h.ok, h.time, h.lower, fun c hc li row i => Nat.le_trans (h.upper c hc li row i) (by omega)⟩

theorem Raised.trans {t t' t'' : Tab} {a b : Nat} (h : Raised t t' a) (h' : Raised t' t'' b) :
    Raised t t'' (a + b) :=
  ⟨h'.ok, fun li row => (h'.time li row).trans (h.time li row),
   fun li row i => Nat.le_trans (h.lower li row i) (h'.lower li row i),
   fun c hc li row i => by
    have := h'.upper (c + a) (h.upper c hc) li row i
    omega⟩

theorem setId_raised (t : Tab) (h : OkTab t) (s : Spot) (p : Bool × Nat) : Raised t (setId t s p) 0 := by
  have key : ∀ li row, (setId t s p).line li row = t.line li row ∨
      (setId t s p).line li row = { t.line li row with ids := (t.line li row).ids.set p.2 s.id } := by
    intro li row
    unfold setId
    rw [put_line]
    split
    · rename_i e; rw [e.1, e.2]; exact .inr rfl
    · exact .inl rfl
  refine ⟨?_, ?_, ?_, ?_⟩
  · intro li row
    rcases key li row with e | e <;> rw [e]
    · exact h li row
    · obtain ⟨h1, h2, h3, h4⟩ := h li row
      exact ⟨by simp [h1], h2, h3, h4⟩
  · intro li row; rcases key li row with e | e <;> rw [e]
  · intro li row i; rcases key li row with e | e <;> rw [e] <;> exact Nat.le_refl _
  · intro b hb li row i
    rcases key li row with e | e <;> rw [e] <;> exact hb li row i

theorem getD_set (l : List Nat) (i j v : Nat) :
    (l.set i v).getD j 0 = if i = j ∧ i < l.length then v else l.getD j 0 := by
  simp only [List.getD_eq_getElem?_getD, List.getElem?_set]
  by_cases e : i = j
  · subst e
    by_cases e2 : i < l.length
    · simp [e2]
    · simp [e2]
  · simp [e]

theorem setLoad_line (t : Tab) (s : Spot) (p : Bool × Nat) (v : Nat) (li : Bool) (row i : Nat) :
    ((setLoad t s p v).line li row).time = (t.line li row).time ∧
    ((setLoad t s p v).line li row).ids = (t.line li row).ids ∧
    ((setLoad t s p v).line li row).loads.getD i 0 =
      if li = p.1 ∧ row = s.row p.1 ∧ p.2 = i ∧ i < (t.line li row).loads.length then v
      else (t.line li row).loads.getD i 0 := by
  unfold setLoad
  rw [put_line]
  split
  · rename_i e
    rw [e.1, e.2]
    refine ⟨rfl, rfl, ?_⟩
    dsimp only
    rw [getD_set]
    by_cases e1 : p.2 = i
    · subst e1; simp
    · simp [e1]
  · rename_i e
    refine ⟨rfl, rfl, ?_⟩
    rw [if_neg]
    intro h; exact e ⟨h.1, h.2.1⟩

theorem setLoad_ok (t : Tab) (h : OkTab t) (s : Spot) (p : Bool × Nat) (v : Nat) (hv : v ≤ full) :
    OkTab (setLoad t s p v) := by
  intro li row
  unfold setLoad
  rw [put_line]
  split
  · obtain ⟨h1, h2, h3, h4⟩ := h p.1 (s.row p.1)
    refine ⟨h1, by simp [h2], h3, ?_⟩
    intro x hx
    rcases List.mem_or_eq_of_mem_set hx with hx | hx
    · exact h4 x hx
    · rw [hx]; exact hv
  · exact h li row

/-- What charging one counter does. -/
theorem charge_spec (t : Tab) (h : OkTab t) (c : Ctx) (hc : Priced c) (p : Bool × Nat) (o : Bool) :
    Raised t (charge t c p o).2.2 (ceil16 c.price) ∧
    ((charge t c p o).1 = true ↔ o = false ∧ 65536 ≤ loadAt t c.spot p + ceil16 c.price) ∧
    (p.2 < 15 → (charge t c p o).1 = false →
      min full (loadAt t c.spot p + floor16 c.price) ≤ loadAt (charge t c p o).2.2 c.spot p) ∧
    (p.2 < 15 → (charge t c p o).1 = false →
      (charge t c p o).2.1.final = loadAt (charge t c p o).2.2 c.spot p) ∧
    (∀ li row, ((charge t c p o).2.2.line li row).ids = (t.line li row).ids) ∧
    ((charge t c p o).1 = true → (charge t c p o).2.2 = t) := by
  have hle : loadAt t c.spot p ≤ full := getD_le _ (h _ _).2.2.2 _
  have hcl : ceil16 c.price ≤ 65536 := by have := hc.small; unfold ceil16; omega
  have hfl : floor16 c.price ≤ ceil16 c.price := by unfold ceil16 floor16; omega
  have hlim := hc.limit
  have raise : ∀ v, loadAt t c.spot p ≤ v → v ≤ full → v ≤ loadAt t c.spot p + ceil16 c.price →
      Raised t (setLoad t c.spot p v) (ceil16 c.price) := by
    intro v h1 h2 h3
    refine ⟨setLoad_ok t h _ _ _ h2, fun li row => (setLoad_line t c.spot p v li row 0).1, ?_, ?_⟩
    · intro li row i
      rw [(setLoad_line t c.spot p v li row i).2.2]
      split
      · rename_i e
        obtain ⟨e1, e2, e3, -⟩ := e
        subst e1 e2 e3
        exact h1
      · exact Nat.le_refl _
    · intro b hb li row i
      rw [(setLoad_line t c.spot p v li row i).2.2]
      split
      · rename_i e
        obtain ⟨e1, e2, e3, -⟩ := e
        subst e1 e2 e3
        have h5 : loadAt t c.spot p ≤ b := hb p.1 (c.spot.row p.1) p.2
        omega
      · have := hb li row i
        omega
  have at_ : ∀ v, p.2 < 15 → loadAt (setLoad t c.spot p v) c.spot p = v := by
    intro v hp
    unfold loadAt
    rw [(setLoad_line t c.spot p v p.1 (c.spot.row p.1) p.2).2.2, if_pos]
    exact ⟨rfl, rfl, rfl, by rw [(h _ _).2.1]; exact hp⟩
  unfold full at *
  unfold charge
  dsimp only
  split
  · rename_i hb
    split
    · rename_i ho
      refine ⟨raise _ (by omega) (by omega) (by omega), by simp [ho], ?_, ?_, ?_, by simp⟩
      · intro hp _; rw [at_ _ hp]; omega
      · intro hp _; rw [at_ _ hp]
      · intro li row; exact (setLoad_line t c.spot p _ li row 0).2.1
    · rename_i ho
      refine ⟨(Raised.refl t h).mono (Nat.zero_le _), ?_, by simp, by simp, fun _ _ => rfl,
        fun _ => rfl⟩
      simp only [true_iff]
      exact ⟨by simpa using ho, by omega⟩
  · rename_i hb
    have hpr : floor16 c.price ≤ c.price16 ∧ c.price16 ≤ ceil16 c.price := by
      rcases hc.price with e | e <;> rw [e]
      · exact ⟨Nat.le_refl _, hfl⟩
      · rw [Nat.mod_eq_of_lt (by omega)]; exact ⟨hfl, Nat.le_refl _⟩
    have hv : (loadAt t c.spot p + c.price16) % 2 ^ 16 = loadAt t c.spot p + c.price16 :=
      Nat.mod_eq_of_lt (by omega)
    rw [hv]
    refine ⟨raise _ (by omega) (by omega) (by omega), ?_, ?_, ?_, ?_, by simp⟩
    · simp only [Bool.false_eq_true, false_iff]
      intro hx; omega
    · intro hp _; rw [at_ _ hp]; omega
    · intro hp _; rw [at_ _ hp]
    · intro li row; exact (setLoad_line t c.spot p _ li row 0).2.1

theorem minPlace_fold (t : Tab) (s : Spot) : ∀ (l : List (Bool × Nat)) (b : Bool × Nat),
    (l.foldl (fun best p => if loadAt t s p < loadAt t s best then p else best) b ∈ b :: l) ∧
    ∀ q ∈ b :: l,
      loadAt t s (l.foldl (fun best p => if loadAt t s p < loadAt t s best then p else best) b) ≤
        loadAt t s q
  | [], b => by simp
  | p :: l, b => by
    simp only [List.foldl_cons]
    have ih := minPlace_fold t s l (if loadAt t s p < loadAt t s b then p else b)
    refine ⟨?_, ?_⟩
    · rcases List.mem_cons.1 ih.1 with e | e
      · rw [e]; split <;> simp
      · exact List.mem_cons_of_mem _ (List.mem_cons_of_mem _ e)
    · intro q hq
      have hb := ih.2 _ (List.mem_cons_self ..)
      rcases List.mem_cons.1 hq with rfl | hq
      · split at hb <;> rename_i hlt
        · rw [if_pos hlt]; omega
        · rw [if_neg hlt]; exact hb
      · rcases List.mem_cons.1 hq with rfl | hq
        · split at hb <;> rename_i hlt
          · rw [if_pos hlt]; exact hb
          · rw [if_neg hlt]; omega
        · exact ih.2 q (List.mem_cons_of_mem _ hq)

theorem mem_places (q : Bool × Nat) : q ∈ places ↔ q.2 < 15 := by
  unfold places
  simp only [List.mem_append, List.mem_map, List.mem_range]
  constructor
  · rintro (⟨i, hi, rfl⟩ | ⟨i, hi, rfl⟩) <;> exact hi
  · intro h
    obtain ⟨b, i⟩ := q
    cases b
    · exact .inl ⟨i, h, rfl⟩
    · exact .inr ⟨i, h, rfl⟩

theorem minPlace_spec (t : Tab) (s : Spot) :
    (minPlace t s).2 < 15 ∧ ∀ q : Bool × Nat, q.2 < 15 → loadAt t s (minPlace t s) ≤ loadAt t s q := by
  have h := minPlace_fold t s places (false, 0)
  refine ⟨?_, fun q hq => h.2 q (List.mem_cons_of_mem _ ((mem_places q).2 hq))⟩
  rcases List.mem_cons.1 h.1 with e | e
  · show (minPlace t s).2 < 15
    unfold minPlace; rw [e]; decide
  · exact (mem_places _).1 e

theorem locate_lt (t : Tab) (h : OkTab t) (s : Spot) (p : Bool × Nat) (hp : locate t s = some p) :
    p.2 < 15 := by
  unfold locate at hp
  split at hp
  · rename_i i hi
    cases hp
    have := (List.findIdx?_eq_some_iff_findIdx_eq.1 hi).1
    rw [(h _ _).1] at this; exact this
  · split at hp
    · rename_i i hi
      cases hp
      have := (List.findIdx?_eq_some_iff_findIdx_eq.1 hi).1
      rw [(h _ _).1] at this; exact this
    · cases hp

theorem loadAt_setId (t : Tab) (s s' : Spot) (p q : Bool × Nat) :
    loadAt (setId t s p) s' q = loadAt t s' q := by
  unfold loadAt setId
  rw [put_line]
  split
  · rename_i e; rw [e.2, e.1]
  · rfl

/-- The third phase for one key. -/
theorem update_spec (t : Tab) (h : OkTab t) (c : Ctx) (hc : Priced c)
    (hp : ∀ p, c.load = some p → p.2 < 15) (o : Bool) :
    Raised t (update t c o).2.2 (ceil16 c.price) ∧
    ((update t c o).1 = true ↔ o = false ∧
      65536 ≤ loadAt t c.spot (c.load.getD (minPlace t c.spot)) + ceil16 c.price) ∧
    ((update t c o).1 = false →
      min full (loadAt t c.spot (c.load.getD (minPlace t c.spot)) + floor16 c.price) ≤
        loadAt (update t c o).2.2 c.spot (c.load.getD (minPlace t c.spot))) ∧
    ((update t c o).1 = false →
      (update t c o).2.1.final = loadAt (update t c o).2.2 c.spot (c.load.getD (minPlace t c.spot))) := by
  unfold update
  split
  · rename_i e
    rw [e, Option.getD_none]
    have hm := (minPlace_spec t c.spot).1
    have r1 := setId_raised t h c.spot (minPlace t c.spot)
    have s := charge_spec (setId t c.spot (minPlace t c.spot)) r1.ok c hc (minPlace t c.spot) o
    rw [loadAt_setId] at s
    refine ⟨?_, s.2.1, s.2.2.1 hm, s.2.2.2.1 hm⟩
    have := r1.trans s.1
    rwa [Nat.zero_add] at this
  · rename_i p e
    rw [e, Option.getD_some]
    have s := charge_spec t h c hc p o
    exact ⟨s.1, s.2.1, s.2.2.1 (hp p e), s.2.2.2.1 (hp p e)⟩

/-- A context after the second phase. -/
structure Ready (c : Ctx) : Prop where
  priced : Priced c
  lt : ∀ p, c.load = some p → p.2 < 15

/-- What the contexts charge for the counter `p` of the lines of `s`. -/
def due (s : Spot) (p : Bool × Nat) (cs : List Ctx) : Nat :=
  ((cs.filter fun c => decide (c.spot = s ∧ c.load = some p)).map fun c => floor16 c.price).sum

/-- What the contexts may charge at most. -/
def most (cs : List Ctx) : Nat := (cs.map fun c => ceil16 c.price).sum

theorem due_cons (s : Spot) (p : Bool × Nat) (c : Ctx) (cs : List Ctx) :
    due s p (c :: cs) = (if c.spot = s ∧ c.load = some p then floor16 c.price else 0) + due s p cs := by
  unfold due
  rw [List.filter_cons]
  by_cases h : c.spot = s ∧ c.load = some p
  · simp [h]
  · simp [h]

theorem Raised.loadAt {t t' : Tab} {a : Nat} (h : Raised t t' a) (s : Spot) (p : Bool × Nat) :
    loadAt t s p ≤ loadAt t' s p := h.lower _ _ _

theorem updateAll_spec (o : Bool) : ∀ (cs : List Ctx) (t : Tab), OkTab t → (∀ c ∈ cs, Ready c) →
    Raised t (updateAll t o cs).2.2 (most cs) ∧
    ((updateAll t o cs).1 = false → ∀ s p,
      min full (loadAt t s p + due s p cs) ≤ loadAt (updateAll t o cs).2.2 s p) ∧
    (o = true → (updateAll t o cs).1 = false) ∧
    (∀ b, (∀ li row (i : Nat), (t.line li row).loads.getD i 0 ≤ b) → b + most cs ≤ full →
      (updateAll t o cs).1 = false)
  | [], t, h, _ => by
    refine ⟨Raised.refl t h, ?_, fun _ => rfl, fun _ _ _ => rfl⟩
    intro _ s p
    show min full (Kru.loadAt t s p + 0) ≤ Kru.loadAt t s p
    omega
  | c :: cs, t, h, hr => by
    have rc := hr c (by simp)
    have u := update_spec t h c rc.priced rc.lt o
    simp only [updateAll]
    cases e : update t c o with
    | mk b r =>
    obtain ⟨c', t'⟩ := r
    rw [e] at u
    dsimp only at u ⊢
    have ih := updateAll_spec o cs t' u.1.ok (fun c hc => hr c (by simp [hc]))
    cases e2 : updateAll t' o cs with
    | mk bs r =>
    obtain ⟨cs', t''⟩ := r
    rw [e2] at ih
    dsimp only at ih ⊢
    refine ⟨?_, ?_, ?_, ?_⟩
    · exact u.1.trans ih.1
    · intro hb s p
      simp only [Bool.or_eq_false_iff] at hb
      have i1 := ih.2.1 hb.2 s p
      rw [due_cons]
      split
      · rename_i hs
        have u1 := u.2.2.1 hb.1
        rw [hs.2, Option.getD_some, hs.1] at u1
        omega
      · have := u.1.loadAt s p
        omega
    · intro ho
      rw [ih.2.2.1 ho]
      have : ¬ b = true := fun hb => by
        have := (u.2.1.1 hb).1
        rw [ho] at this; cases this
      simpa using this
    · intro bd hb hm
      have hm' : bd + (ceil16 c.price + most cs) ≤ full := hm
      rw [ih.2.2.2 (bd + ceil16 c.price) (u.1.upper bd hb) (by omega)]
      have : ¬ b = true := fun hb' => by
        have h1 := (u.2.1.1 hb').2
        have h2 : Kru.loadAt t c.spot (c.load.getD (minPlace t c.spot)) ≤ bd := hb _ _ _
        unfold full at hm'
        omega
      simpa using this

/-- The same with a break. -/
theorem updateUntil_spec : ∀ (cs : List Ctx) (t : Tab), OkTab t → (∀ c ∈ cs, Ready c) →
    Raised t (updateUntil t cs).2 (most cs) ∧
    (∀ cs', (updateUntil t cs).1 = .inr cs' → ∀ s p,
      min full (loadAt t s p + due s p cs) ≤ loadAt (updateUntil t cs).2 s p) ∧
    (∀ i, (updateUntil t cs).1 = .inl i → i < cs.length) ∧
    (∀ b, (∀ li row (i : Nat), (t.line li row).loads.getD i 0 ≤ b) → b + most cs ≤ full →
      ∃ cs', (updateUntil t cs).1 = .inr cs')
  | [], t, h, _ => by
    refine ⟨Raised.refl t h, ?_, by simp [updateUntil], fun _ _ _ => ⟨[], rfl⟩⟩
    intro _ _ s p
    show min full (Kru.loadAt t s p + 0) ≤ Kru.loadAt t s p
    omega
  | c :: cs, t, h, hr => by
    have rc := hr c (by simp)
    have u := update_spec t h c rc.priced rc.lt false
    simp only [updateUntil]
    cases e : update t c false with
    | mk b r =>
    obtain ⟨c', t'⟩ := r
    rw [e] at u
    dsimp only at u
    have hmost : most (c :: cs) = ceil16 c.price + most cs := rfl
    cases b with
    | true =>
      dsimp only
      refine ⟨u.1.mono (by omega), by simp, by simp, ?_⟩
      intro bd hb hm
      have h1 := (u.2.1.1 rfl).2
      have h2 : Kru.loadAt t c.spot (c.load.getD (minPlace t c.spot)) ≤ bd := hb _ _ _
      unfold full at hm
      omega
    | false =>
      dsimp only
      have ih := updateUntil_spec cs t' u.1.ok (fun c hc => hr c (by simp [hc]))
      cases e2 : updateUntil t' cs with
      | mk r t'' =>
      rw [e2] at ih
      have up : ∀ bd, (∀ li row (i : Nat), (t.line li row).loads.getD i 0 ≤ bd) →
          bd + most (c :: cs) ≤ full → ∃ cs', r = .inr cs' := fun bd hb hm =>
        ih.2.2.2 (bd + ceil16 c.price) (u.1.upper bd hb) (by omega)
      cases r with
      | inl i =>
        dsimp only at ih ⊢
        refine ⟨u.1.trans ih.1, by simp, ?_, ?_⟩
        · intro j hj
          have := ih.2.2.1 i rfl
          cases hj
          simp only [List.length_cons]; omega
        · intro bd hb hm
          obtain ⟨cs', h'⟩ := up bd hb hm
          cases h'
      | inr cs' =>
        dsimp only at ih ⊢
        refine ⟨u.1.trans ih.1, ?_, by simp, fun _ _ _ => ⟨_, rfl⟩⟩
        intro _ _ s p
        have i1 := ih.2.1 cs' rfl s p
        rw [due_cons]
        split
        · rename_i hs
          have u1 := u.2.2.1 rfl
          rw [hs.2, Option.getD_some, hs.1] at u1
          omega
        · have := u.1.loadAt s p
          omega

theorem due_reverse (s : Spot) (p : Bool × Nat) (cs : List Ctx) : due s p cs.reverse = due s p cs := by
  unfold due
  rw [List.filter_reverse, List.map_reverse, List.sum_reverse]

theorem most_reverse (cs : List Ctx) : most cs.reverse = most cs := by
  unfold most
  rw [List.map_reverse, List.sum_reverse]

end Knot.Kru
