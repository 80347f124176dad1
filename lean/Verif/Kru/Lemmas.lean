import Verif.Kru.Spec
/-! # Lemmas: ageing and charging one counter; the phases of a call -/
namespace Knot.Kru

theorem decayLoad_bounds (mult rnd load : Nat) (hm : mult < 2 ^ 32) (hl : load ≤ full) :
    load * mult / 2 ^ 32 ≤ decayLoad mult rnd load ∧ decayLoad mult rnd load ≤ load ∧
      decayLoad mult rnd load ≤ load * mult / 2 ^ 32 + 1 := by
  unfold full at hl
  have e : 2 ^ 16 * load * mult = load * mult * 65536 := by
    rw [Nat.mul_assoc, Nat.mul_comm (2 ^ 16)]
  have hx : load * mult ≤ load * 4294967295 := Nat.mul_le_mul_left _ (by omega)
  unfold decayLoad
  rw [e]
  generalize load * mult = X at *
  dsimp only
  split <;> omega

theorem ticks_lt (a b : Nat) : ticks a b < 2 ^ 32 := by unfold ticks; omega

theorem ticks_zero (a b : Nat) (ha : a < 2 ^ 32) (hb : b < 2 ^ 32) : ticks a b = 0 ↔ a = b := by
  unfold ticks; omega

theorem decayLoads_spec (mult : Nat) (hm : mult < 2 ^ 32) : ∀ (l : List Nat) (g : Rng),
    (∀ x ∈ l, x ≤ full) →
    (decayLoads mult l g).1.length = l.length ∧ (∀ x ∈ (decayLoads mult l g).1, x ≤ full) ∧
    ∀ i : Nat, l.getD i 0 * mult / 2 ^ 32 ≤ (decayLoads mult l g).1.getD i 0 ∧
      (decayLoads mult l g).1.getD i 0 ≤ l.getD i 0 ∧
      (decayLoads mult l g).1.getD i 0 ≤ l.getD i 0 * mult / 2 ^ 32 + 1
  | [], g, _ => by simp [decayLoads]
  | x :: l, g, h => by
    have hx := h x (by simp)
    have ih := decayLoads_spec mult hm l (randNext g) (fun y hy => h y (by simp [hy]))
    have hb := decayLoad_bounds mult (rand16 g) x hm hx
    refine ⟨by simp [decayLoads, ih.1], ?_, ?_⟩
    · intro y hy
      simp only [decayLoads, List.mem_cons] at hy
      rcases hy with rfl | hy
      · omega
      · exact ih.2.1 y hy
    · intro i
      cases i with
      | zero => simpa [decayLoads] using hb
      | succ i => simpa [decayLoads] using ih.2.2 i

/-- A line as it is allocated. -/
def OkLine (l : Line) : Prop :=
  l.ids.length = 15 ∧ l.loads.length = 15 ∧ l.time < 2 ^ 32 ∧ ∀ x ∈ l.loads, x ≤ full

theorem getD_le (l : List Nat) (h : ∀ x ∈ l, x ≤ full) (i : Nat) : l.getD i 0 ≤ full := by
  rw [List.getD_eq_getElem?_getD]
  cases e : l[i]? with
  | none => simp
  | some v => exact h v (List.mem_of_getElem? e)

theorem getD_zero (l : List Nat) (i : Nat) : (l.map fun _ => 0).getD i 0 = 0 := by
  rw [List.getD_eq_getElem?_getD, List.getElem?_map]
  cases l[i]? <;> rfl

theorem aged_same (d : Decay) (t a : Nat) : aged d t t a = a := by simp [aged]

theorem aged_mono (d : Decay) (t u : Nat) {a b : Nat} (h : a ≤ b) : aged d t u a ≤ aged d t u b := by
  unfold aged
  split
  · exact h
  · split
    · exact Nat.le_refl _
    · exact Nat.div_le_div_right (Nat.mul_le_mul_right _ h)

theorem aged_le (d : Decay) (hd : ∀ n, d.mult n < 2 ^ 32) (t u a : Nat) : aged d t u a ≤ a := by
  unfold aged
  split
  · omega
  · split
    · omega
    · have : a * d.mult (ticks u t) ≤ a * 2 ^ 32 := Nat.mul_le_mul_left _ (Nat.le_of_lt (hd _))
      exact Nat.div_le_of_le_mul (by omega)

/-- What ageing does to a line. -/
structure LineAged (d : Decay) (now : Nat) (l l' : Line) : Prop where
  ids : l'.ids = l.ids
  ok : OkLine l'
  time : l'.time = l.time ∨ l'.time = now
  lower : ∀ i : Nat, aged d l.time l'.time (l.loads.getD i 0) ≤ l'.loads.getD i 0
  upper : ∀ i : Nat, l'.loads.getD i 0 ≤ l.loads.getD i 0
  near : ∀ i : Nat, l'.loads.getD i 0 ≤ aged d l.time l'.time (l.loads.getD i 0) + 1

theorem LineAged.refl (d : Decay) (now : Nat) (l : Line) (h : OkLine l) : LineAged d now l l :=
  ⟨rfl, h, .inl rfl, fun _ => by rw [aged_same]; exact Nat.le_refl _, fun _ => Nat.le_refl _,
   fun _ => by rw [aged_same]; omega⟩

theorem LineAged.trans {d : Decay} {now : Nat} {a b c : Line} (h : LineAged d now a b)
    (h' : LineAged d now b c) : LineAged d now a c := by
  refine ⟨h'.ids.trans h.ids, h'.ok, ?_, ?_, fun i => Nat.le_trans (h'.upper i) (h.upper i), ?_⟩
  · rcases h.time with e | e <;> rcases h'.time with e' | e'
    · exact .inl (e'.trans e)
    · exact .inr e'
    · exact .inr (e'.trans e)
    · exact .inr e'
  · intro i
    have l1 := h.lower i
    have l2 := h'.lower i
    rcases h.time with e | e
    · rw [e, aged_same] at l1
      rw [e] at l2
      exact Nat.le_trans (aged_mono d _ _ l1) l2
    · have e2 : c.time = b.time := by
        rcases h'.time with e' | e'
        · exact e'
        · rw [e', e]
      rw [e2, aged_same] at l2
      rw [e2]
      exact Nat.le_trans l1 l2
  · intro i
    have l1 := h.near i
    have l2 := h'.near i
    have u2 := h'.upper i
    rcases h.time with e | e
    · rw [e] at l2
      have l3 := h.upper i
      exact Nat.le_trans l2 (by have := aged_mono d a.time c.time l3; omega)
    · have e2 : c.time = b.time := by
        rcases h'.time with e' | e'
        · exact e'
        · rw [e', e]
      rw [e2]
      omega

theorem updateTime_aged (d : Decay) (hd : ∀ n, d.mult n < 2 ^ 32) (now : Nat) (hn : now < 2 ^ 32)
    (l : Line) (h : OkLine l) (g : Rng) : LineAged d now l (updateTime d now l g).1 := by
  unfold updateTime
  split
  · exact LineAged.refl d now l h
  · split
    · exact LineAged.refl d now l h
    · rename_i h0 h1
      have hne : ¬ l.time = now := fun e => h0 ((ticks_zero now l.time hn h.2.2.1).2 e.symm)
      split
      · rename_i h2
        refine ⟨rfl, ⟨h.1, by simp [h.2.1], hn, by simp [full]⟩, .inr rfl, ?_, ?_, ?_⟩
        · intro i
          simp only [aged, hne, if_false, h2, if_true]
          omega
        · intro i
          simp only [getD_zero]
          omega
        · intro i
          simp only [getD_zero]
          omega
      · rename_i h2
        have s := decayLoads_spec (d.mult (ticks now l.time)) (hd _) l.loads g h.2.2.2
        refine ⟨rfl, ⟨h.1, by dsimp only; rw [s.1]; exact h.2.1, hn, s.2.1⟩, .inr rfl, ?_, ?_, ?_⟩
        · intro i
          simp only [aged, hne, if_false, h2]
          exact (s.2.2 i).1
        · intro i
          exact (s.2.2 i).2.1
        · intro i
          simp only [aged, hne, if_false, h2]
          exact (s.2.2 i).2.2

/-- What the second phase does to the table. -/
def Aged (d : Decay) (now : Nat) (t t' : Tab) : Prop :=
  ∀ li row, LineAged d now (t.line li row) (t'.line li row)

/-- Memory as it is allocated. -/
def OkTab (t : Tab) : Prop := ∀ li row, OkLine (t.line li row)

theorem Aged.refl (d : Decay) (now : Nat) (t : Tab) (h : OkTab t) : Aged d now t t :=
  fun li row => LineAged.refl d now _ (h li row)

theorem Aged.trans {d : Decay} {now : Nat} {a b c : Tab} (h : Aged d now a b)
    (h' : Aged d now b c) : Aged d now a c :=
  fun li row => (h li row).trans (h' li row)

theorem Aged.ok {d : Decay} {now : Nat} {a b : Tab} (h : Aged d now a b) : OkTab b :=
  fun li row => (h li row).ok

theorem put_line (t : Tab) (li li' : Bool) (row row' : Nat) (l : Line) :
    (t.put li row l).line li' row' = if li' = li ∧ row' = row then l else t.line li' row' := rfl

theorem put_aged (d : Decay) (hd : ∀ n, d.mult n < 2 ^ 32) (now : Nat) (hn : now < 2 ^ 32)
    (t : Tab) (h : OkTab t) (li : Bool) (row : Nat) (g : Rng) :
    Aged d now t (t.put li row (updateTime d now (t.line li row) g).1) := by
  intro li' row'
  rw [put_line]
  split
  · rename_i e
    rw [e.1, e.2]
    exact updateTime_aged d hd now hn _ (h li row) g
  · exact LineAged.refl d now _ (h li' row')

theorem ageBoth_eq (k : Kru) (c : Ctx) (g : Rng) (l0 l1 : Line) (g0 g1 : Rng)
    (h0 : updateTime k.decay c.now (k.tab.line false c.spot.r0) g = (l0, g0))
    (h1 : updateTime k.decay c.now ((k.tab.put false c.spot.r0 l0).line true c.spot.r1) g0 =
      (l1, g1)) :
    ageBoth k c g =
      ({ k with tab := (k.tab.put false c.spot.r0 l0).put true c.spot.r1 l1 }, g1) := by
  unfold ageBoth
  rw [h0]
  dsimp only
  rw [h1]

theorem ageBoth_aged (k : Kru) (hd : ∀ n, k.decay.mult n < 2 ^ 32) (h : OkTab k.tab) (c : Ctx)
    (hn : c.now < 2 ^ 32) (g : Rng) :
    Aged k.decay c.now k.tab (ageBoth k c g).1.tab ∧ (ageBoth k c g).1.decay = k.decay ∧
      (ageBoth k c g).1.hash = k.hash ∧ (ageBoth k c g).1.bits = k.bits := by
  have a1 := put_aged k.decay hd c.now hn k.tab h false c.spot.r0 g
  cases h0 : updateTime k.decay c.now (k.tab.line false c.spot.r0) g with
  | mk l0 g0 =>
    rw [h0] at a1
    have a2 := put_aged k.decay hd c.now hn _ a1.ok true c.spot.r1 g0
    cases h1 : updateTime k.decay c.now ((k.tab.put false c.spot.r0 l0).line true c.spot.r1) g0 with
    | mk l1 g1 =>
      rw [h1] at a2
      rw [ageBoth_eq k c g l0 l1 g0 g1 h0 h1]
      exact ⟨a1.trans a2, rfl, rfl, rfl⟩

/-- The time of a line after it was aged. -/
theorem updateTime_time (d : Decay) (now : Nat) (hn : now < 2 ^ 32) (l : Line) (hl : l.time < 2 ^ 32)
    (g : Rng) : (updateTime d now l g).1.time =
      if ticks now l.time > 2 ^ 32 - 1024 then l.time else now := by
  unfold updateTime
  split
  · rename_i h
    rw [h, if_neg (by decide)]
    exact ((ticks_zero now l.time hn hl).1 h).symm
  · split
    · rfl
    · split <;> rfl

theorem ageBoth_time (k : Kru) (c : Ctx) (hn : c.now < 2 ^ 32) (h : OkTab k.tab) (g : Rng)
    (li : Bool) : ((ageBoth k c g).1.tab.line li (c.spot.row li)).time =
      if ticks c.now (k.tab.line li (c.spot.row li)).time > 2 ^ 32 - 1024
      then (k.tab.line li (c.spot.row li)).time else c.now := by
  cases h0 : updateTime k.decay c.now (k.tab.line false c.spot.r0) g with
  | mk l0 g0 =>
    cases h1 : updateTime k.decay c.now ((k.tab.put false c.spot.r0 l0).line true c.spot.r1) g0 with
    | mk l1 g1 =>
      rw [ageBoth_eq k c g l0 l1 g0 g1 h0 h1]
      dsimp only
      have t0 := updateTime_time k.decay c.now hn (k.tab.line false c.spot.r0) (h _ _).2.2.1 g
      rw [h0] at t0
      have hx : (k.tab.put false c.spot.r0 l0).line true c.spot.r1 = k.tab.line true c.spot.r1 := by
        rw [put_line, if_neg (by simp)]
      rw [hx] at h1
      have t1 := updateTime_time k.decay c.now hn (k.tab.line true c.spot.r1) (h _ _).2.2.1 g0
      rw [h1] at t1
      cases li
      · rw [put_line, if_neg (by simp), put_line, if_pos ⟨rfl, rfl⟩]
        exact t0
      · rw [put_line, if_pos ⟨rfl, rfl⟩]
        exact t1

theorem locate_ids (t t' : Tab) (s : Spot) (h : ∀ li row, (t'.line li row).ids = (t.line li row).ids) :
    locate t' s = locate t s := by
  unfold locate
  rw [h, h]

/-- The price and the limit of a context belong together. -/
structure Priced (c : Ctx) : Prop where
  limit : c.limit16 = 65536 - ceil16 c.price
  price : c.price16 = floor16 c.price ∨ c.price16 = ceil16 c.price % 65536
  small : c.price < 2 ^ 32

theorem setPrice_rounded (c : Ctx) (g : Rng) :
    (setPrice c g).1.price16 = rounded c.price (rand16 g) % 65536 ∨
      65536 ≤ c.price / 65536 := by
  unfold setPrice rounded floor16
  split
  · exact .inl rfl
  · rename_i h
    have h0 : c.price % 65536 = 0 := by omega
    rw [h0, if_neg (by omega)]
    dsimp only
    omega

theorem setPrice_priced (c : Ctx) (h : c.price < 2 ^ 32) (g : Rng) :
    Priced (setPrice c g).1 ∧ (setPrice c g).1.price = c.price ∧ (setPrice c g).1.now = c.now ∧
      (setPrice c g).1.spot = c.spot := by
  unfold setPrice
  split
  · refine ⟨⟨?_, ?_, h⟩, rfl, rfl, rfl⟩
    · dsimp only; unfold ceil16; omega
    · dsimp only; unfold ceil16 floor16; split <;> omega
  · refine ⟨⟨?_, ?_, h⟩, rfl, rfl, rfl⟩
    · dsimp only; unfold ceil16; omega
    · dsimp only; unfold floor16; omega

/-- What the second phase says about one key. -/
structure Fetched (k k' : Kru) (c c' : Ctx) (rnd : Nat) : Prop where
  aged : Aged k.decay c.now k.tab k'.tab
  decay : k'.decay = k.decay
  hash : k'.hash = k.hash
  bits : k'.bits = k.bits
  priced : Priced c'
  price : c'.price = c.price
  spot : c'.spot = c.spot
  load : c'.load = locate k.tab c.spot
  price16 : c'.price16 = rounded c.price rnd % 65536
  time : ∀ li, (k'.tab.line li (c.spot.row li)).time =
    if ticks c.now (k.tab.line li (c.spot.row li)).time > 2 ^ 32 - 1024
    then (k.tab.line li (c.spot.row li)).time else c.now

theorem fetch_spec (k : Kru) (hd : ∀ n, k.decay.mult n < 2 ^ 32) (h : OkTab k.tab) (c : Ctx)
    (hn : c.now < 2 ^ 32) (hp : c.price < 2 ^ 32) (g : Rng) :
    Fetched k (fetch k c g).2.2.1 c (fetch k c g).2.1 (rand16 g) ∧
    ((fetch k c g).1 = true ↔ ∃ p, locate k.tab c.spot = some p ∧
      65536 ≤ loadAt (fetch k c g).2.2.1.tab c.spot p + ceil16 c.price) ∧
    ((fetch k c g).2.1.final = match locate k.tab c.spot with
      | none => 0
      | some p => loadAt (fetch k c g).2.2.1.tab c.spot p) := by
  have hsp := setPrice_priced c hp g
  have hr : (setPrice c g).1.price16 = rounded c.price (rand16 g) % 65536 := by
    rcases setPrice_rounded c g with h | h
    · exact h
    · omega
  cases h0 : setPrice c g with
  | mk c1 g1 =>
  rw [h0] at hsp hr
  obtain ⟨sp, spp, spn, sps⟩ := hsp
  dsimp only at sp spp spn sps
  have ha := ageBoth_aged k hd h c1 (by rw [spn]; exact hn) g1
  have ht := ageBoth_time k c1 (by rw [spn]; exact hn) h g1
  cases h1 : ageBoth k c1 g1 with
  | mk k1 g2 =>
  rw [h1, spn] at ha
  rw [h1, spn, sps] at ht
  dsimp only at ha ht
  have hl := locate_ids k.tab k1.tab c.spot (fun li row => (ha.1 li row).ids)
  have hc : ceil16 c.price ≤ 65536 := by unfold ceil16; omega
  have e : fetch k c g = ((look k1 c1).1, (look k1 c1).2, k1, g2) := by
    unfold fetch
    rw [h0]
    dsimp only
    rw [h1]
  rw [e]
  dsimp only
  unfold look
  rw [sps, hl]
  cases e2 : locate k.tab c.spot with
  | none =>
    dsimp only
    refine ⟨⟨ha.1, ha.2.1, ha.2.2.1, ha.2.2.2, ⟨sp.limit, sp.price, sp.small⟩, spp, rfl, e2.symm, hr, ht⟩,
      by simp, rfl⟩
  | some p =>
    dsimp only
    refine ⟨⟨ha.1, ha.2.1, ha.2.2.1, ha.2.2.2, ⟨sp.limit, sp.price, sp.small⟩, spp, rfl, e2.symm, hr, ht⟩,
      ?_, rfl⟩
    have hlim := sp.limit
    rw [spp] at hlim
    simp only [hlim, decide_eq_true_eq, Option.some.injEq, exists_eq_left']
    omega

end Knot.Kru
