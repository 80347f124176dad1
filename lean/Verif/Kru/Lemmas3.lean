import Verif.Kru.Lemmas2
/-! # Lemmas: whole calls and histories -/
namespace Knot.Kru

/-- What the contexts are going to charge, known before the second phase. -/
def owedBy (t : Tab) (s : Spot) (p : Bool × Nat) (cs : List Ctx) : Nat :=
  ((cs.filter fun c => decide (c.spot = s ∧ locate t c.spot = some p)).map fun c => floor16 c.price).sum

theorem owedBy_cons (t : Tab) (s : Spot) (p : Bool × Nat) (c : Ctx) (cs : List Ctx) :
    owedBy t s p (c :: cs) =
      (if c.spot = s ∧ locate t c.spot = some p then floor16 c.price else 0) + owedBy t s p cs := by
  unfold owedBy
  rw [List.filter_cons]
  by_cases h : c.spot = s ∧ locate t c.spot = some p
  · rw [if_pos h, if_pos (decide_eq_true h), List.map_cons, List.sum_cons]
  · rw [if_neg h, if_neg (by simpa using h), Nat.zero_add]

theorem Aged.locate {d : Decay} {now : Nat} {t t' : Tab} (h : Aged d now t t') (s : Spot) :
    locate t' s = locate t s := locate_ids t t' s (fun li row => (h li row).ids)

theorem owedBy_aged {d : Decay} {now : Nat} {t t' : Tab} (h : Aged d now t t') (s : Spot)
    (p : Bool × Nat) (cs : List Ctx) : owedBy t' s p cs = owedBy t s p cs := by
  unfold owedBy
  congr 2
  refine List.filter_congr fun c _ => ?_
  rw [h.locate]

/-- The contexts of a call before the second phase. -/
def Begun (now : Nat) (c : Ctx) : Prop := c.now = now ∧ c.price < 2 ^ 32

/-- The second phase of a call. -/
structure Phase2 (k k' : Kru) (now : Nat) : Prop where
  aged : Aged k.decay now k.tab k'.tab
  decay : k'.decay = k.decay
  hash : k'.hash = k.hash
  bits : k'.bits = k.bits

/-- The contexts after it. -/
structure Contexts (t : Tab) (cs cs' : List Ctx) : Prop where
  ready : ∀ c ∈ cs', Ready c
  due : ∀ s p, due s p cs' = owedBy t s p cs
  most : most cs' = most cs
  length : cs'.length = cs.length

theorem low_limit {t : Tab} {s : Spot} {p : Bool × Nat} {b price : Nat}
    (hb : ∀ li row (i : Nat), (t.line li row).loads.getD i 0 ≤ b) (h : b + ceil16 price ≤ full) :
    ¬ 65536 ≤ loadAt t s p + ceil16 price := by
  have : loadAt t s p ≤ b := hb _ _ _
  unfold full at h
  omega

theorem Aged.low {d : Decay} {now b : Nat} {t t' : Tab} (h : Aged d now t t')
    (hb : ∀ li row (i : Nat), (t.line li row).loads.getD i 0 ≤ b) :
    ∀ li row (i : Nat), (t'.line li row).loads.getD i 0 ≤ b :=
  fun li row i => Nat.le_trans ((h li row).upper i) (hb li row i)

theorem contexts_cons {k k1 : Kru} {c c1 : Ctx} {cs cs' : List Ctx} (hok : OkTab k.tab)
    {rnd : Nat} (f : Fetched k k1 c c1 rnd) (h : Contexts k1.tab cs cs') :
    Contexts k.tab (c :: cs) (c1 :: cs') := by
  refine ⟨?_, ?_, ?_, ?_⟩
  · intro x hx
    rcases List.mem_cons.1 hx with rfl | hx
    · refine ⟨f.priced, fun p hp => ?_⟩
      rw [f.load] at hp
      exact locate_lt k.tab hok _ _ hp
    · exact h.ready x hx
  · intro s p
    rw [due_cons, owedBy_cons, h.due, owedBy_aged f.aged, f.spot, f.load, f.price]
  · show ceil16 c1.price + Kru.most cs' = ceil16 c.price + Kru.most cs
    rw [h.most, f.price]
  · simp [h.length]

theorem fetchAll_spec (now : Nat) (hn : now < 2 ^ 32) : ∀ (cs : List Ctx) (k : Kru) (g : Rng),
    (∀ n, k.decay.mult n < 2 ^ 32) → OkTab k.tab → (∀ c ∈ cs, Begun now c) →
    Phase2 k (fetchAll k cs g).2.2.1 now ∧ Contexts k.tab cs (fetchAll k cs g).2.1 ∧
    ∀ b, (∀ li row (i : Nat), (k.tab.line li row).loads.getD i 0 ≤ b) → b + most cs ≤ full →
      (fetchAll k cs g).1 = false
  | [], k, g, _, h, _ => ⟨⟨Aged.refl _ _ _ h, rfl, rfl, rfl⟩,
      ⟨by simp [fetchAll], fun _ _ => rfl, rfl, rfl⟩, fun _ _ _ => rfl⟩
  | c :: cs, k, g, hd, h, hb => by
    have hc := hb c (by simp)
    obtain ⟨f, fb, -⟩ := fetch_spec k hd h c (by rw [hc.1]; exact hn) hc.2 g
    simp only [fetchAll]
    cases e : fetch k c g with
    | mk b1 r =>
    obtain ⟨c1, k1, g1⟩ := r
    rw [e] at f fb
    dsimp only at f fb ⊢
    have ih := fetchAll_spec now hn cs k1 g1 (by rw [f.decay]; exact hd) f.aged.ok
      (fun c hc => hb c (by simp [hc]))
    cases e2 : fetchAll k1 cs g1 with
    | mk bs r =>
    obtain ⟨cs', k2, g2⟩ := r
    rw [e2] at ih
    dsimp only at ih ⊢
    have fa := f.aged
    rw [hc.1] at fa
    have pa := ih.1.aged
    rw [f.decay] at pa
    refine ⟨⟨fa.trans pa, ih.1.decay.trans f.decay, ih.1.hash.trans f.hash, ih.1.bits.trans f.bits⟩,
      contexts_cons h f ih.2.1, ?_⟩
    intro bd hbd hm
    have hm' : bd + (ceil16 c.price + most cs) ≤ full := hm
    rw [ih.2.2 bd (fa.low hbd) (by omega)]
    have : ¬ b1 = true := fun hx => by
      obtain ⟨p, -, hp⟩ := fb.1 hx
      exact low_limit (fa.low hbd) (by omega) hp
    simpa using this

theorem fetchUntil_spec (now : Nat) (hn : now < 2 ^ 32) : ∀ (cs : List Ctx) (k : Kru) (g : Rng),
    (∀ n, k.decay.mult n < 2 ^ 32) → OkTab k.tab → (∀ c ∈ cs, Begun now c) →
    Phase2 k (fetchUntil k cs g).2.1 now ∧
    (∀ cs', (fetchUntil k cs g).1 = .inr cs' → Contexts k.tab cs cs') ∧
    (∀ i, (fetchUntil k cs g).1 = .inl i → i < cs.length) ∧
    ∀ b, (∀ li row (i : Nat), (k.tab.line li row).loads.getD i 0 ≤ b) → b + most cs ≤ full →
      ∃ cs', (fetchUntil k cs g).1 = .inr cs'
  | [], k, g, _, h, _ => by
    refine ⟨⟨Aged.refl _ _ _ h, rfl, rfl, rfl⟩, ?_, by simp [fetchUntil], fun _ _ _ => ⟨[], rfl⟩⟩
    intro cs' e
    cases e
    exact ⟨by simp, fun _ _ => rfl, rfl, rfl⟩
  | c :: cs, k, g, hd, h, hb => by
    have hc := hb c (by simp)
    obtain ⟨f, fb, -⟩ := fetch_spec k hd h c (by rw [hc.1]; exact hn) hc.2 g
    simp only [fetchUntil]
    cases e : fetch k c g with
    | mk b1 r =>
    obtain ⟨c1, k1, g1⟩ := r
    rw [e] at f fb
    dsimp only at f fb
    have fa := f.aged
    rw [hc.1] at fa
    have hmost : most (c :: cs) = ceil16 c.price + most cs := rfl
    cases b1 with
    | true =>
      dsimp only
      refine ⟨⟨fa, f.decay, f.hash, f.bits⟩, by simp, by simp, ?_⟩
      intro bd hbd hm
      obtain ⟨p, -, hp⟩ := fb.1 rfl
      exact absurd hp (low_limit (fa.low hbd) (by omega))
    | false =>
      dsimp only
      have ih := fetchUntil_spec now hn cs k1 g1 (by rw [f.decay]; exact hd) f.aged.ok
        (fun c hc => hb c (by simp [hc]))
      cases e2 : fetchUntil k1 cs g1 with
      | mk r r2 =>
      obtain ⟨k2, g2⟩ := r2
      rw [e2] at ih
      have pa := ih.1.aged
      rw [f.decay] at pa
      have ph : Phase2 k k2 now := ⟨fa.trans pa, ih.1.decay.trans f.decay, ih.1.hash.trans f.hash,
        ih.1.bits.trans f.bits⟩
      cases r with
      | inl i =>
        dsimp only at ih ⊢
        refine ⟨ph, by simp, ?_, ?_⟩
        · intro j hj; cases hj
          have := ih.2.2.1 i rfl
          simp only [List.length_cons]; omega
        · intro bd hbd hm
          obtain ⟨cs', h'⟩ := ih.2.2.2 bd (fa.low hbd) (by omega)
          cases h'
      | inr cs' =>
        dsimp only at ih ⊢
        refine ⟨ph, ?_, by simp, fun _ _ _ => ⟨_, rfl⟩⟩
        intro x hx
        cases hx
        exact contexts_cons h f (ih.2.1 cs' rfl)

/-- What a whole call does. -/
structure Made (k k' : Kru) (now : Nat) (cs : List Ctx) (limited : Bool) : Prop where
  decay : k'.decay = k.decay
  hash : k'.hash = k.hash
  bits : k'.bits = k.bits
  steps : ∃ t, Aged k.decay now k.tab t ∧ Raised t k'.tab (most cs) ∧
    (limited = false → ∀ s p, min full (loadAt t s p + owedBy k.tab s p cs) ≤ loadAt k'.tab s p)
  quiet : ∀ b, (∀ li row (i : Nat), (k.tab.line li row).loads.getD i 0 ≤ b) → b + most cs ≤ full →
    limited = false

theorem ready_reverse {cs : List Ctx} (h : ∀ c ∈ cs, Ready c) : ∀ c ∈ cs.reverse, Ready c :=
  fun c hc => h c (by simpa using hc)

theorem multiOr_made (k : Kru) (hd : ∀ n, k.decay.mult n < 2 ^ 32) (h : OkTab k.tab) (now : Nat)
    (hn : now < 2 ^ 32) (qs : List (List UInt8 × Nat)) (hq : ∀ q ∈ qs, q.2 < 2 ^ 32) (g : Rng) :
    Made k (multiOr k now qs g).2.1 now (qs.map fun q => prefetch k now q.1 q.2)
      (multiOr k now qs g).1 := by
  have f := fetchUntil_spec now hn (qs.map fun q => prefetch k now q.1 q.2) k g hd h (by
    intro c hc
    obtain ⟨q, hq', rfl⟩ := List.mem_map.1 hc
    exact ⟨rfl, hq q hq'⟩)
  unfold multiOr
  generalize (qs.map fun q => prefetch k now q.1 q.2) = cs at *
  cases e : fetchUntil k cs g with
  | mk r r2 =>
  obtain ⟨k1, g1⟩ := r2
  rw [e] at f
  obtain ⟨ph, f2, f3, f4⟩ := f
  cases r with
  | inl i =>
    dsimp only at ph f4 ⊢
    refine ⟨ph.decay, ph.hash, ph.bits,
      ⟨_, ph.aged, (Raised.refl _ ph.aged.ok).mono (Nat.zero_le _), by simp⟩, ?_⟩
    intro b hb hm
    obtain ⟨cs', h'⟩ := f4 b hb hm
    cases h'
  | inr cs' =>
    have ct := f2 cs' rfl
    dsimp only at ph ⊢
    have u := updateAll_spec false cs' k1.tab ph.aged.ok ct.ready
    cases e2 : updateAll k1.tab false cs' with
    | mk b r =>
    obtain ⟨cs2, t2⟩ := r
    rw [e2] at u
    dsimp only at u ⊢
    rw [ct.most] at u
    refine ⟨ph.decay, ph.hash, ph.bits, ⟨_, ph.aged, u.1, ?_⟩, ?_⟩
    · intro hb s p
      have := u.2.1 hb s p
      rw [ct.due] at this
      exact this
    · intro b hb hm
      exact u.2.2.2 b (ph.aged.low hb) hm

theorem nobreak_made (k : Kru) (hd : ∀ n, k.decay.mult n < 2 ^ 32) (h : OkTab k.tab) (now : Nat)
    (hn : now < 2 ^ 32) (qs : List (List UInt8 × Nat)) (hq : ∀ q ∈ qs, q.2 < 2 ^ 32) (g : Rng) :
    Made k (multiOrNobreak k now qs g).2.1 now (qs.map fun q => prefetch k now q.1 q.2)
      (multiOrNobreak k now qs g).1 := by
  have f := fetchAll_spec now hn (qs.map fun q => prefetch k now q.1 q.2) k g hd h (by
    intro c hc
    obtain ⟨q, hq', rfl⟩ := List.mem_map.1 hc
    exact ⟨rfl, hq q hq'⟩)
  unfold multiOrNobreak
  generalize (qs.map fun q => prefetch k now q.1 q.2) = cs at *
  cases e : fetchAll k cs g with
  | mk b1 r =>
  obtain ⟨cs', k1, g1⟩ := r
  rw [e] at f
  obtain ⟨ph, ct, f4⟩ := f
  dsimp only at ph ct f4
  cases b1 with
  | true =>
    dsimp only
    refine ⟨ph.decay, ph.hash, ph.bits,
      ⟨_, ph.aged, (Raised.refl _ ph.aged.ok).mono (Nat.zero_le _), by simp⟩, ?_⟩
    intro b hb hm
    exact f4 b hb hm
  | false =>
    dsimp only
    have u := updateAll_spec false cs' k1.tab ph.aged.ok ct.ready
    cases e2 : updateAll k1.tab false cs' with
    | mk b r =>
    obtain ⟨cs2, t2⟩ := r
    rw [e2] at u
    dsimp only at u ⊢
    rw [ct.most] at u
    refine ⟨ph.decay, ph.hash, ph.bits, ⟨_, ph.aged, u.1, ?_⟩, ?_⟩
    · intro hb s p
      have := u.2.1 hb s p
      rw [ct.due] at this
      exact this
    · intro b hb hm
      exact u.2.2.2 b (ph.aged.low hb) hm

theorem getD_ne (l : List Nat) (h : ∀ x ∈ l, x ≠ 0) (i : Nat) (hi : i < l.length) : l.getD i 0 ≠ 0 := by
  rw [List.getD_eq_getElem?_getD, List.getElem?_eq_getElem hi]
  exact h _ (List.getElem_mem hi)

theorem prefixes_made (k : Kru) (hd : ∀ n, k.decay.mult n < 2 ^ 32) (h : OkTab k.tab) (now : Nat)
    (hn : now < 2 ^ 32) (ns : UInt8) (key : List UInt8) (ps : List (Nat × Nat))
    (hq : ∀ p ∈ ps, p.2 < 2 ^ 32) (hz : ∀ p ∈ ps, p.1 ≠ 0) (g : Rng) :
    Made k (multiPrefixOr k now ns key ps g).2.2.1 now (prefetchPrefixes k now ns key ps)
      ((multiPrefixOr k now ns key ps g).1 != 0) := by
  have f := fetchUntil_spec now hn (prefetchPrefixes k now ns key ps) k g hd h (by
    intro c hc
    obtain ⟨q, hq', rfl⟩ := List.mem_map.1 hc
    exact ⟨rfl, hq q hq'⟩)
  have hlen : (prefetchPrefixes k now ns key ps).length = ps.length := by simp [prefetchPrefixes]
  unfold multiPrefixOr
  generalize prefetchPrefixes k now ns key ps = cs at *
  cases e : fetchUntil k cs g with
  | mk r r2 =>
  obtain ⟨k1, g1⟩ := r2
  rw [e] at f
  obtain ⟨ph, f2, f3, f4⟩ := f
  cases r with
  | inl i =>
    have hi := f3 i rfl
    dsimp only at ph f4 ⊢
    have hne : (ps.map (·.1)).getD i 0 ≠ 0 := getD_ne _ (by
      intro x hx; obtain ⟨q, hq', rfl⟩ := List.mem_map.1 hx; exact hz q hq') i (by simp; omega)
    refine ⟨ph.decay, ph.hash, ph.bits,
      ⟨_, ph.aged, (Raised.refl _ ph.aged.ok).mono (Nat.zero_le _), ?_⟩, ?_⟩
    · intro hf; exact absurd (by simpa using hf) hne
    · intro b hb hm
      obtain ⟨cs', h'⟩ := f4 b hb hm
      cases h'
  | inr cs' =>
    have ct := f2 cs' rfl
    dsimp only at ph ⊢
    have u := updateUntil_spec cs'.reverse k1.tab ph.aged.ok (ready_reverse ct.ready)
    rw [most_reverse, ct.most] at u
    cases e2 : updateUntil k1.tab cs'.reverse with
    | mk r t2 =>
    rw [e2] at u
    cases r with
    | inl i =>
      have hi := u.2.2.1 i rfl
      rw [List.length_reverse, ct.length, hlen] at hi
      dsimp only at u ⊢
      have hne : (ps.reverse.map (·.1)).getD i 0 ≠ 0 := getD_ne _ (by
        intro x hx
        obtain ⟨q, hq', rfl⟩ := List.mem_map.1 hx
        exact hz q (by simpa using hq')) i (by simp; omega)
      refine ⟨ph.decay, ph.hash, ph.bits, ⟨_, ph.aged, u.1, ?_⟩, ?_⟩
      · intro hf; exact absurd (by simpa using hf) hne
      · intro b hb hm
        obtain ⟨cs', h'⟩ := u.2.2.2 b (ph.aged.low hb) hm
        cases h'
    | inr cs2 =>
      dsimp only at u ⊢
      refine ⟨ph.decay, ph.hash, ph.bits, ⟨_, ph.aged, u.1, ?_⟩, fun _ _ _ => by simp⟩
      intro _ s p
      have := u.2.1 cs2 rfl s p
      rw [due_reverse, ct.due] at this
      exact this

theorem add_made (k : Kru) (hd : ∀ n, k.decay.mult n < 2 ^ 32) (h : OkTab k.tab) (now : Nat)
    (hn : now < 2 ^ 32) (ns : UInt8) (key : List UInt8) (ps : List (Nat × Nat))
    (hq : ∀ p ∈ ps, p.2 < 2 ^ 32) (g : Rng) :
    Made k (loadMultiPrefixMax k now ns key ps true g).2.1 now (prefetchPrefixes k now ns key ps)
      false := by
  have f := fetchAll_spec now hn (prefetchPrefixes k now ns key ps) k g hd h (by
    intro c hc
    obtain ⟨q, hq', rfl⟩ := List.mem_map.1 hc
    exact ⟨rfl, hq q hq'⟩)
  unfold loadMultiPrefixMax
  simp only [if_true]
  generalize prefetchPrefixes k now ns key ps = cs at *
  cases e : fetchAll k cs g with
  | mk b1 r =>
  obtain ⟨cs', k1, g1⟩ := r
  rw [e] at f
  obtain ⟨ph, ct, f4⟩ := f
  dsimp only at ph ct f4 ⊢
  have u := updateAll_spec true cs'.reverse k1.tab ph.aged.ok (ready_reverse ct.ready)
  rw [most_reverse, ct.most] at u
  cases e2 : updateAll k1.tab true cs'.reverse with
  | mk b r =>
  obtain ⟨cs2, t2⟩ := r
  rw [e2] at u
  dsimp only at u ⊢
  refine ⟨ph.decay, ph.hash, ph.bits, ⟨_, ph.aged, u.1, ?_⟩, fun _ _ _ => rfl⟩
  intro _ s p
  have := u.2.1 (u.2.2.1 rfl) s p
  rw [due_reverse, ct.due] at this
  exact this

theorem sum_zero (cs : List Ctx) (h : ∀ c ∈ cs, c.price = 0) :
    most cs = 0 ∧ ∀ t s p, owedBy t s p cs = 0 := by
  induction cs with
  | nil => exact ⟨rfl, fun _ _ _ => rfl⟩
  | cons c cs ih =>
    have hc := h c (by simp)
    have ih := ih (fun c hc => h c (by simp [hc]))
    refine ⟨?_, ?_⟩
    · show ceil16 c.price + most cs = 0
      rw [ih.1, hc]; rfl
    · intro t s p
      rw [owedBy_cons, ih.2, hc]
      split <;> rfl

theorem peek_made (k : Kru) (hd : ∀ n, k.decay.mult n < 2 ^ 32) (h : OkTab k.tab) (now : Nat)
    (hn : now < 2 ^ 32) (ns : UInt8) (key : List UInt8) (ps : List Nat) (g : Rng) :
    Made k (loadMultiPrefixMax k now ns key (ps.map fun p => (p, 0)) false g).2.1 now
      (prefetchPrefixes k now ns key (ps.map fun p => (p, 0))) false := by
  have e0 : ((ps.map fun p => (p, 0)).map fun p : Nat × Nat => (p.1, 0)) = ps.map fun p => (p, 0) := by
    simp
  have hz : ∀ c ∈ prefetchPrefixes k now ns key (ps.map fun p => (p, 0)), c.price = 0 := by
    intro c hc
    obtain ⟨q, hq', rfl⟩ := List.mem_map.1 hc
    obtain ⟨p, _, rfl⟩ := List.mem_map.1 hq'
    rfl
  have f := fetchAll_spec now hn (prefetchPrefixes k now ns key (ps.map fun p => (p, 0))) k g hd h (by
    intro c hc
    refine ⟨?_, by rw [hz c hc]; decide⟩
    obtain ⟨q, hq', rfl⟩ := List.mem_map.1 hc
    rfl)
  unfold loadMultiPrefixMax
  dsimp only
  simp only [Bool.false_eq_true, if_false, e0]
  generalize prefetchPrefixes k now ns key (ps.map fun p => (p, 0)) = cs at *
  cases e : fetchAll k cs g with
  | mk b1 r =>
  obtain ⟨cs', k1, g1⟩ := r
  rw [e] at f
  obtain ⟨ph, ct, f4⟩ := f
  dsimp only at ph ct f4 ⊢
  refine ⟨ph.decay, ph.hash, ph.bits,
    ⟨_, ph.aged, (Raised.refl _ ph.aged.ok).mono (Nat.zero_le _), ?_⟩, fun _ _ _ => rfl⟩
  intro _ s p
  rw [(sum_zero cs hz).2]
  omega

end Knot.Kru
