import Verif.Kru.Lemmas3
/-! # Lemmas: a call about one key -/
namespace Knot.Kru

theorem charge_exact (t : Tab) (h : OkTab t) (c : Ctx) (hc : Priced c) (p : Bool × Nat)
    (hp : p.2 < 15) :
    ((charge t c p false).1 = true ↔ 65536 ≤ loadAt t c.spot p + ceil16 c.price) ∧
    ((charge t c p false).1 = true → loadAt (charge t c p false).2.2 c.spot p = loadAt t c.spot p) ∧
    ((charge t c p false).1 = false →
      loadAt (charge t c p false).2.2 c.spot p = loadAt t c.spot p + c.price16) ∧
    (∀ q, q ≠ p → loadAt (charge t c p false).2.2 c.spot q = loadAt t c.spot q) := by
  have s := charge_spec t h c hc p false
  refine ⟨by simpa using s.2.1, fun e => by rw [s.2.2.2.2.2 e], ?_, ?_⟩
  · intro e
    have hle : loadAt t c.spot p ≤ full := getD_le _ (h _ _).2.2.2 _
    have hcl : ceil16 c.price ≤ 65536 := by have := hc.small; unfold ceil16; omega
    have hlt : ¬ 65536 ≤ loadAt t c.spot p + ceil16 c.price := fun hx => by
      rw [s.2.1.2 ⟨rfl, hx⟩] at e; cases e
    have hfl : floor16 c.price ≤ ceil16 c.price := by unfold ceil16 floor16; omega
    have hlim := hc.limit
    have at_ : ∀ v, loadAt (setLoad t c.spot p v) c.spot p = v := by
      intro v
      unfold loadAt
      rw [(setLoad_line t c.spot p v p.1 (c.spot.row p.1) p.2).2.2, if_pos]
      exact ⟨rfl, rfl, rfl, by rw [(h _ _).2.1]; exact hp⟩
    have hpr : c.price16 = floor16 c.price ∨ c.price16 = ceil16 c.price := by
      rcases hc.price with e | e <;> rw [e]
      · exact .inl rfl
      · rw [Nat.mod_eq_of_lt (by unfold full at hle; omega)]; exact .inr rfl
    unfold charge
    dsimp only
    rw [if_neg (by omega)]
    dsimp only
    rw [at_, Nat.mod_eq_of_lt (by rcases hpr with e | e <;> omega)]
  · intro q hq
    have aux : ∀ v, loadAt (setLoad t c.spot p v) c.spot q = loadAt t c.spot q := by
      intro v
      unfold loadAt
      rw [(setLoad_line t c.spot p v q.1 (c.spot.row q.1) q.2).2.2, if_neg]
      rintro ⟨e1, -, e3, -⟩
      exact hq (Prod.ext e1 e3.symm)
    unfold charge
    dsimp only
    split
    · simp
    · exact aux _

theorem rounded_le (price rnd : Nat) : rounded price rnd ≤ ceil16 price := by
  unfold rounded ceil16 floor16
  split <;> omega

theorem le_rounded (price rnd : Nat) : floor16 price ≤ rounded price rnd := by
  unfold rounded
  omega

theorem findIdx_set (l : List Nat) (i id : Nat) (hi : i < l.length)
    (h : l.findIdx? (· = id) = none) : (l.set i id).findIdx? (· = id) = some i := by
  rw [List.findIdx?_eq_none_iff] at h
  rw [List.findIdx?_eq_some_iff_getElem]
  refine ⟨by simpa using hi, by simp, ?_⟩
  intro j hj
  rw [List.getElem_set_ne (by omega)]
  have := h l[j] (List.getElem_mem _)
  simpa using this

theorem locate_setId (t : Tab) (h : OkTab t) (s : Spot) (p : Bool × Nat) (hp : p.2 < 15)
    (hn : locate t s = none) : locate (setId t s p) s = some p := by
  have h0 : (t.line false s.r0).ids.findIdx? (· = s.id) = none := by
    cases e : (t.line false s.r0).ids.findIdx? (· = s.id) with
    | none => rfl
    | some i => simp [locate, e] at hn
  have h1 : (t.line true s.r1).ids.findIdx? (· = s.id) = none := by
    cases e : (t.line true s.r1).ids.findIdx? (· = s.id) with
    | none => rfl
    | some i => simp [locate, h0, e] at hn
  obtain ⟨li, i⟩ := p
  dsimp only at hp
  cases li
  · have e : ((setId t s (false, i)).line false s.r0).ids = (t.line false s.r0).ids.set i s.id := by
      simp [setId, put_line, Spot.row]
    unfold locate
    rw [e, findIdx_set _ _ _ (by rw [(h _ _).1]; exact hp) h0]
  · have e : ((setId t s (true, i)).line true s.r1).ids = (t.line true s.r1).ids.set i s.id := by
      simp [setId, put_line, Spot.row]
    have e' : ((setId t s (true, i)).line false s.r0) = (t.line false s.r0) := by
      simp [setId, put_line]
    unfold locate
    rw [e', h0]
    dsimp only
    rw [e, findIdx_set _ _ _ (by rw [(h _ _).1]; exact hp) h1]

theorem setId_ok (t : Tab) (h : OkTab t) (s : Spot) (p : Bool × Nat) : OkTab (setId t s p) :=
  (setId_raised t h s p).ok

/-- A call about one key. -/
theorem limited_spec (k : Kru) (hk : Valid k) (now : Nat) (hn : now < 2 ^ 32) (key : List UInt8)
    (price : Nat) (hp : price < 2 ^ 32) (g : Rng) :
    ∃ t, Aged k.decay now k.tab t ∧
      (∀ li, (t.line li ((spot k key).row li)).time =
        if ticks now (k.tab.line li ((spot k key).row li)).time > 2 ^ 32 - 1024
        then (k.tab.line li ((spot k key).row li)).time else now) ∧
      (limited k now key price g).2.1.hash = k.hash ∧ (limited k now key price g).2.1.bits = k.bits ∧
      (limited k now key price g).2.1.decay = k.decay ∧
      (∀ li row, ((limited k now key price g).2.1.tab.line li row).time = (t.line li row).time) ∧
      ∃ p : Bool × Nat, p.2 < 15 ∧
        (locate k.tab (spot k key)).getD (minPlace t (spot k key)) = p ∧
        locate (limited k now key price g).2.1.tab (spot k key) = some p ∧
        ((limited k now key price g).1 = true ↔
          65536 ≤ loadAt t (spot k key) p + ceil16 price) ∧
        ((limited k now key price g).1 = true →
          loadAt (limited k now key price g).2.1.tab (spot k key) p = loadAt t (spot k key) p) ∧
        ((limited k now key price g).1 = false →
          loadAt (limited k now key price g).2.1.tab (spot k key) p =
            loadAt t (spot k key) p + rounded price (rand16 g)) ∧
        (∀ q, q ≠ p → loadAt (limited k now key price g).2.1.tab (spot k key) q =
          loadAt t (spot k key) q) := by
  have f := fetch_spec k hk.2 hk.1 (prefetch k now key price) hn hp g
  cases e : fetch k (prefetch k now key price) g with
  | mk b r =>
  obtain ⟨c1, k1, g1⟩ := r
  rw [e] at f
  obtain ⟨fd, fb, -⟩ := f
  dsimp only at fd fb
  have es : (prefetch k now key price).spot = spot k key := rfl
  have ep : (prefetch k now key price).price = price := rfl
  have en : (prefetch k now key price).now = now := rfl
  have ea := fd.aged
  have et := fd.time
  have el := fd.load
  have e1 := fd.spot
  have e2 := fd.price
  rw [es] at fb et el e1
  rw [ep] at fb e2
  rw [en] at ea et
  have hl := Aged.locate ea (spot k key)
  have e5 := fd.price16
  rw [ep] at e5
  have hr : ∀ {b : Bool} {x y : Nat}, (b = true ↔ 65536 ≤ x + ceil16 price) → b = false →
      y = x + c1.price16 → y = x + rounded price (rand16 g) := by
    intro b x y h1 h2 h3
    subst h2
    have h4 : ¬ 65536 ≤ x + ceil16 price := fun h => by cases h1.2 h
    have h5 := rounded_le price (rand16 g)
    rw [h3, e5, Nat.mod_eq_of_lt (by omega)]
  refine ⟨k1.tab, ea, et, ?_⟩
  cases b with
  | true =>
    have e3 : limited k now key price g = (true, k1, g1) := by
      simp only [limited, multiOr, List.map_cons, List.map_nil, fetchUntil, e]
    rw [e3]
    obtain ⟨p, hp1, hp2⟩ := fb.1 rfl
    refine ⟨fd.hash, fd.bits, fd.decay, fun _ _ => rfl, p, locate_lt _ hk.1 _ _ hp1, by rw [hp1]; rfl,
      by rw [hl]; exact hp1, ⟨fun _ => hp2, fun _ => rfl⟩, fun _ => rfl, by simp, fun _ _ => rfl⟩
  | false =>
    have e3 : limited k now key price g =
        ((update k1.tab c1 false).1, { k1 with tab := (update k1.tab c1 false).2.2 }, g1) := by
      simp only [limited, multiOr, List.map_cons, List.map_nil, fetchUntil, e, updateAll,
        Bool.or_false]
    rw [e3]
    dsimp only
    cases e4 : locate k.tab (spot k key) with
    | some p =>
      have hp15 := locate_lt _ hk.1 _ _ e4
      have hu : update k1.tab c1 false = charge k1.tab c1 p false := by
        unfold update; rw [el, e4]
      have s := charge_exact k1.tab ea.ok c1 fd.priced p hp15
      have s' := charge_spec k1.tab ea.ok c1 fd.priced p false
      rw [hu]
      rw [e1, e2] at s
      refine ⟨fd.hash, fd.bits, fd.decay, s'.1.time, p, hp15, rfl, ?_, s.1, s.2.1,
        fun hf => hr s.1 hf (s.2.2.1 hf), s.2.2.2⟩
      rw [locate_ids k1.tab _ _ s'.2.2.2.2.1, hl]
      exact e4
    | none =>
      have hm := (minPlace_spec k1.tab (spot k key)).1
      have hok := setId_ok k1.tab ea.ok (spot k key) (minPlace k1.tab (spot k key))
      have hu : update k1.tab c1 false = charge (setId k1.tab (spot k key)
          (minPlace k1.tab (spot k key))) c1 (minPlace k1.tab (spot k key)) false := by
        unfold update; rw [el, e4, e1]
      have s := charge_exact _ hok c1 fd.priced _ hm
      have s' := charge_spec _ hok c1 fd.priced (minPlace k1.tab (spot k key)) false
      rw [hu]
      simp only [e1, e2, loadAt_setId] at s
      refine ⟨fd.hash, fd.bits, fd.decay, ?_, _, hm, rfl, ?_, s.1, s.2.1,
        fun hf => hr s.1 hf (s.2.2.1 hf), s.2.2.2⟩
      · intro li row
        rw [s'.1.time, (setId_raised k1.tab ea.ok _ _).time]
      · rw [locate_ids _ _ _ s'.2.2.2.2.1]
        exact locate_setId _ ea.ok _ _ hm (by rw [hl]; exact e4)

end Knot.Kru
