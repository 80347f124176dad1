import Verif.Kru.Lemmas5
/-! # Lemmas: histories of calls -/
namespace Knot.Kru

/-- The contexts of a call. -/
def ctxs (k : Kru) (c : Call) : List Ctx := c.asked.map fun q => prefetch k c.now q.1 q.2

theorem run_made (k : Kru) (hk : Valid k) (c : Call) (hc : c.Valid) (g : Rng) :
    Made k (c.run k g).2.1 c.now (ctxs k c) (c.run k g).1 := by
  obtain ⟨ht, hd⟩ := hk
  obtain ⟨hn, hq, hz⟩ := hc
  cases c with
  | multi now qs => exact multiOr_made k hd ht now hn qs hq g
  | nobreak now qs => exact nobreak_made k hd ht now hn qs hq g
  | prefixes now ns key ps =>
    have := prefixes_made k hd ht now hn ns key ps (fun p hp => hq _ (List.mem_map_of_mem hp)) hz g
    unfold ctxs Call.asked
    rw [List.map_map]
    exact this
  | add now ns key ps =>
    have := add_made k hd ht now hn ns key ps (fun p hp => hq _ (List.mem_map_of_mem hp)) g
    unfold ctxs Call.asked
    rw [List.map_map]
    exact this
  | peek now ns key ps =>
    have := peek_made k hd ht now hn ns key ps g
    unfold prefetchPrefixes at this
    rw [List.map_map] at this
    unfold ctxs Call.asked
    rw [List.map_map]
    exact this

theorem most_cost (k : Kru) (c : Call) : most (ctxs k c) = cost c := by
  unfold most ctxs cost
  rw [List.map_map]
  rfl

theorem valid_made {k k' : Kru} {now : Nat} {cs : List Ctx} {b : Bool} (hk : Valid k)
    (h : Made k k' now cs b) : Valid k' := by
  obtain ⟨t, -, hr, -⟩ := h.steps
  exact ⟨hr.ok, by rw [h.decay]; exact hk.2⟩

theorem paid_le (k : Kru) (key : List UInt8) (p : Bool × Nat) (h : Holds k key p) (now : Nat) :
    ∀ qs : List (List UInt8 × Nat),
      ((qs.filter fun q => decide (q.1 = key)).map fun q => floor16 q.2).sum ≤
        owedBy k.tab (spot k key) p (qs.map fun q => prefetch k now q.1 q.2)
  | [] => Nat.le_refl _
  | q :: qs => by
    have ih := paid_le k key p h now qs
    rw [List.map_cons, owedBy_cons, List.filter_cons]
    by_cases e : q.1 = key
    · have hs : (prefetch k now q.1 q.2).spot = spot k key := by rw [e]; rfl
      rw [if_pos (decide_eq_true e), List.map_cons, List.sum_cons, if_pos ⟨hs, by rw [hs]; exact h⟩]
      show floor16 q.2 + _ ≤ floor16 q.2 + _
      omega
    · rw [if_neg (by simpa using e)]
      omega

theorem spot_made {k k' : Kru} {now : Nat} {cs : List Ctx} {b : Bool} (h : Made k k' now cs b)
    (key : List UInt8) : spot k' key = spot k key := by
  unfold spot; rw [h.hash, h.bits]

theorem step_made {k k' : Kru} {now : Nat} {cs : List Ctx} {b : Bool} (h : Made k k' now cs b)
    (key : List UInt8) (p : Bool × Nat) (s : Nat) (hs : s ≤ counter k key p) :
    aged k.decay (clock k key p) (clock k' key p) s ≤ counter k' key p ∧
    (b = false →
      min full (aged k.decay (clock k key p) (clock k' key p) s + owedBy k.tab (spot k key) p cs) ≤
        counter k' key p) := by
  obtain ⟨t, ha, hr, hp⟩ := h.steps
  have ec : clock k' key p = (t.line p.1 ((spot k key).row p.1)).time := by
    unfold clock
    rw [spot_made h]
    exact hr.time _ _
  have e' : counter k' key p = loadAt k'.tab (spot k key) p := by
    unfold counter; rw [spot_made h]
  have l1 : aged k.decay (clock k key p) (clock k' key p) s ≤ loadAt t (spot k key) p := by
    rw [ec]
    exact Nat.le_trans (aged_mono _ _ _ hs) ((ha p.1 ((spot k key).row p.1)).lower p.2)
  rw [e']
  refine ⟨Nat.le_trans l1 (hr.loadAt _ _), fun hb => ?_⟩
  have := hp hb (spot k key) p
  omega

/-- The counter of a key after a call about one key at the time of its line. -/
theorem single_step (key key' : List UInt8) (p : Bool × Nat) (k : Kru) (hk : Valid k) (now price : Nat)
    (hn : now < 2 ^ 32) (hp : price < 2 ^ 32) (g : Rng) (hc : clock k key p = now)
    (hh : Holds k key p) :
    clock ((Call.multi now [(key', price)]).run k g).2.1 key p = now ∧
    counter k key p + (if ((Call.multi now [(key', price)]).run k g).1 then 0
      else paid key (.multi now [(key', price)])) ≤
      counter ((Call.multi now [(key', price)]).run k g).2.1 key p := by
  have hv : (Call.multi now [(key', price)]).Valid := ⟨hn, by simpa [Call.asked] using hp, trivial⟩
  have m := run_made k hk _ hv g
  have st := step_made m key p _ (Nat.le_refl (counter k key p))
  have hcl' : clock ((Call.multi now [(key', price)]).run k g).2.1 key p = now := by
    obtain ⟨t, ha, hr, -⟩ := m.steps
    have : clock ((Call.multi now [(key', price)]).run k g).2.1 key p =
        (t.line p.1 ((spot k key).row p.1)).time := by
      unfold clock
      rw [spot_made m]
      exact hr.time _ _
    rw [this]
    rcases (ha p.1 ((spot k key).row p.1)).time with h | h
    · rw [h]; exact hc
    · rw [h]; rfl
  refine ⟨hcl', ?_⟩
  rw [hc, hcl', aged_same] at st
  split
  · exact st.1
  · rename_i hb
    by_cases e : key' = key
    · subst e
      obtain ⟨t, ha, -, -, -, -, htm, q, -, hq, hl, hlim, -, hch, -⟩ :=
        limited_spec k hk now hn key' price hp g
      have hq' : q = p := by
        unfold Holds at hh
        rw [hh] at hq
        exact hq.symm
      subst hq'
      have hrun : (Call.multi now [(key', price)]).run k g = limited k now key' price g := rfl
      rw [hrun] at hb ⊢
      have hch := hch (by simpa using hb)
      have lo := (ha q.1 ((spot k key').row q.1)).lower q.2
      have ht : (t.line q.1 ((spot k key').row q.1)).time = now := by
        rcases (ha q.1 ((spot k key').row q.1)).time with h | h
        · rw [h]; exact hc
        · rw [h]
      have hc' : (k.tab.line q.1 ((spot k key').row q.1)).time = now := hc
      rw [ht, hc', aged_same] at lo
      have lo' : counter k key' q ≤ loadAt t (spot k key') q := lo
      have hs : spot (limited k now key' price g).2.1 key' = spot k key' := spot_made m key'
      have e2 : counter (limited k now key' price g).2.1 key' q =
          loadAt (limited k now key' price g).2.1.tab (spot k key') q := by
        unfold counter; rw [hs]
      have := le_rounded price (rand16 g)
      have e3 : paid key' (.multi now [(key', price)]) = floor16 price := by
        simp [paid, Call.asked]
      omega
    · have e3 : paid key (.multi now [(key', price)]) = 0 := by
        simp [paid, Call.asked, e]
      rw [e3]
      exact st.1

end Knot.Kru
