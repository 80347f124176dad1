import Verif.Kru.Lemmas7
/-!
# C31: rate limiting counters
-/
namespace Knot
open Kru

namespace Kru

/-- Nearly half of a counter is left after a tick. -/
def halving : Decay := ⟨16, fun n => (2 ^ 32 - 1) / 2 ^ n⟩

/-- Two rows: the first octet of a key is its identifier and the second its rows. -/
def smallTab (l0 l1 l : Line) : Kru :=
  ⟨fun key => 4 * (key.getD 0 0).toNat + 3 * (key.getD 1 0).toNat, halving, 1,
   ⟨fun li row => if row = 0 then (if li then l1 else l0) else l⟩⟩

/-- An entry with a given identifier and counter, the other entries full. -/
def busy (id load : Nat) : Line := ⟨0, (List.range 15).map fun i => if i = 3 then id else 200 + i,
  (List.range 15).map fun i => if i = 3 then load else 65535⟩

theorem busy_ok (id load : Nat) (h : load ≤ 65535) : OkLine (busy id load) := by
  refine ⟨rfl, rfl, Nat.two_pow_pos 32, ?_⟩
  intro x hx
  obtain ⟨i, -, rfl⟩ := List.mem_map.1 hx
  unfold full
  split <;> omega

theorem smallTab_valid (a b c : Line) (ha : OkLine a) (hb : OkLine b) (hc : OkLine c) :
    Valid (smallTab a b c) := by
  refine ⟨fun li row => ?_, fun n => ?_⟩
  · show OkLine (if row = 0 then (if li then b else a) else c)
    split
    · split <;> assumption
    · exact hc
  · have : 1 ≤ 2 ^ n := Nat.one_le_two_pow
    show (2 ^ 32 - 1) / 2 ^ n < 2 ^ 32
    exact Nat.lt_of_le_of_lt (Nat.div_le_self _ _) (by decide)

/-- The table of the examples. -/
def sample : Kru := smallTab (busy 7 1000) (busy 9 1001) (busy 9 0)

theorem sample_valid : Valid sample :=
  smallTab_valid _ _ _ (busy_ok _ _ (by decide)) (busy_ok _ _ (by decide)) (busy_ok _ _ (by decide))

end Kru


/-! ## Memory -/

/-- C31: the lines of every key lie in the memory allocated for the table. -/
theorem C31_memory (header : Nat) (cap : Int) (size hash : Nat) (h : getSize header cap = .ok size)
    (li : Bool) :
    header + 64 * (2 * (spotOf (capacity2loads cap) hash).row li + (if li then 1 else 0)) + 64 ≤ size ∧
    (spotOf (capacity2loads cap) hash).id < 65536 := by
  unfold getSize at h
  split at h
  · cases h
  · injection h with h
    have hp : 0 < 2 ^ capacity2loads cap := Nat.pow_pos (by decide)
    have h0 : hash % 2 ^ capacity2loads cap < 2 ^ capacity2loads cap := Nat.mod_lt _ hp
    have h1 : hash / 2 ^ capacity2loads cap % 2 ^ capacity2loads cap < 2 ^ capacity2loads cap :=
      Nat.mod_lt _ hp
    subst h
    unfold spotOf Spot.row
    generalize 2 ^ capacity2loads cap = n at *
    refine ⟨?_, Nat.mod_lt _ (by decide)⟩
    cases li <;> dsimp only <;> simp <;> omega

example : getSize 192 19 = .ok (192 + 64 * 2 * 2 ^ 15) := rfl

/-- C31: whatever is called, the table stays within its types: no counter leaves sixteen bits. -/
theorem C31_valid (k : Kru) (g : Rng) (hk : Valid k) : ∀ (cs : List Call), (∀ c ∈ cs, c.Valid) →
    Valid (runAll k g cs).1
  | [], _ => hk
  | c :: cs, h => by
    have m := run_made k hk c (h c (by simp)) g
    exact C31_valid _ _ (valid_made hk m) cs (fun c hc => h c (by simp [hc]))

/-! ## Counters are never too low -/

/-- C31: while a key holds its counter, the counter is not lower than the aged sum of what the calls
that were not limited paid for the key, whatever other keys are asked about in between, for every
hash, every speed of ageing and all random numbers. Amounts are rounded down to the units of the
counters; that makes the aged sum smaller than the exact one (see `C31_rounding`). -/
theorem C31_tally_partial (key : List UInt8) (p : Bool × Nat) : ∀ (cs : List Call) (k : Kru) (g : Rng) (s : Nat),
    Valid k → (∀ c ∈ cs, c.Valid) → s ≤ counter k key p → Stays key p k g cs →
    owed key p k g cs s ≤ counter (runAll k g cs).1 key p
  | [], _, _, _, _, _, hs, _ => hs
  | c :: cs, k, g, s, hk, hv, hs, hst => by
    have m := run_made k hk c (hv c (by simp)) g
    have st := step_made m key p s hs
    have pl := paid_le k key p hst.1 c.now c.asked
    refine C31_tally_partial key p cs _ _ _ (valid_made hk m) (fun c hc => hv c (by simp [hc])) ?_ hst.2
    split
    · exact st.1
    · rename_i hb
      have := st.2 (by simpa using hb)
      have e : owedBy k.tab (spot k key) p (ctxs k c) =
          owedBy k.tab (spot k key) p (c.asked.map fun q => prefetch k c.now q.1 q.2) := rfl
      rw [e] at this
      unfold paid
      omega

/-- C31: and so that sum never exceeds what a counter holds. -/
theorem C31_bound (key : List UInt8) (p : Bool × Nat) (cs : List Call) (k : Kru) (g : Rng) (s : Nat)
    (hk : Valid k) (hv : ∀ c ∈ cs, c.Valid) (hs : s ≤ counter k key p) (hst : Stays key p k g cs) :
    owed key p k g cs s ≤ 65535 := by
  refine Nat.le_trans (C31_tally_partial key p cs k g s hk hv hs hst) ?_
  exact getD_le _ ((C31_valid k g hk cs hv).1 _ _).2.2.2 _

/-- C31: the counter exceeds what is paid for its key by calls at the time of its line, calls about
one key each, whatever other keys they ask about. So what is admitted at one time is bounded by the
capacity of a counter, and never wraps. -/
theorem C31_tick (key : List UInt8) (p : Bool × Nat) (now : Nat) (hn : now < 2 ^ 32) :
    ∀ (qs : List (List UInt8 × Nat)) (k : Kru) (g : Rng), Valid k → (∀ q ∈ qs, q.2 < 2 ^ 32) →
    clock k key p = now → Stays key p k g (qs.map fun q => .multi now [q]) →
    counter k key p + admitted key k g (qs.map fun q => .multi now [q]) ≤
      counter (runAll k g (qs.map fun q => .multi now [q])).1 key p ∧
    counter (runAll k g (qs.map fun q => .multi now [q])).1 key p ≤ 65535
  | [], k, g, hk, _, _, _ => ⟨Nat.le_refl _, getD_le _ (hk.1 _ _).2.2.2 _⟩
  | q :: qs, k, g, hk, hq, hc, hst => by
    have h1 := single_step key q.1 p k hk now q.2 hn (hq q (by simp)) g hc hst.1
    have hv : (Call.multi now [q]).Valid :=
      ⟨hn, by simpa [Call.asked] using hq q (by simp), trivial⟩
    have ih := C31_tick key p now hn qs _ ((Call.multi now [q]).run k g).2.2
      (valid_made hk (run_made k hk _ hv g)) (fun x hx => hq x (by simp [hx])) h1.1 hst.2
    refine ⟨?_, ih.2⟩
    have e : admitted key k g ((q :: qs).map fun q => .multi now [q]) =
      (if ((Call.multi now [q]).run k g).1 then 0 else paid key (.multi now [q])) +
        admitted key ((Call.multi now [q]).run k g).2.1 ((Call.multi now [q]).run k g).2.2
          (qs.map fun q => .multi now [q]) := rfl
    rw [e, ← Nat.add_assoc]
    exact Nat.le_trans (Nat.add_le_add_right h1.2 _) ih.1

/-- The hypotheses are met: key 7 pays three units twice with half of the counter aged away between, key 9 is asked
about as well. -/
example : Stays [7] (false, 3) sample (fun _ => 0) [.multi 0 [([7], 196608)], .multi 1 [([9], 65536), ([7], 196609)]] ∧
    (answers sample (fun _ => 0) [.multi 0 [([7], 196608)], .multi 1 [([9], 65536), ([7], 196609)]]) = [false, false] ∧
    owed [7] (false, 3) sample (fun _ => 0) [.multi 0 [([7], 196608)], .multi 1 [([9], 65536), ([7], 196609)]] 1000 = 504 ∧
    counter (runAll sample (fun _ => 0) [.multi 0 [([7], 196608)], .multi 1 [([9], 65536), ([7], 196609)]]).1
      [7] (false, 3) = 506 := by
  refine ⟨⟨?_, ?_, trivial⟩, ?_, ?_, ?_⟩
  · unfold Holds; decide +kernel
  · unfold Holds; decide +kernel
  · decide +kernel
  · decide +kernel
  · decide +kernel

/-- The hypotheses are met. -/
example : clock sample [7] (false, 3) = 0 ∧ counter sample [7] (false, 3) = 1000 ∧
    Stays [7] (false, 3) sample (fun _ => 0)
      ([([7], 65536 * 60000), ([8], 65536), ([7], 65536 * 5000)].map fun q => .multi 0 [q]) ∧
    admitted [7] sample (fun _ => 0)
      ([([7], 65536 * 60000), ([8], 65536), ([7], 65536 * 5000)].map fun q => .multi 0 [q]) = 60000 := by
  refine ⟨?_, ?_, ⟨?_, ?_, ?_, trivial⟩, ?_⟩
  · decide +kernel
  · decide +kernel
  · unfold Holds; decide +kernel
  · unfold Holds; decide +kernel
  · unfold Holds; decide +kernel
  · decide +kernel

/-! ## One key -/

/-- C31: a call about a key that has a counter. With `x` the aged counter, the call is limited exactly
if the price rounded up does not fit above `x`. Otherwise the rounded price is added. The comparison
and the addition do not overflow. -/
theorem C31_known (k : Kru) (hk : Valid k) (now : Nat) (hn : now < 2 ^ 32) (key : List UInt8)
    (price : Nat) (hp : price < 2 ^ 32) (g : Rng) (p : Bool × Nat) (hh : Holds k key p) :
    Holds (limited k now key price g).2.1 key p ∧
    clock (limited k now key price g).2.1 key p = ticked (clock k key p) now ∧
    ∃ x, aged k.decay (clock k key p) (ticked (clock k key p) now) (counter k key p) ≤ x ∧
      x ≤ aged k.decay (clock k key p) (ticked (clock k key p) now) (counter k key p) + 1 ∧
      x ≤ counter k key p ∧
      ((limited k now key price g).1 = true ↔ 65535 < x + ceil16 price) ∧
      counter (limited k now key price g).2.1 key p =
        if (limited k now key price g).1 then x else x + rounded price (rand16 g) := by
  obtain ⟨t, ha, ht, e1, e2, -, htm, q, -, hq, hl, hlim, hno, hch, -⟩ :=
    limited_spec k hk now hn key price hp g
  have hq' : q = p := by
    unfold Holds at hh
    rw [hh] at hq
    exact hq.symm
  subst hq'
  have hs : spot (limited k now key price g).2.1 key = spot k key := by
    unfold spot; rw [e1, e2]
  have et : (t.line q.1 ((spot k key).row q.1)).time = ticked (clock k key q) now := ht q.1
  have la := ha q.1 ((spot k key).row q.1)
  have lo := la.lower q.2
  have nr := la.near q.2
  rw [et] at lo nr
  refine ⟨by unfold Holds; rw [hs]; exact hl, ?_, loadAt t (spot k key) q, lo, nr, la.upper q.2, hlim, ?_⟩
  · unfold clock
    rw [hs, htm]
    exact et
  · unfold counter
    rw [hs]
    split
    · rename_i h; exact hno h
    · rename_i h; exact hch (by simpa using h)

/-- C31: a call about a key without a counter: it gets the smallest counter of its two lines, and
that counter decides as if it had been the one of the key. -/
theorem C31_entry (k : Kru) (hk : Valid k) (now : Nat) (hn : now < 2 ^ 32) (key : List UInt8)
    (price : Nat) (hp : price < 2 ^ 32) (g : Rng) (hh : ∀ p, ¬ Holds k key p) :
    ∃ p : Bool × Nat, p.2 < 15 ∧ Holds (limited k now key price g).2.1 key p ∧
    ∃ x, aged k.decay (clock k key p) (ticked (clock k key p) now) (counter k key p) ≤ x ∧
      x ≤ aged k.decay (clock k key p) (ticked (clock k key p) now) (counter k key p) + 1 ∧
      (∀ q : Bool × Nat, q.2 < 15 → q ≠ p → x ≤ counter (limited k now key price g).2.1 key q) ∧
      ((limited k now key price g).1 = true ↔ 65535 < x + ceil16 price) ∧
      counter (limited k now key price g).2.1 key p =
        if (limited k now key price g).1 then x else x + rounded price (rand16 g) := by
  obtain ⟨t, ha, ht, e1, e2, -, htm, q, hq15, hq, hl, hlim, hno, hch, hoth⟩ :=
    limited_spec k hk now hn key price hp g
  have hnone : locate k.tab (spot k key) = none := by
    cases e : locate k.tab (spot k key) with
    | none => rfl
    | some p => exact absurd e (hh p)
  rw [hnone] at hq
  have hq : minPlace t (spot k key) = q := hq
  have hs : spot (limited k now key price g).2.1 key = spot k key := by
    unfold spot; rw [e1, e2]
  have et : (t.line q.1 ((spot k key).row q.1)).time = ticked (clock k key q) now := ht q.1
  have la := ha q.1 ((spot k key).row q.1)
  have lo := la.lower q.2
  have nr := la.near q.2
  rw [et] at lo nr
  refine ⟨q, hq15, by unfold Holds; rw [hs]; exact hl, loadAt t (spot k key) q, lo, nr, ?_, hlim, ?_⟩
  · intro r hr hrq
    unfold counter
    rw [hs, hoth r hrq, ← hq]
    exact (minPlace_spec t (spot k key)).2 r hr
  · unfold counter
    rw [hs]
    split
    · rename_i h; exact hno h
    · rename_i h; exact hch (by simpa using h)

/-- Both cases occur. -/
example : Holds sample [7] (false, 3) ∧ (∀ p, ¬ Holds sample [8] p) := by
  refine ⟨by unfold Holds; decide +kernel, fun p h => ?_⟩
  have : locate sample.tab (spot sample [8]) = none := by decide +kernel
  unfold Holds at h
  rw [this] at h
  cases h

/-! ## Nobody is limited too early -/

/-- C31: as long as the prices of all calls together, rounded up, fit a counter above everything in
the table, no call is limited: also when keys share counters or replace each other. -/
theorem C31_quiet : ∀ (cs : List Call) (k : Kru) (g : Rng) (b : Nat), Valid k → (∀ c ∈ cs, c.Valid) →
    (∀ li row (i : Nat), (k.tab.line li row).loads.getD i 0 ≤ b) →
    b + (cs.map cost).sum ≤ 65535 → ∀ x ∈ answers k g cs, x = false
  | [], _, _, _, _, _, _, _ => by simp [answers]
  | c :: cs, k, g, b, hk, hv, h2, h3 => by
    have m := run_made k hk c (hv c (by simp)) g
    rw [List.map_cons, List.sum_cons] at h3
    have hq := m.quiet b h2 (by rw [most_cost]; unfold full; omega)
    have h2' : ∀ li row (i : Nat), ((c.run k g).2.1.tab.line li row).loads.getD i 0 ≤ b + cost c := by
      obtain ⟨t, ha, hr, -⟩ := m.steps
      have := hr.upper b (fun li row i => Nat.le_trans ((ha li row).upper i) (h2 li row i))
      rw [most_cost] at this
      exact this
    have ih := C31_quiet cs _ (c.run k g).2.2 (b + cost c) (valid_made hk m)
      (fun c hc => hv c (by simp [hc])) h2' (by omega)
    intro x hx
    rcases List.mem_cons.1 hx with rfl | hx
    · exact hq
    · exact ih x hx

/-- In an empty table the counters allow the calls of the example. -/
example : (∀ li row (i : Nat), (emptyTab.line li row).loads.getD i 0 ≤ 0) ∧
    0 + (([.multi 0 [([7], 65536 * 60000)], .peek 5 0 [1, 2] [8], .add 9 0 [1, 2] [(8, 65537), (16, 1)]] :
      List Call).map cost).sum ≤ 65535 := by
  refine ⟨?_, by decide⟩
  intro li row i
  show (List.replicate 15 0).getD i 0 ≤ 0
  simp only [List.getD_eq_getElem?_getD, List.getElem?_replicate]
  split <;> exact Nat.le_refl _

/-! ## Rounding -/

/-- C31: the price charged is rounded fairly: over all random numbers the mean is the price. -/
theorem C31_fair_price (k : Kru) (hk : Valid k) (now : Nat) (hn : now < 2 ^ 32) (key : List UInt8)
    (price : Nat) (hp : price < 2 ^ 32) (g : Rng) (p : Bool × Nat) (hh : Holds k key p)
    (hc : clock k key p = now) (hfit : counter k key p + ceil16 price ≤ 65535) :
    sumBelow (fun r => counter (limited k now key price (fun n => if n = 0 then r else g n)).2.1 key p)
      65536 = 65536 * counter k key p + price := by
  have hx : ∀ r, r < 65536 →
      counter (limited k now key price (fun n => if n = 0 then r else g n)).2.1 key p =
        (counter k key p + price / 65536) + (if r < price % 65536 then 1 else 0) := by
    intro r hr
    obtain ⟨-, -, x, lo, hi, up, hlim, hct⟩ :=
      C31_known k hk now hn key price hp (fun n => if n = 0 then r else g n) p hh
    have htk : ticked (clock k key p) now = now := by
      unfold ticked; rw [hc, ite_self]
    rw [htk, hc, aged_same] at lo hi
    have hx : x = counter k key p := by omega
    subst hx
    rw [if_neg (by rw [hlim]; omega)] at hct
    rw [hct]
    have : rand16 (fun n => if n = 0 then r else g n) = r := by
      unfold rand16
      simp only [if_true]
      exact Nat.mod_eq_of_lt hr
    rw [this]
    unfold rounded floor16
    omega
  rw [sumBelow_congr _ _ _ hx, sumBelow_step]
  omega

/-- C31: a counter is aged fairly: over all random numbers the mean is the aged counter, rounded to
the precision of a price. -/
theorem C31_fair_decay (mult load : Nat) (hm : mult < 2 ^ 32) (hl : load ≤ 65535) :
    sumBelow (fun r => decayLoad mult r load) 65536 = (65536 * (load * mult) + 2 ^ 31) / 2 ^ 32 := by
  have hx : load * mult ≤ 65535 * 4294967295 := Nat.mul_le_mul hl (by omega)
  have e : 2 ^ 16 * load * mult = 65536 * (load * mult) := by
    rw [Nat.mul_assoc]
  have : ∀ r, r < 65536 → decayLoad mult r load =
      (65536 * (load * mult) + 2 ^ 31) / 2 ^ 32 / 65536 +
        (if r < (65536 * (load * mult) + 2 ^ 31) / 2 ^ 32 % 65536 then 1 else 0) := by
    intro r hr
    unfold decayLoad
    rw [e]
    generalize load * mult = X at *
    dsimp only
    have e1 : 65536 * X % 2 ^ 64 = 65536 * X := Nat.mod_eq_of_lt (by omega)
    rw [e1]
    have e2 : (65536 * X / 2 ^ 32 + 65536 * X / 2 ^ 31 % 2) % 2 ^ 64 = (65536 * X + 2 ^ 31) / 2 ^ 32 := by
      omega
    rw [e2]
    have e3 : (2 : Nat) ^ 16 = 65536 := rfl
    rw [e3]
    apply Nat.mod_eq_of_lt
    split <;> omega
  rw [sumBelow_congr _ _ _ this, sumBelow_step]
  omega

/-! ## Prefixes -/

/-- C31: two prefixes are counted together exactly if they belong to the same family, have the same
length and the same bits (up to collisions of the hash). -/
theorem C31_prefix (ns ns' : UInt8) (a b : List UInt8) (n m : Nat) (hn : n < 256) (hm : m < 256)
    (ha : n ≤ 8 * a.length) (hb : m ≤ 8 * b.length) :
    prefixInput ns a n = prefixInput ns' b m ↔
      ns = ns' ∧ n = m ∧ ∀ j, j < n → bitOf a j = bitOf b j := by
  constructor
  · intro h
    unfold prefixInput at h
    simp only [List.cons_append, List.nil_append, List.cons.injEq] at h
    obtain ⟨h1, h2, h3⟩ := h
    have h2 : n = m := by
      have := congrArg UInt8.toNat h2
      simpa [UInt8.toNat_ofNat', Nat.mod_eq_of_lt, hn, hm] using this
    subst h2
    have := List.append_inj h3 (by simp; omega)
    refine ⟨h1, rfl, fun j hj => ?_⟩
    by_cases hj8 : j < 8 * (n / 8)
    · exact (take_eq a b (n / 8) (by omega) (by omega)).1 this.1 j hj8
    · exact (prefix_tail a b n).1 this.2 j (by omega) hj
  · rintro ⟨rfl, rfl, h⟩
    unfold prefixInput
    rw [(take_eq a b (n / 8) (by omega) (by omega)).2 (fun j hj => h j (by omega)),
      (prefix_tail a b n).2 (fun j _ hj => h j hj)]

example : prefixInput 0 [192, 0, 2, 1] 24 = prefixInput 0 [192, 0, 2, 77] 24 := by decide
example : prefixInput 0 [192, 0, 2, 1] 18 ≠ prefixInput 0 [192, 0, 65, 1] 18 := by decide

/-! ## The module -/

/-- C31: creating the table neither fails an assertion nor is refused exactly if all limits are
positive, the table is small enough and the rate is low enough. The configuration checks the rate but
accepts sizes up to 2147483647. -/
theorem C31_create (decayOf : Nat → Decay) (hash : List UInt8 → Nat) (header now size instant rate : Nat)
    (rw : Bool) (logPeriod : Nat) :
    (∃ r, create decayOf hash header now size instant rate rw logPeriod = .ok (some r)) ↔
      0 < size ∧ 0 < instant ∧ 0 < rate ∧ rate ≤ 1000 * instant ∧ size ≤ 2 ^ 28 := by
  have hcap : ∀ n : Nat, 2 ≤ n → (64 < 2 * capacity2loads (capacityLog (n - 1) 1) + 16 ↔ 2 ^ 28 < n) := by
    intro n hn
    rw [capacityLog_eq]
    have hlt : (n - 1).log2 < 28 ↔ n - 1 < 2 ^ 28 := Nat.log2_lt (by omega)
    unfold capacity2loads
    split
    · constructor
      · intro h
        have : ¬ (n - 1).log2 < 28 := by omega
        rw [hlt] at this
        omega
      · intro h
        have : ¬ (n - 1).log2 < 28 := by rw [hlt]; omega
        omega
    · constructor
      · intro h; omega
      · intro h
        have : ¬ (n - 1).log2 < 28 := by rw [hlt]; omega
        omega
  have hcap : ∀ n : Nat, 0 < n → (64 < 2 * capacity2loads (capacityLog (n - 1) 1) + 16 ↔ 2 ^ 28 < n) := by
    intro n hn
    by_cases h2 : 2 ≤ n
    · exact hcap n h2
    · have : n = 1 := by omega
      subst this
      simp [capacityLog_eq, capacity2loads]
  unfold create
  split
  · constructor
    · rintro ⟨r, h⟩; cases h
    · intro h; omega
  · rename_i h0
    dsimp only
    unfold getSize
    have := hcap size (by omega)
    by_cases hs : 2 ^ 28 < size
    · rw [if_pos (this.2 hs)]
      constructor
      · rintro ⟨r, h⟩; cases h
      · intro h; omega
    · rw [if_neg (fun h => hs (this.1 h))]
      dsimp only
      split
      · constructor
        · rintro ⟨r, h⟩; cases h
        · intro h; omega
      · exact ⟨fun _ => by omega, fun _ => ⟨_, rfl⟩⟩

/-- C31: the table has room for the configured number of networks and is at most twice as large,
counting sixteen of the thirty counters of a pair of lines, except that it has at least two pairs. -/
theorem C31_capacity (decayOf : Nat → Decay) (hash : List UInt8 → Nat) (header now size instant rate : Nat)
    (rw : Bool) (logPeriod : Nat) (r : Rrl)
    (h : create decayOf hash header now size instant rate rw logPeriod = .ok (some r)) :
    0 < r.kru.bits ∧ size ≤ 16 * 2 ^ r.kru.bits ∧ (16 * 2 ^ r.kru.bits < 2 * size ∨ r.kru.bits = 1) := by
  have hs := ((C31_create decayOf hash header now size instant rate rw logPeriod).1 ⟨r, h⟩).1
  have hb : r.kru.bits = capacity2loads (capacityLog (size - 1) 1) := by
    unfold create at h
    split at h
    · cases h
    · dsimp only at h
      split at h
      · cases h
      · cases h
      · split at h
        · cases h
        · cases h; rfl
  rw [hb, capacityLog_eq]
  by_cases h1 : size = 1
  · subst h1
    simp [capacity2loads]
  · have hne : size - 1 ≠ 0 := by omega
    have h2 : size - 1 < 2 ^ ((size - 1).log2 + 1) := Nat.lt_log2_self
    have h3 : 2 ^ (size - 1).log2 ≤ size - 1 := Nat.log2_self_le hne
    unfold capacity2loads
    split
    · rename_i hp
      have e : ((1 + ((size - 1).log2 : Nat) : Nat) - 4 : Int).toNat + 4 = (size - 1).log2 + 1 := by omega
      have e2 : 16 * 2 ^ ((1 + ((size - 1).log2 : Nat) : Nat) - 4 : Int).toNat = 2 ^ ((size - 1).log2 + 1) := by
        rw [← e, Nat.pow_add]; omega
      rw [e2]
      refine ⟨by omega, by omega, .inl ?_⟩
      rw [Nat.pow_succ]; omega
    · rename_i hp
      refine ⟨by omega, ?_, .inr rfl⟩
      have : (size - 1).log2 + 1 ≤ 4 := by omega
      have : 2 ^ ((size - 1).log2 + 1) ≤ 2 ^ 4 := Nat.pow_le_pow_right (by omega) this
      omega

example (decayOf : Nat → Decay) (hash : List UInt8 → Nat) :
    ∃ r, create decayOf hash 64 0 524288 125 20 true 0 = .ok (some r) ∧ r.kru.bits = 15 := by
  obtain ⟨r, h⟩ := (C31_create decayOf hash 64 0 524288 125 20 true 0).2 (by omega)
  obtain ⟨h1, h2, h3⟩ := C31_capacity _ _ _ _ _ _ _ _ _ _ h
  refine ⟨r, h, ?_⟩
  rcases h3 with h3 | h3
  · have a : ¬ r.kru.bits < 15 := by
      intro hlt
      have := Nat.pow_le_pow_right (n := 2) (by omega) (show r.kru.bits ≤ 14 by omega)
      omega
    have b : ¬ 15 < r.kru.bits := by
      intro hlt
      have := Nat.pow_le_pow_right (n := 2) (by omega) (show 16 ≤ r.kru.bits by omega)
      omega
    omega
  · rw [h3] at h2; omega

/-- C31: a table the configuration accepts and the server aborts on. -/
theorem C31_table_size (decayOf : Nat → Decay) (hash : List UInt8 → Nat) (header now : Nat) :
    create decayOf hash header now 268435457 125 20 true 0 = .ub := by
  have h : ¬ (268435457 = 0 ∨ 125 = 0 ∨ 20 = 0) := by decide
  unfold create
  rw [if_neg h]
  dsimp only
  have : getSize header (capacityLog (268435457 - 1) 1) = .ub := by
    rw [capacityLog_eq]
    have : 64 < 2 * capacity2loads (1 + (268435457 - 1 : Nat).log2 : Nat) + 16 := by decide +kernel
    unfold getSize
    rw [if_pos this]
  rw [this]

/-- C31: the new table is empty, and what a query pays for an address and for its networks are the
documented shares of the capacity of a counter; half of them for the limit on time. -/
theorem C31_prices (decayOf : Nat → Decay) (hash : List UInt8 → Nat) (header now size instant rate : Nat)
    (mode : Bool) (logPeriod : Nat) (r : Rrl)
    (h : create decayOf hash header now size instant rate mode logPeriod = .ok (some r)) :
    ∃ base, base = (if mode then 4294901760 / instant else 4294901760 / instant / 2) ∧
      (∀ a, r.prices (.v4 a) = [(18, base / 768), (20, base / 256), (24, base / 32), (32, base)]) ∧
      (∀ a, r.prices (.v6 a) =
        [(32, base / 64), (48, base / 4), (56, base / 3), (64, base / 2), (128, base)]) ∧
      r.rw = mode ∧ r.kru.decay = decayOf (4294901760 / instant * rate / 1000) ∧
      ((∀ m n, (decayOf m).mult n < 2 ^ 32) → Valid r.kru) ∧
      (∀ key p, counter r.kru key p = 0) := by
  unfold create at h
  split at h
  · cases h
  · rename_i h0
    have hk : kruLimit = 4294901760 := by decide
    have hle := Nat.div_le_self 4294901760 instant
    have hm : kruLimit / instant % 2 ^ 32 = 4294901760 / instant := by
      rw [hk]
      exact Nat.mod_eq_of_lt (by omega)
    dsimp only at h
    split at h
    · cases h
    · cases h
    · split at h
      · cases h
      · rename_i hrate
        injection h with h
        injection h with h
        subst h
        have ht : ∀ key p, counter (⟨hash, decayOf (kruLimit / instant % 2 ^ 32 * rate / 1000 % 2 ^ 32),
            capacity2loads (capacityLog (size - 1) 1), emptyTab⟩ : Kru) key p = 0 := by
          intro key p
          show (List.replicate 15 0).getD _ 0 = 0
          simp only [List.getD_eq_getElem?_getD, List.getElem?_replicate]
          split <;> rfl
        refine ⟨basePrice instant mode, ?_, ?_, ?_, rfl, ?_, ?_, ht⟩
        · unfold basePrice
          rw [hm]
        · intro a
          simp only [Rrl.prices, v4Prefixes, List.map_cons, List.map_nil, Nat.div_one]
        · intro a
          simp only [Rrl.prices, v6Prefixes, List.map_cons, List.map_nil, Nat.div_one]
        · dsimp only
          rw [hm]
          have : 4294901760 / instant * rate / 1000 ≤ 4294901760 := by
            have h1 : 4294901760 / instant * rate ≤ 4294901760 / instant * (1000 * instant) :=
              Nat.mul_le_mul_left _ (by omega)
            have h2 : 4294901760 / instant * (1000 * instant) = 1000 * (4294901760 / instant * instant) := by
              rw [Nat.mul_left_comm]
            have h3 := Nat.div_mul_le_self 4294901760 instant
            omega
          rw [Nat.mod_eq_of_lt (by omega)]
        · intro hd
          refine ⟨fun li row => ⟨rfl, rfl, ?_, ?_⟩, fun n => hd _ n⟩
          · show 0 < 2 ^ 32
            decide
          · intro x hx
            have hx : x ∈ List.replicate 15 0 := hx
            have := List.eq_of_mem_replicate hx
            subst this
            exact Nat.zero_le _

/-- C31: the price of the widest IPv4 network is zero, and the network is never limited, exactly for
instant limits above 5592320; the configuration accepts them up to 5592404. -/
theorem C31_free_network (decayOf : Nat → Decay) (hash : List UInt8 → Nat)
    (header now size instant rate : Nat) (logPeriod : Nat) (r : Rrl) (a : List UInt8)
    (h : create decayOf hash header now size instant rate true logPeriod = .ok (some r)) :
    (18, 0) ∈ r.prices (.v4 a) ↔ 5592320 < instant := by
  obtain ⟨base, hb, h4, -⟩ := C31_prices decayOf hash header now size instant rate true logPeriod r h
  have hi : 0 < instant := by
    have := (C31_create decayOf hash header now size instant rate true logPeriod).1 ⟨r, h⟩
    omega
  rw [h4]
  simp only [if_true] at hb
  subst hb
  simp only [List.mem_cons, Prod.mk.injEq, true_and, List.not_mem_nil, or_false]
  have : 0 = 4294901760 / instant / 768 ↔ 5592320 < instant := by
    rw [Nat.div_div_eq_div_mul, eq_comm, Nat.div_eq_zero_iff]
    omega
  rw [this]
  constructor
  · rintro (h | h | h | h)
    · exact h
    · omega
    · omega
    · omega
  · exact .inl

/-- The calls behind queries to a limited module. -/
def Kru.asCalls (r : Rrl) (qs : List (Nat × Addr)) : List Call :=
  qs.map fun q => .prefixes q.1 q.2.ns q.2.key (r.prices q.2)

/-- Queries one after another: which are limited, and the module afterwards. -/
def Kru.rrlRun (r : Rrl) (g : Rng) : List (Nat × Addr) → List Bool × Rrl
  | [] => ([], r)
  | q :: qs =>
    let (b, _, r', g') := rrlQuery r q.1 q.2 g
    let (bs, r'') := rrlRun r' g' qs
    (b :: bs, r'')

/-- C31: the queries are limited as the calls about the networks of their addresses are, so that the
statements about calls apply to them. -/
theorem C31_queries : ∀ (qs : List (Nat × Addr)) (r : Rrl) (g : Rng), r.rw = true →
    (rrlRun r g qs).1 = answers r.kru g (asCalls r qs) ∧
    (rrlRun r g qs).2.kru = (runAll r.kru g (asCalls r qs)).1
  | [], _, _, _ => ⟨rfl, rfl⟩
  | q :: qs, r, g, h => by
    cases e : multiPrefixOr r.kru q.1 q.2.ns q.2.key (r.prices q.2) g with
    | mk pf rest =>
    obtain ⟨ml, k, g'⟩ := rest
    have hrun : (Call.prefixes q.1 q.2.ns q.2.key (r.prices q.2)).run r.kru g = (pf != 0, k, g') := by
      simp only [Call.run, e]
    have hq : ∃ lg r', rrlQuery r q.1 q.2 g = (pf != 0, lg, r', g') ∧ r'.kru = k ∧ r'.rw = true ∧
        r'.v4 = r.v4 ∧ r'.v6 = r.v6 := by
      unfold rrlQuery
      rw [if_pos h, e]
      dsimp only
      split
      · rename_i h0
        exact ⟨false, { r with kru := k }, by rw [h0]; rfl, rfl, h, rfl, rfl⟩
      · rename_i h0
        have : (pf != 0) = true := by simpa using h0
        rw [this]
        unfold limitLog
        split <;> exact ⟨_, _, rfl, rfl, h, rfl, rfl⟩
    obtain ⟨lg, r', h1, h2, h3, h4, h5⟩ := hq
    have ih := C31_queries qs r' g' h3
    have hc : asCalls r' qs = asCalls r qs := by
      unfold asCalls
      apply List.map_congr_left
      intro x _
      congr 1
      cases x.2 <;> simp only [Rrl.prices, h4, h5]
    rw [hc, h2] at ih
    have e1 : rrlRun r g (q :: qs) = ((pf != 0) :: (rrlRun r' g' qs).1, (rrlRun r' g' qs).2) := by
      simp only [rrlRun, h1]
    have e2 : asCalls r (q :: qs) = .prefixes q.1 q.2.ns q.2.key (r.prices q.2) :: asCalls r qs := rfl
    rw [e1, e2]
    refine ⟨?_, ?_⟩
    · show _ :: _ = _ :: _
      rw [hrun]
      dsimp only
      rw [ih.1]
    · show (rrlRun r' g' qs).2.kru = (runAll (Call.run r.kru g _).2.1 (Call.run r.kru g _).2.2 _).1
      rw [hrun]
      exact ih.2

/-- C31: a query is limited by time exactly if, after ageing, a counter of one of the networks of its
address is above half of the capacity; nothing is charged. -/
theorem C31_time_query (r : Rrl) (hk : Valid r.kru) (hr : r.rw = false) (now : Nat) (hn : now < 2 ^ 32)
    (a : Addr) (g : Rng) :
    ((rrlQuery r now a g).1 = true ↔ ∃ p ∈ r.prices a, ∃ q,
      Holds (rrlQuery r now a g).2.2.1.kru (prefixInput a.ns a.key p.1) q ∧
      32768 < counter (rrlQuery r now a g).2.2.1.kru (prefixInput a.ns a.key p.1) q) ∧
    ∀ key q, counter (rrlQuery r now a g).2.2.1.kru key q ≤ counter r.kru key q := by
  have pl := peek_load r.kru hk now hn a.ns a.key (r.prices a) g
  have pm := peek_made r.kru hk.2 hk.1 now hn a.ns a.key ((r.prices a).map (·.1)) g
  have ea : ∀ c : Bool, (loadMultiPrefixMax r.kru now a.ns a.key
      (((r.prices a).map (·.1)).map fun p => (p, 0)) false g) =
      loadMultiPrefixMax r.kru now a.ns a.key (r.prices a) false g := by
    intro _
    unfold loadMultiPrefixMax
    dsimp only
    simp only [Bool.false_eq_true, if_false, List.map_map, Function.comp_def]
  rw [ea true] at pm
  have fa := fetchAll_spec now hn (prefetchPrefixes r.kru now a.ns a.key ((r.prices a).map fun p => (p.1, 0)))
    r.kru g hk.2 hk.1 (by
      intro c hc
      obtain ⟨p, hp, rfl⟩ := List.mem_map.1 hc
      obtain ⟨p', -, rfl⟩ := List.mem_map.1 hp
      exact ⟨rfl, Nat.two_pow_pos 32⟩)
  have ft : (loadMultiPrefixMax r.kru now a.ns a.key (r.prices a) false g).2.1 =
      (fetchAll r.kru (prefetchPrefixes r.kru now a.ns a.key ((r.prices a).map fun p => (p.1, 0))) g).2.2.1 := by
    unfold loadMultiPrefixMax
    simp only [Bool.false_eq_true, if_false]
  cases e : loadMultiPrefixMax r.kru now a.ns a.key (r.prices a) false g with
  | mk lp rest =>
  obtain ⟨load, pf⟩ := lp
  obtain ⟨k', g'⟩ := rest
  rw [e] at pl pm ft
  dsimp only at pl pm ft
  have hq : ∃ lg r', rrlQuery r now a g = (decide (32768 < load), lg, r', g') ∧ r'.kru = k' := by
    unfold rrlQuery
    rw [if_neg (by simp [hr]), e]
    dsimp only
    split
    · rename_i h
      have : ¬ 32768 < load := by omega
      exact ⟨false, { r with kru := k' }, by rw [decide_eq_false this], rfl⟩
    · rename_i h
      have : 32768 < load := by omega
      rw [decide_eq_true this]
      unfold limitLog
      split <;> exact ⟨_, _, rfl, rfl⟩
  obtain ⟨lg, r', h1, h2⟩ := hq
  rw [h1]
  dsimp only
  rw [h2]
  have hsp : ∀ key, spot k' key = spot r.kru key := fun key => spot_made pm key
  refine ⟨?_, fun key q => ?_⟩
  rotate_left
  · unfold counter
    rw [hsp, ft]
    exact (fa.1.aged _ _).upper _
  have hfo : ∀ key, 0 < found k'.tab (spot r.kru key) →
      ∃ q, Holds k' key q ∧ counter k' key q = found k'.tab (spot r.kru key) := by
    intro key h0
    unfold Holds counter
    rw [hsp]
    unfold found at h0 ⊢
    cases hl : locate k'.tab (spot r.kru key) with
    | none => rw [hl] at h0; exact absurd h0 (Nat.lt_irrefl 0)
    | some q => exact ⟨q, rfl, rfl⟩
  rw [decide_eq_true_iff]
  constructor
  · intro hl
    rcases pl.2 with h | ⟨p, hp, h⟩
    · injection h with h _
      omega
    · injection h with h _
      obtain ⟨q, hq1, hq2⟩ := hfo (prefixInput a.ns a.key p.1) (by omega)
      exact ⟨p, hp, q, hq1, by omega⟩
  · rintro ⟨p, hp, q, hq1, hq2⟩
    have := pl.1 p hp
    unfold Holds at hq1
    unfold counter at hq2
    rw [hsp] at hq1 hq2
    unfold found at this
    rw [hq1] at this
    dsimp only at this
    omega

/-- C31: after an answer its time is charged to every network of the address, as a price of at most
4294967295: the product does not wrap. -/
theorem C31_time_update (r : Rrl) (hr : r.rw = false) (now : Nat) (a : Addr) (value : Nat)
    (hv : value < 2 ^ 32) (hp : ∀ p ∈ r.prices a, p.2 < 2 ^ 32) (g : Rng) :
    ∃ r', rrlUpdate r now a value g = .ok (r',
        ((Call.add now a.ns a.key ((r.prices a).map fun p => (p.1, min (value * p.2) 4294967295))).run r.kru g).2.2) ∧
      r'.kru =
        ((Call.add now a.ns a.key ((r.prices a).map fun p => (p.1, min (value * p.2) 4294967295))).run r.kru g).2.1 ∧
      r'.v4 = r.v4 ∧ r'.v6 = r.v6 ∧ r'.rw = r.rw := by
  have e : ((r.prices a).map fun p => (p.1, min (value * p.2 % 2 ^ 64) (2 ^ 32 - 1))) =
      (r.prices a).map fun p => (p.1, min (value * p.2) 4294967295) := by
    apply List.map_congr_left
    intro p hp'
    have h1 := hp p hp'
    have h2 : value * p.2 ≤ 4294967295 * 4294967295 := Nat.mul_le_mul (by omega) (by omega)
    rw [Nat.mod_eq_of_lt (by omega)]
  unfold rrlUpdate
  rw [if_neg (by simp [hr])]
  dsimp only
  rw [e]
  exact ⟨_, rfl, rfl, rfl, rfl, rfl⟩

/-- C31: two addresses share a counter for a network of `n` bits exactly if they are of the same family
and agree in these bits. -/
theorem C31_address (a b : Addr) (n m : Nat) (ha : a.octets.length = a.size)
    (hb : b.octets.length = b.size) (hn : n ≤ 8 * a.size) (hm : m ≤ 8 * b.size) :
    prefixInput a.ns a.key n = prefixInput b.ns b.key m ↔
      a.size = b.size ∧ n = m ∧ ∀ j, j < n → bitOf a.octets j = bitOf b.octets j := by
  have hbit : ∀ (c : Addr) (j : Nat), c.octets.length = c.size → j < 8 * c.size →
      bitOf c.key j = bitOf c.octets j := by
    intro c j hx hj
    cases c with
    | v6 x => rfl
    | v4 x =>
      have hx : x.length = 4 := hx
      have hj : j < 32 := hj
      unfold bitOf Addr.key Addr.octets
      rw [List.getD_eq_getElem?_getD, List.getD_eq_getElem?_getD, List.getElem?_append_left (by omega)]
  have hlen : ∀ c : Addr, c.octets.length = c.size → c.key.length = 16 ∧ c.size ≤ 16 := by
    intro c hc
    cases c with
    | v4 x =>
      have hc : x.length = 4 := hc
      simp [Addr.key, Addr.size, hc]
    | v6 x => exact ⟨hc, Nat.le_refl _⟩
  have l1 := hlen a ha
  have l2 := hlen b hb
  have hns : a.ns = b.ns ↔ a.size = b.size := by
    cases a <;> cases b <;> simp [Addr.ns, Addr.size]
  rw [C31_prefix _ _ _ _ _ _ (by omega) (by omega) (by omega) (by omega), hns]
  constructor
  · rintro ⟨e, e2, h⟩
    refine ⟨e, e2, fun j hj => ?_⟩
    rw [← hbit a j ha (by omega), ← hbit b j hb (by omega)]
    exact h j hj
  · rintro ⟨e, e2, h⟩
    refine ⟨e, e2, fun j hj => ?_⟩
    rw [hbit a j ha (by omega), hbit b j hb (by omega)]
    exact h j hj

example : (Addr.v4 [192, 0, 2, 1]).octets.length = (Addr.v4 [192, 0, 2, 1]).size := rfl

/-- C31: of the limited queries every `n`-th on average is answered truncated: none for zero, all for
one, otherwise those whose random number is a multiple of `n`. -/
theorem C31_slip (n rnd : Nat) : slipRoll n rnd = true ↔ n ≠ 0 ∧ rnd % n = 0 := by
  unfold slipRoll
  split
  · rename_i h; simp [h]
  · rename_i h
    split
    · rename_i h1; subst h1; simp [Nat.mod_one]
    · simp [h]

/-! ## What does not hold -/

/-- C31: rounding may lose what was paid: a counter of one unit is gone after one tick, though only
half of it is due to ageing. -/
theorem C31_rounding :
    Holds (smallTab (busy 7 1) (busy 9 1) (busy 9 1)) [7] (false, 3) ∧
    counter (smallTab (busy 7 1) (busy 9 1) (busy 9 1)) [7] (false, 3) = 1 ∧
    halving.mult 1 = 2 ^ 31 - 1 ∧
    counter (limited (smallTab (busy 7 1) (busy 9 1) (busy 9 1)) 1 [7] 0 (fun _ => 65535)).2.1 [7] (false, 3) = 0 := by
  unfold Holds
  refine ⟨?_, ?_, ?_, ?_⟩ <;> decide +kernel

/-- C31: a limited call takes away the counter of another key, and is not recorded itself. Key 7 has
the counter 64000 and would be limited at 66000; after a limited call about key 8 it is unknown. -/
theorem C31_evicted :
    Holds (smallTab (busy 7 64000) (busy 9 64500) (busy 9 0)) [7] (false, 3) ∧
    (limited (smallTab (busy 7 64000) (busy 9 64500) (busy 9 0)) 0 [8] (65536 * 2000) (fun _ => 0)).1 = true ∧
    locate (limited (smallTab (busy 7 64000) (busy 9 64500) (busy 9 0)) 0 [8] (65536 * 2000) (fun _ => 0)).2.1.tab
      (spot (smallTab (busy 7 64000) (busy 9 64500) (busy 9 0)) [7]) = none := by
  unfold Holds
  refine ⟨?_, ?_, ?_⟩ <;> decide +kernel

/-- C31: a call that is limited charges the other keys it asks about, without any race: the documented
"updates KRU only if no query is blocked" does not hold. Key 8 is unknown and its lines are full; key
7 with the second row is charged. -/
theorem C31_limited_charged :
    (multiOr (smallTab (busy 7 65000) (busy 9 65000) (busy 7 100)) 0 [([7, 1], 65536 * 2000), ([8], 65536 * 2000)] (fun _ => 0)).1 = true ∧
    counter (smallTab (busy 7 65000) (busy 9 65000) (busy 7 100)) [7, 1] (false, 3) = 100 ∧
    counter (multiOr (smallTab (busy 7 65000) (busy 9 65000) (busy 7 100)) 0 [([7, 1], 65536 * 2000), ([8], 65536 * 2000)] (fun _ => 0)).2.1
      [7, 1] (false, 3) = 2100 := by
  refine ⟨?_, ?_, ?_⟩ <;> decide +kernel

end Knot
