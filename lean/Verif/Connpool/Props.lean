import Verif.Connpool.Lemmas2
import Verif.Sockaddr.Props
/-!
# C58: the pool of outgoing connections
-/
namespace Knot
open Connpool Connpool.Spec
open Sockaddr (Addr Fam)

/-- Comparison with ports. -/
theorem Connpool.cmp_port (le : Bool) (a b : Addr) (ha : Endpoint a) (hb : Endpoint b) :
    Sockaddr.cmp le a b false = 0 ↔ SameEnd a b := by
  have h := C30_cmp_eq le a b ha.2 hb.2 (by rcases ha.1 with e | e <;> simp [e]) (by rcases ha.1 with e | e <;> simp [e])
  have hp : Sockaddr.cmp le a b false = 0 ↔ Sockaddr.cmp le a b true = 0 ∧ a.port = b.port := by
    unfold Sockaddr.cmp
    by_cases hf : a.fam = b.fam
    · rw [if_neg (by simp [hf]), if_neg (by simp [hf])]
      rcases ha.1 with e | e
      · simp only [e, Sockaddr.cmpIpv4, if_true, Bool.false_eq_true, if_false]
        split
        · simp
        · split
          · simp
          · simp; omega
      · simp only [e, Sockaddr.cmpIpv6, if_true, Bool.false_eq_true, if_false]
        split
        · simp; omega
        · rename_i h; simp [h]
    · rw [if_pos hf, if_pos hf]
      rcases ha.1 with e | e <;> rcases hb.1 with e' | e' <;> simp [e, e', Fam.num] at hf ⊢
  rw [hp, h]
  unfold SameEnd
  exact and_assoc

/-- Comparison without ports, of addresses that may be missing. -/
theorem Connpool.cmp_host (le : Bool) (a b : Addr) (ha : a.fam = .unspec ∨ Endpoint a) (hb : b.fam = .unspec ∨ Endpoint b) :
    Sockaddr.cmp le a b true = 0 ↔ SameHost a b := by
  unfold SameHost
  rcases ha with ha | ha
  · unfold Sockaddr.cmp
    rcases hb with hb | hb
    · simp [ha, hb]
    · rcases hb.1 with e | e <;> simp [ha, e, Sockaddr.Fam.num]
  · have hn : a.fam ≠ .unspec := by rcases ha.1 with e | e <;> simp [e]
    rcases hb with hb | hb
    · unfold Sockaddr.cmp
      rcases ha.1 with e | e <;> simp [hb, e, Sockaddr.Fam.num]
    · rw [C30_cmp_eq le a b ha.2 hb.2 hn (by rcases ha.1 with e | e <;> simp [e])]
      simp [hn]

/-- Addresses for examples. -/
def Connpool.exampleA : Addr := ⟨.inet, [192, 0, 2, 1], 53⟩
def Connpool.exampleB : Addr := ⟨.inet, [192, 0, 2, 2], 53⟩
def Connpool.exampleNo : Addr := ⟨.unspec, [], 0⟩

/-- An empty pool and a history of it. -/
def Connpool.examplePool : Pool := ⟨List.replicate 2 unused, 0, 5⟩
def Connpool.exampleOps : List Op :=
  [.put 100 exampleNo exampleA 7, .put 101 exampleNo exampleB 8, .put 103 exampleNo exampleB 9]

/-- The operations of a history may be anything as long as the clock is not at 0. -/
example : init 2 5 = some examplePool ∧ (∀ o ∈ exampleOps, OpOk o) ∧
    run true examplePool exampleOps =
      .ok (⟨[⟨103, exampleNo, exampleB, 9⟩, ⟨101, exampleNo, exampleB, 8⟩], 2, 5⟩, [.put 7, .put 8, .put 9, .returned 7]) := by
  refine ⟨rfl, ?_, by decide +kernel⟩
  simp [exampleOps, OpOk]

/-- C58. In every history of a pool no assertion fails, there are never more connections in it than its capacity, and none is lost or
duplicated: each one was put into the pool as many times as it is in it now or left it, taken for use, closed or returned. -/
theorem C58_ledger (le : Bool) (cap t : Nat) (p : Pool) (h : init cap t = some p) (ops : List Op) (ho : ∀ o ∈ ops, OpOk o) :
    ∃ q evs, run le p ops = .ok (q, evs) ∧ (held q).length = q.usage ∧ q.usage ≤ cap ∧
      ∀ fd, given evs fd = holds q fd + left evs fd := by
  obtain ⟨h1, h2, h3, h4, _⟩ := init_inv h
  obtain ⟨q, evs, k1, k2, k3, k4, _⟩ := run_spec le ops p h1 h3 ho
  refine ⟨q, evs, k1, k2.usage.symm, ?_, ?_⟩
  · rw [k2.usage, ← h2, ← k3]
    exact List.length_filter_le _ _
  · intro fd
    have := k4 fd
    rw [show holds p fd = 0 by simp [holds, h4]] at this
    omega

/-- The state after a history. -/
theorem Connpool.reached {le : Bool} {cap t : Nat} {p : Pool} (h : init cap t = some p) {ops : List Op} (ho : ∀ o ∈ ops, OpOk o)
    {q : Pool} {evs : List Ev} (hr : run le p ops = .ok (q, evs)) :
    Inv q ∧ q.conns ≠ [] ∧ q.conns.length = cap ∧ ∀ c ∈ held q, .put c.last c.src c.dst c.fd ∈ ops := by
  obtain ⟨h1, h2, h3, h4, _⟩ := init_inv h
  obtain ⟨q', evs', k1, k2, k3, _, k5⟩ := run_spec le ops p h1 h3 ho
  rw [k1] at hr
  cases hr
  refine ⟨k2, ?_, by omega, ?_⟩
  · intro e
    rw [e] at k3
    exact h3 (List.length_eq_zero_iff.1 k3.symm)
  · intro c hc
    rcases k5 c hc with h | h
    · rw [h4] at h; cases h
    · exact h

/-- C58. After every history a request for a connection gets one to the same address and port, from the same local address, that was put
into the pool for them, if there is any; it leaves the pool, and if it is not usable any more it is closed. If there is none
nothing happens. -/
theorem C58_get (le : Bool) (cap t : Nat) (p : Pool) (h : init cap t = some p) (ops : List Op) (ho : ∀ o ∈ ops, OpOk o)
    (ha : ∀ now s d fd, .put now s d fd ∈ ops → (s.fam = .unspec ∨ Endpoint s) ∧ Endpoint d)
    (q : Pool) (evs : List Ev) (hr : run le p ops = .ok (q, evs))
    (src dst : Addr) (hs : src.fam = .unspec ∨ Endpoint src) (hd : Endpoint dst) (invalid : Bool) :
    ((∀ c ∈ held q, ¬(SameEnd c.dst dst ∧ SameHost c.src src)) ∧ step le q (.get src dst invalid) = .ok (q, [])) ∨
    (∃ c ∈ held q, SameEnd c.dst dst ∧ SameHost c.src src ∧ .put c.last c.src c.dst c.fd ∈ ops ∧
      ∃ r, step le q (.get src dst invalid) = .ok (r, [if invalid then .closed c.fd else .taken c.fd]) ∧
        ∀ fd, holds r fd + (if c.fd = fd then 1 else 0) = holds q fd) := by
  obtain ⟨hi, _, _, hfrom⟩ := reached h ho hr
  rcases get_spec le src dst hi q.conns.length 0 (by omega) (fun k hk => by omega) with ⟨h1, h2⟩ | ⟨j, c, h1, h2, h3⟩
  · left
    refine ⟨?_, by simp only [step, h1, Res.bind_ok, if_true]⟩
    intro c hc hm
    obtain ⟨a1, a2⟩ := ha _ _ _ _ (hfrom c hc)
    have hc' := mem_held.1 hc
    exact h2 c hc'.1 ⟨hc'.2, (cmp_port le _ _ a2 hd).2 hm.1, (cmp_host le _ _ a1 hs).2 hm.2⟩
  · right
    have hc : c ∈ held q := mem_held.2 ⟨List.mem_of_getElem? h1, h2.1⟩
    obtain ⟨a1, a2⟩ := ha _ _ _ _ (hfrom c hc)
    obtain ⟨g1, g2, g3, g4, g5, g6⟩ := pop_ok hi h1 h2.1
    refine ⟨c, hc, (cmp_port le _ _ a2 hd).1 h2.2.1, (cmp_host le _ _ a1 hs).1 h2.2.2, hfrom c hc, popped q j, ?_, g4⟩
    simp only [step, h3, Res.bind_ok, if_neg g3]
    cases invalid <;> rfl

/-- A connection to B is taken, one to A is not there any more. -/
example : step true ⟨[⟨103, exampleNo, exampleB, 9⟩, ⟨101, exampleNo, exampleB, 8⟩], 2, 5⟩ (.get exampleNo exampleB false) =
      .ok (⟨[unused, ⟨101, exampleNo, exampleB, 8⟩], 1, 5⟩, [.taken 9]) ∧
    step true ⟨[⟨103, exampleNo, exampleB, 9⟩, ⟨101, exampleNo, exampleB, 8⟩], 2, 5⟩ (.get exampleNo exampleA false) =
      .ok (⟨[⟨103, exampleNo, exampleB, 9⟩, ⟨101, exampleNo, exampleB, 8⟩], 2, 5⟩, []) := by decide +kernel

/-- The addresses of the example meet the hypotheses. -/
example : ∀ now s d fd, Op.put now s d fd ∈ exampleOps → (s.fam = .unspec ∨ Endpoint s) ∧ Endpoint d := by
  intro now s d fd h
  simp only [exampleOps, List.mem_cons, Op.put.injEq, List.not_mem_nil, or_false] at h
  rcases h with ⟨_, rfl, rfl, _⟩ | ⟨_, rfl, rfl, _⟩ | ⟨_, rfl, rfl, _⟩ <;>
    exact ⟨.inl rfl, .inl rfl, by decide⟩

/-- C58. After every history a connection that is put into the pool is in it; the ones in it stay, except that from a full pool the
one that was put there first is returned. -/
theorem C58_put (le : Bool) (cap t : Nat) (p : Pool) (h : init cap t = some p) (ops : List Op) (ho : ∀ o ∈ ops, OpOk o)
    (q : Pool) (evs : List Ev) (hr : run le p ops = .ok (q, evs)) (now : Nat) (hn : now ≠ 0) (src dst : Addr) (fd : Int) (hf : fd ≠ -1) :
    ∃ r e, step le q (.put now src dst fd) = .ok (r, .put fd :: e) ∧ ⟨now, src, dst, fd⟩ ∈ held r ∧
      ((held q).length < cap ∧ e = [] ∨
        (held q).length = cap ∧ ∃ c ∈ held q, e = [.returned c.fd] ∧ ∀ d ∈ held q, c.last ≤ d.last) := by
  obtain ⟨hi, hne, hcap, _⟩ := reached h ho hr
  obtain ⟨r, q', h1, _, _, _, _, _, h2, h3⟩ := put_spec hi hne hn src dst hf
  simp only [step, h1, Res.bind_ok]
  refine ⟨q', _, rfl, h2, ?_⟩
  rw [hcap] at h3
  rcases h3 with ⟨rfl, h⟩ | ⟨h, c, hc, rfl, k1, k2⟩
  · exact .inl ⟨h, rfl⟩
  · exact .inr ⟨h, c, hc, by rw [if_neg k1], k2⟩

/-- The connections left by a pass. -/
theorem Connpool.held_keep (older : Nat) (p q : Pool) (h : q.conns = p.conns.map (keep older)) :
    held q = (held p).filter fun c => ¬Older older c := by
  unfold held
  rw [h]
  generalize p.conns = l
  induction l with
  | nil => rfl
  | cons c l ih =>
    rw [List.map_cons]
    by_cases hx : Older older c
    · rw [List.filter_cons, if_neg (by simp [keep, hx, unused]), ih, List.filter_cons (xs := l), if_pos (by simpa using hx.1), List.filter_cons,
        if_neg (by simpa using hx)]
    · have e : keep older c = c := by unfold keep; rw [if_neg hx]
      rw [e]
      by_cases hz : c.last = 0
      · rw [List.filter_cons, if_neg (by simp [hz]), ih, List.filter_cons (xs := l), if_neg (by simp [hz])]
      · rw [List.filter_cons, if_pos (by simp [hz]), ih, List.filter_cons (xs := l), if_pos (by simp [hz]), List.filter_cons, if_pos (by simpa using hx)]

theorem Connpool.older_held (older : Nat) (p : Pool) :
    (p.conns.filter fun c => decide (Older older c)) = (held p).filter fun c => decide (Older older c) := by
  unfold held
  rw [List.filter_filter]
  apply List.filter_congr
  intro c _
  by_cases hx : Older older c
  · simp [hx, hx.1]
  · simp [hx]

/-- A pass closes what is older than the limit. -/
theorem Connpool.close_held (older : Nat) {p : Pool} (hi : Inv p) : ∃ next q,
    closeLoop older (p.conns.length + 1) p = .ok (((held p).filter fun c => decide (Older older c)).map Memb.fd, next, q) ∧
      held q = ((held p).filter fun c => ¬Older older c) ∧ q.timeout = p.timeout ∧
      (next = 0 ∧ held q = [] ∨ next ≠ 0 ∧ ∃ c ∈ held q, c.last = next ∧ ∀ d ∈ held q, next ≤ d.last) := by
  obtain ⟨fds, next, q, h1, h2, h3, h4, h5, h6⟩ := close_spec older (p.conns.length + 1) p hi
    (Nat.lt_succ_of_le (List.length_filter_le _ _))
  refine ⟨next, q, ?_, held_keep older p q h4, h3, ?_⟩
  · rw [h1, h6, older_held]
  · obtain ⟨o1, o2⟩ := h5
    by_cases hn : next = 0
    · left
      refine ⟨hn, List.eq_nil_iff_forall_not_mem.2 fun c hc => ?_⟩
      obtain ⟨hc1, hc2⟩ := mem_held.1 hc
      obtain ⟨k, hk1, hk2⟩ := List.getElem_of_mem hc1
      exact (o1 k hk1 c (by rw [List.getElem?_eq_getElem hk1, hk2]) hc2).1 hn
    · right
      obtain ⟨k, _, c, hc1, hc2⟩ := o2 hn
      refine ⟨hn, c, mem_held.2 ⟨List.mem_of_getElem? hc1, by omega⟩, hc2, fun d hd => ?_⟩
      obtain ⟨hd1, hd2⟩ := mem_held.1 hd
      obtain ⟨k, hk1, hk2⟩ := List.getElem_of_mem hd1
      exact (o1 k hk1 d (by rw [List.getElem?_eq_getElem hk1, hk2]) hd2).2

/-- C58. A pass of the thread that closes old connections, after every history: it closes exactly the connections that have been in
the pool for the timeout or longer, and wakes when the first of the others will have been there for so long (or after the
timeout if there are none). The timeout must not be larger than the time. -/
theorem C58_close_partial (le : Bool) (cap t : Nat) (p : Pool) (h : init cap t = some p) (ops : List Op) (ho : ∀ o ∈ ops, OpOk o)
    (q : Pool) (evs : List Ev) (hr : run le p ops = .ok (q, evs)) (now : Nat) (h64 : now < 2 ^ 64 - 1) (ht : q.timeout ≤ now) :
    ∃ sleep r, closePass q now = .ok (((held q).filter fun c => c.last + q.timeout ≤ now).map Memb.fd, sleep, r) ∧
      held r = ((held q).filter fun c => now < c.last + q.timeout) ∧
      (held r = [] ∧ sleep = q.timeout ∨
        ∃ c ∈ held r, (∀ d ∈ held r, c.last ≤ d.last) ∧ now + sleep = c.last + q.timeout ∧ 0 < sleep) := by
  obtain ⟨hi, _, _, _⟩ := reached h ho hr
  have hl : limit now q.timeout = now - q.timeout + 1 := by
    unfold limit
    rw [show now + 2 ^ 64 - q.timeout + 1 = (now - q.timeout + 1) + 2 ^ 64 by omega, Nat.add_mod_right, Nat.mod_eq_of_lt (by omega)]
  have ho : ∀ c, c.last ≠ 0 → (Older (limit now q.timeout) c ↔ c.last + q.timeout ≤ now) := by
    intro c hc
    rw [hl]
    unfold Older
    omega
  obtain ⟨next, r, h1, h2, h3, h4⟩ := close_held (limit now q.timeout) hi
  have e1 : ((held q).filter fun c => decide (Older (limit now q.timeout) c)) = (held q).filter fun c => c.last + q.timeout ≤ now := by
    apply List.filter_congr
    intro c hc
    simp [ho c (mem_held.1 hc).2]
  have e2 : ((held q).filter fun c => ¬Older (limit now q.timeout) c) = (held q).filter fun c => now < c.last + q.timeout := by
    apply List.filter_congr
    intro c hc
    simp [ho c (mem_held.1 hc).2]
  refine ⟨_, r, by simp only [closePass, h1, Res.bind_ok]; rw [e1], by rw [h2, e2], ?_⟩
  rcases h4 with ⟨hn, hz⟩ | ⟨hn, c, hc, hcn, hmin⟩
  · exact .inl ⟨hz, by rw [if_pos hn]⟩
  · right
    have hc2 := hc
    rw [h2, e2] at hc2
    have hlt : now < c.last + q.timeout := by simpa using (List.mem_filter.1 hc2).2
    refine ⟨c, hc, fun d hd => by rw [hcn]; exact hmin d hd, ?_, ?_⟩ <;> rw [if_neg hn] <;> omega

/-- At 106 one of the two connections of the example is closed; the other one has two more seconds. -/
example : closePass ⟨[⟨103, exampleNo, exampleB, 9⟩, ⟨101, exampleNo, exampleB, 8⟩], 2, 5⟩ 106 =
    .ok ([8], 2, ⟨[⟨103, exampleNo, exampleB, 9⟩, unused], 1, 5⟩) := by decide +kernel

/-- C58. At the end all the connections left in the pool are closed. -/
theorem C58_deinit (le : Bool) (cap t : Nat) (p : Pool) (h : init cap t = some p) (ops : List Op) (ho : ∀ o ∈ ops, OpOk o)
    (q : Pool) (evs : List Ev) (hr : run le p ops = .ok (q, evs)) :
    ∃ next r, closeLoop 0 (q.conns.length + 1) q = .ok ((held q).map Memb.fd, next, r) ∧ held r = [] := by
  obtain ⟨hi, _, _, _⟩ := reached h ho hr
  obtain ⟨next, r, h1, h2, _, _⟩ := close_held 0 hi
  refine ⟨next, r, ?_, ?_⟩
  · rw [h1, List.filter_eq_self.2]
    intro c hc
    simpa [Older] using (mem_held.1 hc).2
  · rw [h2, List.filter_eq_nil_iff.2]
    intro c hc
    simpa [Older] using (mem_held.1 hc).2

/-- C58. Finding: a timeout larger than the time, which the configuration allows (remote-pool-timeout may be 2147483647 s, the time is
about 1790000000 s), wraps: every pass closes all the connections, even the ones put a moment ago. -/
theorem C58_timeout_wrap (le : Bool) (cap t : Nat) (p : Pool) (h : init cap t = some p) (ops : List Op) (ho : ∀ o ∈ ops, OpOk o)
    (q : Pool) (evs : List Ev) (hr : run le p ops = .ok (q, evs)) (now : Nat) (hnow : ∀ c ∈ held q, c.last ≤ now)
    (ht : now < q.timeout) (h64 : q.timeout < 2 ^ 64) :
    ∃ r, closePass q now = .ok ((held q).map Memb.fd, q.timeout, r) ∧ held r = [] := by
  obtain ⟨hi, _, _, _⟩ := reached h ho hr
  have hold : ∀ c ∈ held q, Older (limit now q.timeout) c := by
    intro c hc
    have h1 := hnow c hc
    have h2 := (mem_held.1 hc).2
    refine ⟨h2, ?_⟩
    unfold limit
    by_cases e : now + 1 = q.timeout
    · left
      rw [show now + 2 ^ 64 - q.timeout + 1 = 2 ^ 64 by omega]
    · right
      rw [Nat.mod_eq_of_lt (by omega)]
      omega
  obtain ⟨next, r, h1, h2, _, h3⟩ := close_held (limit now q.timeout) hi
  have hz : held r = [] := by
    rw [h2, List.filter_eq_nil_iff.2]
    intro c hc
    simpa using hold c hc
  have hn : next = 0 := by
    rcases h3 with h | ⟨_, c, hc, _⟩
    · exact h.1
    · rw [hz] at hc; cases hc
  refine ⟨r, ?_, hz⟩
  simp only [closePass, h1, Res.bind_ok, if_pos hn]
  rw [List.filter_eq_self.2]
  intro c hc
  simpa using hold c hc

/-- A pool with the largest timeout: the connection of this very second is closed. -/
example : closePass ⟨[⟨1790000000, exampleNo, exampleA, 7⟩], 1, 2147483647⟩ 1790000000 = .ok ([7], 2147483647, ⟨[unused], 0, 2147483647⟩) := by
  decide +kernel

end Knot
