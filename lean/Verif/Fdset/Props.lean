import Verif.Fdset.Lemmas3
/-! # C55: TCP connections of a thread

`s` is the set of descriptors of a thread after any life: any rounds of events with any outcomes, sweeps at any times,
changes of the configuration. In every theorem but the findings, registering of an accepted descriptor succeeds. -/
namespace Knot

open Fdset

/-- Events for the examples: a connection on the listening socket 3, a query on a client's socket, an error. -/
def evAccept (fd : Nat) (ok : Bool) (now : Nat) : Ev := ⟨3, .pollin, some (fd, ok), false, false, now⟩
def evQuery (fd : Nat) (ok : Bool) (now : Nat) : Ev := ⟨fd, .pollin, none, ok, false, now⟩
def evError (fd : Nat) : Ev := ⟨fd, .error, none, false, false, 0⟩

/-- Rounds of events one after another. -/
def rounds (c : Conf) (s : S) (l : List (List Ev)) : Option S := l.foldlM (fun s evs => wait c s evs) s

/-- C55. A round of events: no assertion fails. Each client's connection is changed by its own event only: it is closed
after an error or a failed query, its timeout moved after a served query, otherwise it stays as it was; new connections
are those of the listening sockets, as far as the limit allows. The listening sockets stay. Exactly the closed
connections are closed, once each, with no TLS connection left behind. Missing: the limit lowered below the number of
connections (`C55_limit_lowered`) and failed registering (`C55_failed_add_leak`). -/
theorem C55_round_partial {masters : List (Nat × Nat)} {c : Conf} {s : S} {evs : List Ev} (h : Life masters c s)
    (hf : Fits s evs) (hmax : s.arr.length ≤ c.max) :
    ∃ s', wait c s evs = some s' ∧
      listeners masters.length s' = listeners masters.length s ∧
      (clients masters.length s').Perm ((clients masters.length s).filterMap (after c.idle evs) ++
        accepted c.max c.idle (listeners masters.length s) s.arr.length evs) ∧
      ∃ gone : List Nat,
        gone.Perm (((clients masters.length s).filter (fun x => (after c.idle evs x).isNone)).map (·.fd)) ∧
        s'.log = s.log ++ gone.map (fun fd => (fd, false)) := by
  have hk := life_ok h
  obtain ⟨s', h1, _, h3, _, h5, _, h7⟩ := wait_spec hk.good hf hmax hk.len
  rw [hk.thr] at h3 h5 h7
  exact ⟨s', h1, h3, h5, h7⟩

/-- C55. A sweep ends; it closes exactly the connections past their timeout, once each, with no TLS connection left
behind, and keeps the others as they were. -/
theorem C55_sweep_partial {masters : List (Nat × Nat)} {c : Conf} {s : S} (h : Life masters c s) (now : Nat) :
    ∃ s', sweep now s = some s' ∧
      listeners masters.length s' = listeners masters.length s ∧
      s'.arr.Perm (s.arr.filter (fun x => decide (¬ Expired now x))) ∧
      ∃ gone : List Nat, gone.Perm ((s.arr.filter (fun x => decide (Expired now x))).map (·.fd)) ∧
        s'.log = s.log ++ gone.map (fun fd => (fd, false)) := by
  have hk := life_ok h
  obtain ⟨s', h1, _, h3, _, h5, h6⟩ := sweep_spec (thr := c.thr) hk.good (ok_not_expired hk now)
  rw [hk.thr] at h3
  exact ⟨s', h1, h3, h5, h6⟩

/-- C55. The number of items after a round is within the limit of that round, for any settings before. -/
theorem C55_limit_partial {masters : List (Nat × Nat)} {c : Conf} {s s' : S} {evs : List Ev} (h : Life masters c s)
    (hf : Fits s evs) (hw : wait c s evs = some s') : s'.arr.length ≤ c.max := by
  have hk := life_ok h
  obtain ⟨s2, h1, _, _, _, _, h6, _⟩ := wait_spec hk.good hf (wait_max hw) hk.len
  rw [hw] at h1
  cases h1
  exact h6

/-- C55. The listening sockets are always the first items, open, without a timeout, registered under their places, and
were never closed; no connection was closed with its TLS connection left behind. -/
theorem C55_listening_partial {masters : List (Nat × Nat)} {c : Conf} {s : S} (h : Life masters c s) :
    listeners masters.length s = masters.map (fun m => ⟨m.1, m.2, false, 0, false⟩) ∧
    (∀ (i : Nat) (m : Nat × Nat), masters[i]? = some m → m.1 ∈ s.opn ∧ s.reg m.1 = some i) ∧
    ∀ x ∈ s.log, x.2 = false ∧ x.1 ∉ masters.map (·.1) := by
  have hk := life_ok h
  have h1 := hk.first
  rw [hk.thr] at h1
  refine ⟨h1, ?_, hk.log⟩
  intro i m hm
  have h2 : s.arr[i]? = some ⟨m.1, m.2, false, 0, false⟩ := by
    obtain ⟨hlt, _⟩ := List.getElem?_eq_some_iff.1 hm
    have := congrArg (fun l : List Conn => l[i]?) h1
    try dsimp only at this
    rw [List.getElem?_take_of_lt hlt, List.getElem?_map, hm] at this
    exact this
  exact ⟨(hk.good.opn _).2 ⟨_, List.mem_of_getElem? h2, rfl⟩, (hk.good.reg _ _).2 (by simp [h2])⟩

/-- C55. The set and the kernel agree: a descriptor is registered with an index iff the item at the index has it; the
open descriptors are those of the items, each of one item; nothing is left marked for removal. So an event is always
handled for the connection it belongs to. -/
theorem C55_kernel_partial {masters : List (Nat × Nat)} {c : Conf} {s : S} (h : Life masters c s) :
    Good s ∧ (s.arr.map (·.fd)).Nodup :=
  ⟨(life_ok h).good, regOk_nodup (life_ok h).good.reg⟩

/-- C55. A client stays connected as long as its queries are served and it is not idle: no event of its own that closes
it, no sweep after its timeout. -/
theorem C55_alive_partial {masters : List (Nat × Nat)} {c : Conf} {s : S} (h : Life masters c s) {x : Conn}
    (hx : x ∈ clients masters.length s) :
    (∀ evs s', Fits s evs → wait c s evs = some s' →
      (∀ e ∈ evs, e.fd = x.fd → e.kind ≠ .error ∧ (e.kind = .pollin → e.ok = true)) →
      ∃ y ∈ clients masters.length s', y.fd = x.fd ∧ y.ctx = x.ctx ∧
        ∀ e ∈ evs, e.fd = x.fd → e.kind = .pollin → y.timeout = e.now + c.idle) ∧
    (∀ now s', sweep now s = some s' → now < x.timeout → x ∈ s'.arr) := by
  constructor
  · intro evs s' hf hw hev
    obtain ⟨s2, h1, _, h3, _⟩ := C55_round_partial h hf (wait_max hw)
    rw [hw] at h1
    cases h1
    have key : ∃ y, after c.idle evs x = some y ∧ y.fd = x.fd ∧ y.ctx = x.ctx ∧
        ∀ e ∈ evs, e.fd = x.fd → e.kind = .pollin → y.timeout = e.now + c.idle := by
      have huniq : ∀ e ∈ evs, ∀ d ∈ evs, e.fd = d.fd → e = d := by
        intro e he d hd hed
        exact List.inj_on_of_nodup_map hf.nodup he hd hed
      unfold after
      cases he : eventOf evs x.fd with
      | none =>
        refine ⟨x, rfl, rfl, rfl, ?_⟩
        intro e hm hfd
        unfold eventOf at he
        rw [List.find?_eq_none] at he
        exact absurd hfd (by simpa using he e hm)
      | some e =>
        have hm : e ∈ evs := List.mem_of_find?_eq_some he
        have hfd : e.fd = x.fd := by
          have := List.find?_some he; simpa using this
        obtain ⟨k1, k2⟩ := hev e hm hfd
        dsimp only
        cases hk : e.kind with
        | error => exact absurd hk k1
        | other =>
          refine ⟨x, rfl, rfl, rfl, ?_⟩
          intro d hd hdf hdk
          rw [huniq d hd e hm (hdf.trans hfd.symm), hk] at hdk
          cases hdk
        | pollin =>
          rw [k2 hk]
          refine ⟨_, rfl, rfl, rfl, ?_⟩
          intro d hd hdf _
          rw [huniq d hd e hm (hdf.trans hfd.symm)]
    obtain ⟨y, k1, k2⟩ := key
    exact ⟨y, h3.mem_iff.2 (List.mem_append_left _ (List.mem_filterMap.2 ⟨x, hx, k1⟩)), k2⟩
  · intro now s' hw hnow
    obtain ⟨s2, h1, _, h3, _⟩ := C55_sweep_partial h now
    rw [hw] at h1
    cases h1
    refine h3.mem_iff.2 (List.mem_filter.2 ⟨List.mem_of_mem_drop hx, ?_⟩)
    simp only [decide_eq_true_eq]
    intro hx2
    exact absurd hx2.2 (by omega)

/-- C55. The limits of the threads: every thread has room for a client, and together the threads have room for at most the
configured number of clients, or one each; at most one client per thread is lost by rounding. -/
theorem C55_room (thr maxClients threads : Nat) (ht : 0 < threads) :
    thr + 1 ≤ limit thr maxClients threads ∧
    threads * (limit thr maxClients threads - thr) ≤ Nat.max maxClients threads ∧
    maxClients < threads * (limit thr maxClients threads - thr + 1) := by
  have h1 : Nat.max (maxClients / threads) 1 = max (maxClients / threads) 1 := rfl
  have h4 : Nat.max maxClients threads = max maxClients threads := rfl
  have h2 : threads * (maxClients / threads) ≤ maxClients := Nat.mul_div_le ..
  have h3 : maxClients < threads * (maxClients / threads + 1) := by
    rw [Nat.mul_add, Nat.mul_one]
    have := Nat.div_add_mod maxClients threads
    have := Nat.mod_lt maxClients ht
    omega
  unfold limit
  rw [h1, h4, Nat.add_sub_cancel_left]
  rcases Nat.le_total 1 (maxClients / threads) with h | h
  · rw [Nat.max_eq_left h]
    refine ⟨by omega, Nat.le_trans h2 (Nat.le_max_left ..), h3⟩
  · rw [Nat.max_eq_right h]
    refine ⟨by omega, by simpa using Nat.le_max_right .., Nat.lt_of_lt_of_le h3 (Nat.mul_le_mul_left _ (by omega))⟩

example : limit 2 10 4 = 4 ∧ limit 2 3 4 = 3 := by decide

/-! ## Examples -/

/-- A thread with one listening socket and room for two clients; both connect, one sends a query. -/
def demoConf : Conf := ⟨1, limit 1 2 1, 10⟩
def demoStart : S := start [(3, 0)]

def demo1 : S := (wait demoConf demoStart [evAccept 5 true 1]).getD demoStart

theorem demo_life : ∃ s, Life [(3, 0)] demoConf s ∧ s.arr.map (fun x => (x.fd, x.timeout)) = [(3, 0), (5, 11), (6, 12)] ∧
    s.opn = [6, 5, 3] := by
  have h0 : Life [(3, 0)] demoConf demoStart := Life.start (by decide) (by decide) (by decide)
  have f1 : Fits demoStart [evAccept 5 true 1] :=
    ⟨by decide, by decide, by
      intro e he fd ok hc
      rw [List.mem_singleton.1 he] at hc
      simp only [evAccept, Option.some.injEq, Prod.mk.injEq] at hc
      rw [← hc.1, ← hc.2]; decide, by decide⟩
  obtain ⟨s1, w1, _⟩ := C55_round_partial h0 f1 (by decide)
  have l1 : Life [(3, 0)] demoConf s1 := Life.wait h0 f1 w1
  have e1 : s1 = demo1 := by simp [demo1, w1]
  have f2 : Fits s1 [evAccept 6 true 2] := by
    rw [e1]
    exact ⟨by decide, by decide, by
      intro e he fd ok hc
      rw [List.mem_singleton.1 he] at hc
      simp only [evAccept, Option.some.injEq, Prod.mk.injEq] at hc
      rw [← hc.1, ← hc.2]; decide, by decide⟩
  obtain ⟨s2, w2, _⟩ := C55_round_partial l1 f2 (by rw [e1]; decide)
  have l2 : Life [(3, 0)] demoConf s2 := Life.wait l1 f2 w2
  refine ⟨s2, l2, ?_, ?_⟩
  · have : s2.arr = ((wait demoConf s1 [evAccept 6 true 2]).map (·.arr)).getD [] := by simp [w2]
    rw [this, e1]; decide
  · have : s2.opn = ((wait demoConf s1 [evAccept 6 true 2]).map (·.opn)).getD [] := by simp [w2]
    rw [this, e1]; decide

/-- Rounds: two clients, a query of the first, an error of the second; a third is accepted in its place; the first is
swept later. -/
example : ((rounds demoConf demoStart [[evAccept 5 true 1], [evAccept 6 true 2], [evAccept 7 true 3, evQuery 5 true 3],
      [evError 6], [evAccept 7 true 8]]).map (fun s => s.arr.map (fun x => (x.fd, x.timeout)))) =
    some [(3, 0), (5, 13), (7, 18)] ∧
    ((rounds demoConf demoStart [[evAccept 5 true 1], [evAccept 6 true 2], [evAccept 7 true 3, evQuery 5 true 3],
      [evError 6], [evAccept 7 true 8]]).bind (sweep 13)).map (fun s => (s.arr.map (·.fd), s.log)) =
    some ([3, 7], [(6, false), (5, false)]) := by decide +kernel

/-- C55. Finding: when tcp-max-clients is lowered by a reload below the number of connected clients, the assertion at the
start of the next round fails, whatever the events: the server aborts. -/
theorem C55_limit_lowered : ∃ (masters : List (Nat × Nat)) (c c' : Conf) (s : S),
    Life masters c s ∧ c.max = limit masters.length 2 1 ∧ c'.max = limit masters.length 1 1 ∧
    Life masters c' s ∧ s.arr.length ≤ c.max ∧ ∀ evs, wait c' s evs = none := by
  obtain ⟨s, h1, h2, _⟩ := demo_life
  have hl : s.arr.length = 3 := by
    have := congrArg List.length h2
    simpa using this
  refine ⟨[(3, 0)], demoConf, ⟨1, limit 1 1 1, 10⟩, s, h1, rfl, rfl, Life.conf h1 rfl, by rw [hl]; decide, ?_⟩
  intro evs
  unfold wait
  rw [if_pos (by rw [hl]; decide)]

/-- C55. Finding: when registering of an accepted descriptor fails, the descriptor is closed but its item stays. With
one client allowed, no descriptor but the listening socket is open, yet the item is never swept and no client is ever
accepted again. -/
theorem C55_failed_add_leak : ∃ (c : Conf) (s : S), c.max = limit 1 1 1 ∧
    rounds c demoStart [[evAccept 5 false 1]] = some s ∧ s.opn = [3] ∧ s.arr.length = 2 ∧
    (∀ now, sweep now s = some s) ∧
    ∀ client now, wait c s [⟨3, .pollin, client, false, false, now⟩] = some s := by
  refine ⟨⟨1, limit 1 1 1, 10⟩,
    ⟨[⟨3, 0, false, 0, false⟩, ⟨5, 0, false, 0, false⟩], put (put (fun _ => none) 3 (some 0)) 5 none, [3],
      [(5, false)]⟩, rfl, rfl, rfl, rfl, ?_, ?_⟩
  · intro now
    simp [sweep, sweepLoop]
  · intro client now
    rfl

/-- C55. Finding: the item left behind by a failed registering can take over the events of a later client with the same
descriptor. After some clients come and go, a query of the client with descriptor 7 served at time 15 moves the timeout
of the left item instead of its own, so the client is closed at time 20 although its idle time is 10; the next sweep
after the timeout of the left item never ends. -/
theorem C55_failed_add_hang :
    let s := rounds ⟨1, 9, 10⟩ demoStart [[evAccept 5 true 1], [evAccept 6 true 1], [evAccept 7 false 2],
      [evAccept 7 true 3], [evError 5], [evError 6], [evQuery 7 true 15]]
    (s.map (fun s => s.arr.map (fun x => (x.fd, x.timeout)))) = some [(3, 0), (7, 13), (7, 25)] ∧
    ((s.bind (sweep 20)).map (·.log)) = some [(7, false), (5, false), (6, false), (7, false)] ∧
    ((s.bind (sweep 20)).map (fun s => s.arr.map (·.fd))) = some [3, 7] ∧
    ((s.bind (sweep 20)).bind (sweep 25)).isNone = true := by
  decide +kernel

end Knot
