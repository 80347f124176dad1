import Verif.Pool.Lemmas2
/-!
# C43 — the worker pool, for every schedule

A run is any interleaving of the threads' and callers' critical sections from a new pool on.
-/
namespace Knot
open Pool

/-- Every assigned task is started once, in the order of assignment: at any time the queue is what
was assigned and not yet started. -/
theorem C43_fifo (n : Nat) (as : List Act) (s : St) (es : List Event)
    (h : exec (create n) as = some (s, es)) : queue es = some s.tasks := by
  have := exec_inv as _ _ [] es (create_inv n) h
  simpa using this.queue

/-- A thread runs one task at a time, at most `n` tasks run at once, and the counter of running
tasks is their number. -/
theorem C43_running (n : Nat) (as : List Act) (s : St) (es : List Event)
    (h : exec (create n) as = some (s, es)) :
    (∃ f, tasksRun es = some f ∧ (∀ i t, f i = some t ↔ s.workers[i]? = some (.busy t)) ∧
      ∀ i, n ≤ i → f i = none) ∧
    s.running = ((s.workers.filter fun w => w.isBusy).length : Nat) ∧ s.workers.length = n := by
  have hi := exec_inv as _ _ [] es (create_inv n) h
  simp only [List.nil_append] at hi
  obtain ⟨f, hf, hfi⟩ := hi.runs
  refine ⟨⟨f, hf, fun i t => ?_, fun i hn => ?_⟩, ?_, hi.size⟩
  · rw [hfi]
    cases e : s.workers[i]? with
    | none => simp [taskOf]
    | some w => cases w <;> simp [taskOf]
  · rw [hfi, List.getElem?_eq_none (by rw [hi.size]; exact hn)]
    rfl
  · rw [← List.countP_eq_length_filter]
    exact hi.running

/-- worker_pool_wait() returns only when nothing is queued and no task is running. -/
theorem C43_wait (n : Nat) (as : List Act) (s : St) (pre post : List Event) (j : Nat)
    (h : exec (create n) as = some (s, pre ++ .waited j :: post)) : Quiet pre := by
  have hi := exec_inv as _ _ [] _ (create_inv n) h
  exact hi.past pre (.waited j) post (by simp)

/-- No task is started while the pool is suspended or after it was stopped. -/
theorem C43_suspend (n : Nat) (as : List Act) (s : St) (pre post : List Event) (i t : Nat)
    (h : exec (create n) as = some (s, pre ++ .started i t :: post)) :
    isSuspended pre = false ∧ isStopped pre = false := by
  have hi := exec_inv as _ _ [] _ (create_inv n) h
  exact hi.past pre (.started i t) post (by simp)

/-- A task that is queued is never forgotten: unless the pool is suspended or stopped, some thread
can go on. The queue must not have been cleared, see `C43_lost`. -/
theorem C43_progress_partial (n : Nat) (hn : 0 < n) (as : List Act) (hc : .clear ∉ as) (s : St)
    (es : List Event) (h : exec (create n) as = some (s, es)) (h1 : isSuspended es = false)
    (h2 : isStopped es = false) (h3 : queue es ≠ some []) : ∃ w ∈ s.workers, w.Awake := by
  have hi := exec_inv as _ _ [] es (create_inv n) h
  simp only [List.nil_append] at hi
  have hl := exec_live as _ _ _ es (create_live n) h
  simp only [hc, decide_false, Bool.or_false] at hl
  refine hl.awake rfl (by rw [← hi.stop, h2]) (by rw [← hi.susp, h1]) ?_ ?_
  · intro e; exact h3 (by rw [hi.queue, e])
  · intro e
    have := hi.size
    rw [e] at this
    simp at this
    omega

/-- Who waits for a quiet pool does not sleep once it is quiet. The queue must not have been
cleared, see `C43_lost`. -/
theorem C43_waiter_partial (n : Nat) (as : List Act) (hc : .clear ∉ as) (s : St) (es : List Event)
    (h : exec (create n) as = some (s, es)) (hq : Quiet es) : .asleep ∉ s.waiters := by
  have hi := exec_inv as _ _ [] es (create_inv n) h
  simp only [List.nil_append] at hi
  have hl := exec_live as _ _ _ es (create_live n) h
  simp only [hc, decide_false, Bool.or_false] at hl
  obtain ⟨q1, f, q2, q3⟩ := hq
  obtain ⟨f', hf, hfi⟩ := hi.runs
  have ht : s.tasks = [] := by
    have := hi.queue
    rw [q1] at this
    exact (Option.some.inj this).symm
  have hr : s.running = 0 := by
    have : s.workers.countP Worker.isBusy = 0 := by
      rw [List.countP_eq_zero]
      intro w hw hb
      obtain ⟨i, hlt, e⟩ := List.getElem_of_mem hw
      have e' : s.workers[i]? = some w := by rw [List.getElem?_eq_getElem hlt, e]
      rw [q2] at hf
      cases hf
      have := hfi i
      rw [q3, e'] at this
      cases w <;> simp [Worker.isBusy, taskOf] at hb this
    have := hi.running
    omega
  exact hl.waiter rfl ht hr

/-- After the pool was stopped no thread sleeps, so that each of them ends at its next step. -/
theorem C43_stop (n : Nat) (as : List Act) (s : St) (es : List Event)
    (h : exec (create n) as = some (s, es)) (h1 : isStopped es = true) :
    .asleep ∉ s.workers ∧
    (∀ (i : Nat), s.workers[i]? = some .ready → ∃ s', step s (.work i) = some (s', []) ∧
      s'.workers[i]? = some .ended) ∧
    ∀ (i t : Nat), s.workers[i]? = some (.busy t) →
      ∃ s', step s (.finish i) = some (s', [.finished i t]) ∧ s'.workers[i]? = some .ended := by
  have hi := exec_inv as _ _ [] es (create_inv n) h
  simp only [List.nil_append] at hi
  have hl := exec_live as _ _ _ es (create_live n) h
  have ht : s.terminating = true := by rw [← hi.stop, h1]
  refine ⟨hl.asleep ht, fun i e => ?_, fun i t e => ?_⟩
  · have hlt := (List.getElem?_eq_some_iff.1 e).1
    refine ⟨{ s with workers := s.workers.set i .ended }, ?_, List.getElem?_set_self hlt⟩
    simp only [step, if_pos e, round, if_pos ht]
  · have hlt := (List.getElem?_eq_some_iff.1 e).1
    refine ⟨{ broadcast { s with running := s.running - 1 } with
        workers := (broadcast { s with running := s.running - 1 }).workers.set i .ended }, ?_,
      List.getElem?_set_self (by simpa [broadcast] using hlt)⟩
    have ht' : (broadcast { s with running := s.running - 1 }).terminating = true := ht
    simp only [step, e, finishTask, round, if_pos ht']

/-- The threads do the work: as long as nothing is asked of the pool the threads make a bounded
number of steps, and when no thread can make a step any more, all the tasks were run and nobody
sleeps waiting for them. If the pool was stopped then all threads have ended. (A step ending a task
is possible at any time: tasks return.) The queue must not have been cleared. -/
theorem C43_drain_partial (n : Nat) (hn : 0 < n) (as : List Act) (hc : .clear ∉ as) (s : St)
    (es : List Event) (h : exec (create n) as = some (s, es)) (bs : List Act)
    (hb : ∀ a ∈ bs, a.OfWorker) (s' : St) (es' : List Event) (h' : exec s bs = some (s', es')) :
    bs.length ≤ (n + 2) * (s.tasks.length + n) ∧
    ((∀ a : Act, a.OfWorker → step s' a = none) →
      (isStopped (es ++ es') = true → ∀ w ∈ s'.workers, w = .ended) ∧
      (isStopped (es ++ es') = false → isSuspended (es ++ es') = false →
        Quiet (es ++ es') ∧ .asleep ∉ s'.waiters)) := by
  have hi := exec_inv as _ _ [] es (create_inv n) h
  simp only [List.nil_append] at hi
  have hi' := exec_inv bs _ _ es es' hi h'
  have hl := exec_live as _ _ _ es (create_live n) h
  simp only [hc, decide_false, Bool.or_false] at hl
  have hcb : Act.clear ∉ bs := fun hm => hb _ hm
  have hl' := exec_live bs _ _ _ es' hl h'
  simp only [hcb, decide_false, Bool.or_false] at hl'
  refine ⟨?_, fun hst => ?_⟩
  · have h1 := exec_measure n bs s s' es es' hi hb h'
    have h2 := measure_le n s hi.size
    omega
  · have hw := stuck_workers hst
    refine ⟨fun h1 w hm => ?_, fun h1 h2 => ?_⟩
    · have ht : s'.terminating = true := by rw [← hi'.stop, h1]
      have := hw w hm
      cases w with
      | ready => exact absurd trivial this
      | busy t => exact absurd trivial this
      | asleep => exact absurd hm (hl'.asleep ht)
      | ended => rfl
    · have hnw : ¬ ∃ w ∈ s'.workers, w.Awake := fun ⟨w, hm, ha⟩ => hw w hm ha
      have hr := hl'.idle hnw
      have ht : s'.tasks = [] := by
        apply Classical.byContradiction
        intro hne
        refine hnw (hl'.awake rfl (by rw [← hi'.stop, h1]) (by rw [← hi'.susp, h2]) hne ?_)
        intro e
        have := hi'.size
        rw [e] at this
        simp at this
        omega
      exact ⟨hi'.quiet ht (by omega), hl'.waiter rfl ht hr⟩

/-- Finding: after worker_pool_clear() a task can be forgotten. The queue is cleared while a call of
worker_pool_wait() sleeps (it is not told); the signal of the next assignment can go to that call,
which sleeps again. Then a task is queued, the pool is neither suspended nor stopped, and the thread
and the call both sleep. -/
theorem C43_lost : ∃ (as : List Act) (s : St) (es : List Event),
    exec (create 1) as = some (s, es) ∧ isSuspended es = false ∧ isStopped es = false ∧
    queue es = some [2] ∧ s.workers = [.asleep] ∧ s.waiters = [.asleep] := by
  refine ⟨[.assign 1 .nobody, .call, .check 0, .clear, .work 0, .assign 2 (.waiter 0), .check 0],
    _, _, rfl, ?_⟩
  decide

/-- Finding: worker_pool_clear() leaves a call of worker_pool_wait() asleep although nothing is
queued and nothing is running. -/
theorem C43_clear_silent : ∃ (as : List Act) (s : St) (es : List Event),
    exec (create 1) as = some (s, es) ∧ queue es = some [] ∧ s.workers = [.asleep] ∧
    s.waiters = [.asleep] := by
  refine ⟨[.assign 1 .nobody, .call, .check 0, .clear, .work 0], _, _, rfl, ?_⟩
  decide

/-- Finding: an idle thread may stay asleep although a task is queued: the signal of
worker_pool_assign() can wake a call of worker_pool_wait() instead of a thread. The task waits for
the end of the task running on another thread. -/
theorem C43_stolen : ∃ (as : List Act) (s : St) (es : List Event),
    .clear ∉ as ∧ exec (create 2) as = some (s, es) ∧ isSuspended es = false ∧
    isStopped es = false ∧ queue es = some [2] ∧ s.workers = [.busy 1, .asleep] ∧
    s.waiters = [.asleep] := by
  refine ⟨[.assign 1 .nobody, .work 0, .work 1, .call, .check 0, .assign 2 (.waiter 0), .check 0],
    _, _, by decide, rfl, ?_⟩
  decide

/-- A run with two threads in which both tasks run, the pool is suspended and resumed, the caller
waits and the pool is stopped. -/
example : ∃ s, exec (create 2) [.assign 1 .nobody, .work 0, .suspend, .assign 2 .nobody, .work 1, .call,
      .check 0, .finish 0, .resume, .work 1, .check 0, .finish 1, .check 0, .stop, .work 0, .work 1] =
    some (s, [.assigned 1, .started 0 1, .suspended, .assigned 2, .finished 0 1, .resumed, .started 1 2,
      .finished 1 2, .waited 0, .stopped]) ∧ s.workers = [.ended, .ended] :=
  ⟨_, rfl, by decide⟩

/-- The hypotheses of `C43_progress_partial` and `C43_drain_partial` are met by a run with a task
queued and one running. -/
example : ∃ s es, exec (create 2) [.assign 1 .nobody, .assign 2 .nobody, .work 0] = some (s, es) ∧
    isSuspended es = false ∧ isStopped es = false ∧ queue es = some [2] ∧
    ∃ s' es', exec s [.work 1, .finish 0, .finish 1, .work 0] = some (s', es') ∧
      s'.workers = [.asleep, .asleep] ∧ s'.tasks = [] :=
  ⟨_, _, rfl, by decide, by decide, by decide, _, _, rfl, by decide, by decide⟩

end Knot
