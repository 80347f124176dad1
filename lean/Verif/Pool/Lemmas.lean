import Verif.Pool.Spec
/-! # Lemmas: the worker pool -/
namespace Knot.Pool

/-- The task of a thread. -/
def taskOf : Option Worker → Option Nat
  | some (.busy t) => some t
  | _ => none

/-- What may happen after `es`. -/
def Allowed (es : List Event) : Event → Prop
  | .started _ _ => isSuspended es = false ∧ isStopped es = false
  | .waited _ => Quiet es
  | _ => True

/-- The state belongs to the events. -/
structure Inv (n : Nat) (s : St) (es : List Event) : Prop where
  size : s.workers.length = n
  queue : queue es = some s.tasks
  runs : ∃ f, tasksRun es = some f ∧ ∀ i : Nat, f i = taskOf s.workers[i]?
  running : s.running = (s.workers.countP Worker.isBusy : Nat)
  susp : isSuspended es = s.suspended
  stop : isStopped es = s.terminating
  past : ∀ pre e post, es = pre ++ e :: post → Allowed pre e

theorem queue_snoc (es : List Event) (e : Event) : queue (es ++ [e]) =
    (match queue es, e with
      | some q, .assigned t => some (q ++ [t])
      | some (t :: q), .started _ t' => if t = t' then some q else none
      | some [], .started _ _ => none
      | some _, .cleared => some []
      | q, _ => q) := by
  unfold queue
  rw [List.foldl_append]
  rfl

theorem tasksRun_snoc (es : List Event) (e : Event) : tasksRun (es ++ [e]) =
    (match tasksRun es, e with
      | some f, .started i t =>
        if f i = none then some (fun j => if j = i then some t else f j) else none
      | some f, .finished i t =>
        if f i = some t then some (fun j => if j = i then none else f j) else none
      | f, _ => f) := by
  unfold tasksRun
  rw [List.foldl_append]
  rfl

theorem isSuspended_snoc (es : List Event) (e : Event) : isSuspended (es ++ [e]) =
    (match e with | .suspended => true | .resumed => false | _ => isSuspended es) := by
  unfold isSuspended
  rw [List.foldl_append]
  rfl

theorem isStopped_snoc (es : List Event) (e : Event) :
    isStopped (es ++ [e]) = (isStopped es || decide (e = .stopped)) := by
  unfold isStopped
  rw [Bool.eq_iff_iff, Bool.or_eq_true]
  simp only [decide_eq_true_eq, List.mem_append, List.mem_singleton]
  constructor
  · rintro (h | h)
    · exact .inl h
    · exact .inr h.symm
  · rintro (h | h)
    · exact .inl h
    · exact .inr h.symm

theorem past_snoc {es : List Event} {e : Event}
    (h : ∀ pre e post, es = pre ++ e :: post → Allowed pre e) (he : Allowed es e) :
    ∀ pre e' post, es ++ [e] = pre ++ e' :: post → Allowed pre e' := by
  intro pre e' post heq
  rcases List.eq_nil_or_concat post with hp | ⟨post', x, hp⟩
  · subst hp
    have := List.append_inj' heq rfl
    obtain ⟨h1, h2⟩ := this
    cases h2
    subst h1
    exact he
  · subst hp
    have h2 : es ++ [e] = (pre ++ e' :: post') ++ [x] := by rw [heq]; simp
    have := List.append_inj' h2 rfl
    exact h pre e' post' this.1

theorem taskOf_set (l : List Worker) (i j : Nat) (w : Worker) (hi : i < l.length) :
    taskOf (l.set i w)[j]? = if j = i then taskOf (some w) else taskOf l[j]? := by
  rw [List.getElem?_set]
  by_cases h : i = j
  · subst h; simp [hi]
  · rw [if_neg h, if_neg (fun e => h e.symm)]

theorem taskOf_wake (o : Option Worker) : taskOf (o.map Worker.wake) = taskOf o := by
  cases o with
  | none => rfl
  | some w => cases w <;> rfl

theorem countP_wake (l : List Worker) :
    (l.map Worker.wake).countP Worker.isBusy = l.countP Worker.isBusy := by
  rw [List.countP_map]
  apply List.countP_congr
  intro w _
  cases w <;> simp [Worker.wake, Worker.isBusy]

theorem countP_set_idle (l : List Worker) (i : Nat) (w w' : Worker) (hi : l[i]? = some w)
    (h : w.isBusy = false) (h' : w'.isBusy = false) :
    (l.set i w').countP Worker.isBusy = l.countP Worker.isBusy := by
  obtain ⟨hl, e⟩ := List.getElem?_eq_some_iff.1 hi
  rw [List.countP_set hl, e, h, h']
  simp

theorem countP_set_start (l : List Worker) (i t : Nat) (w : Worker) (hi : l[i]? = some w)
    (h : w.isBusy = false) :
    (l.set i (.busy t)).countP Worker.isBusy = l.countP Worker.isBusy + 1 := by
  obtain ⟨hl, e⟩ := List.getElem?_eq_some_iff.1 hi
  rw [List.countP_set hl, e, h]
  simp [Worker.isBusy]

theorem countP_set_finish (l : List Worker) (i t : Nat) (w : Worker) (hi : l[i]? = some (.busy t))
    (h : w.isBusy = false) :
    (l.set i w).countP Worker.isBusy + 1 = l.countP Worker.isBusy := by
  obtain ⟨hl, e⟩ := List.getElem?_eq_some_iff.1 hi
  have : 0 < l.countP Worker.isBusy :=
    List.countP_pos_iff.2 ⟨l[i], List.getElem_mem hl, by rw [e]; rfl⟩
  rw [List.countP_set hl, e, h]
  simp [Worker.isBusy]
  omega

/-- Nothing is running if the counter says so. -/
theorem Inv.quiet {n : Nat} {s : St} {es : List Event} (h : Inv n s es) (ht : s.tasks = [])
    (hr : ¬ s.running > 0) : Quiet es := by
  obtain ⟨f, hf, hfi⟩ := h.runs
  refine ⟨by rw [h.queue, ht], f, hf, fun i => ?_⟩
  have hc : s.workers.countP Worker.isBusy = 0 := by have := h.running; omega
  rw [hfi]
  cases e : s.workers[i]? with
  | none => rfl
  | some w =>
    have hm := List.mem_of_getElem? e
    have := List.countP_eq_zero.1 hc w hm
    cases w <;> simp_all [Worker.isBusy, taskOf]

/-- A change of the sleeping threads only. -/
theorem Inv.idle {n : Nat} {s s' : St} {es : List Event} (h : Inv n s es)
    (h1 : s'.workers.length = s.workers.length) (h2 : s'.tasks = s.tasks)
    (h3 : ∀ i : Nat, taskOf s'.workers[i]? = taskOf s.workers[i]?)
    (h4 : s'.running = s.running)
    (h5 : s'.workers.countP Worker.isBusy = s.workers.countP Worker.isBusy)
    (h6 : s'.suspended = s.suspended) (h7 : s'.terminating = s.terminating) : Inv n s' es := by
  obtain ⟨f, hf, hfi⟩ := h.runs
  exact ⟨h1.trans h.size, by rw [h2]; exact h.queue, ⟨f, hf, fun i => by rw [h3, hfi]⟩,
    by rw [h4, h5]; exact h.running, by rw [h6]; exact h.susp, by rw [h7]; exact h.stop, h.past⟩

theorem Inv.set_idle {n : Nat} {s : St} {es : List Event} (h : Inv n s es) (i : Nat) (w w' : Worker)
    (hi : s.workers[i]? = some w) (hw : w.isBusy = false) (hw' : w'.isBusy = false) :
    Inv n { s with workers := s.workers.set i w' } es := by
  refine h.idle (by simp) rfl ?_ rfl (countP_set_idle _ _ _ _ hi hw hw') rfl rfl
  intro j
  have hl := (List.getElem?_eq_some_iff.1 hi).1
  dsimp only
  rw [taskOf_set _ _ _ _ hl]
  split
  · rename_i e
    subst e
    rw [hi]
    cases w <;> cases w' <;> simp_all [Worker.isBusy, taskOf]
  · rfl

theorem round_inv {n : Nat} {s : St} {es : List Event} (h : Inv n s es) (i : Nat) (w : Worker)
    (hi : s.workers[i]? = some w) (hw : w.isBusy = false) :
    Inv n (round s i).1 (es ++ (round s i).2) := by
  have hl := (List.getElem?_eq_some_iff.1 hi).1
  unfold round
  by_cases h1 : s.terminating = true
  · rw [if_pos h1]
    simpa using h.set_idle i w .ended hi hw rfl
  · rw [if_neg h1]
    by_cases h2 : s.suspended = true
    · rw [if_pos h2]
      simpa using h.set_idle i w .asleep hi hw rfl
    · rw [if_neg h2]
      cases e : s.tasks with
      | nil =>
        have := h.set_idle i w .asleep hi hw rfl
        rw [e] at this
        simpa using this
      | cons t ts =>
        dsimp only
        obtain ⟨f, hf, hfi⟩ := h.runs
        refine ⟨by simp [h.size], ?_, ?_, ?_, ?_, ?_, ?_⟩
        · rw [queue_snoc, h.queue, e]
          simp
        · refine ⟨fun j => if j = i then some t else f j, ?_, ?_⟩
          · rw [tasksRun_snoc, hf]
            dsimp only
            rw [if_pos]
            rw [hfi, hi]
            cases w <;> simp_all [Worker.isBusy, taskOf]
          · intro j
            dsimp only
            rw [taskOf_set _ _ _ _ hl, hfi]
            rfl
        · dsimp only
          rw [countP_set_start _ _ _ _ hi hw, h.running]
          omega
        · rw [isSuspended_snoc]; exact h.susp
        · rw [isStopped_snoc, h.stop]; simp
        · apply past_snoc h.past
          exact ⟨by rw [h.susp]; simpa using h2, by rw [h.stop]; simpa using h1⟩

theorem round_override (s : St) (i : Nat) (w : Worker) :
    round { s with workers := s.workers.set i w } i = round s i := by
  unfold round
  simp only [List.set_set]

theorem broadcast_inv {n : Nat} {s : St} {es : List Event} (h : Inv n s es) :
    Inv n (broadcast s) es := by
  refine h.idle (by simp [broadcast]) rfl ?_ rfl (countP_wake _) rfl rfl
  intro i
  simp only [broadcast, List.getElem?_map, taskOf_wake]

theorem broadcast_set (s : St) (i : Nat) (w : Worker) (hw : w.wake = w) :
    broadcast { s with workers := s.workers.set i w } =
      { broadcast s with workers := (broadcast s).workers.set i w } := by
  unfold broadcast
  simp only [List.map_set, hw]

theorem finish_inv {n : Nat} {s : St} {es : List Event} (h : Inv n s es) (i t : Nat)
    (hi : s.workers[i]? = some (.busy t)) :
    Inv n (finishTask s i t).1 (es ++ (finishTask s i t).2) := by
  have hl := (List.getElem?_eq_some_iff.1 hi).1
  obtain ⟨f, hf, hfi⟩ := h.runs
  have h1 : Inv n { s with running := s.running - 1, workers := s.workers.set i .ready }
      (es ++ [.finished i t]) := by
    refine ⟨by simp [h.size], ?_, ?_, ?_, ?_, ?_, past_snoc h.past trivial⟩
    · rw [queue_snoc, h.queue]
    · refine ⟨fun j => if j = i then none else f j, ?_, ?_⟩
      · rw [tasksRun_snoc, hf]
        dsimp only
        rw [if_pos]
        rw [hfi, hi]
        rfl
      · intro j
        dsimp only
        rw [taskOf_set _ _ _ _ hl, hfi]
        rfl
    · have := countP_set_finish s.workers i t .ready hi rfl
      have := h.running
      dsimp only
      omega
    · rw [isSuspended_snoc]; exact h.susp
    · rw [isStopped_snoc, h.stop]; simp
  have h2 := broadcast_inv h1
  have e1 : broadcast { s with running := s.running - 1, workers := s.workers.set i .ready } =
      { broadcast { s with running := s.running - 1 } with
        workers := (broadcast { s with running := s.running - 1 }).workers.set i .ready } :=
    broadcast_set { s with running := s.running - 1 } i .ready rfl
  rw [e1] at h2
  have h3 := round_inv h2 i .ready (by
    dsimp only
    rw [List.getElem?_set_self (by simpa [broadcast] using hl)]) rfl
  rw [round_override] at h3
  unfold finishTask
  dsimp only
  rw [List.append_cons]
  exact h3

theorem signal_inv {n : Nat} {s s' : St} {es : List Event} (h : Inv n s es) (who : Who)
    (hs : signal s who = some s') : Inv n s' es := by
  unfold signal at hs
  split at hs
  · split at hs
    · rename_i hi
      cases hs
      exact h.set_idle _ _ _ hi rfl rfl
    · cases hs
  · split at hs
    · cases hs
      exact h.idle rfl rfl (fun _ => rfl) rfl rfl rfl rfl
    · cases hs
  · split at hs
    · cases hs
    · cases hs; exact h

theorem step_inv {n : Nat} {s s' : St} {es es' : List Event} (h : Inv n s es) (a : Act)
    (hs : step s a = some (s', es')) : Inv n s' (es ++ es') := by
  cases a with
  | work i =>
    simp only [step] at hs
    split at hs
    · rename_i hi
      injection hs with hs
      have := round_inv h i .ready hi rfl
      rw [hs] at this
      exact this
    · cases hs
  | finish i =>
    simp only [step] at hs
    split at hs
    · rename_i t hi
      injection hs with hs
      have := finish_inv h i t hi
      rw [hs] at this
      exact this
    · cases hs
  | wake i =>
    simp only [step] at hs
    split at hs
    · rename_i hi
      cases hs
      simpa using h.set_idle i _ .ready hi rfl rfl
    · cases hs
  | wakeCall j =>
    simp only [step] at hs
    split at hs
    · cases hs
      simpa using h.idle (s' := { s with waiters := s.waiters.set j .ready }) rfl rfl
        (fun _ => rfl) rfl rfl rfl rfl
    · cases hs
  | call =>
    simp only [step] at hs
    cases hs
    simpa using h.idle (s' := { s with waiters := s.waiters ++ [.ready] }) rfl rfl (fun _ => rfl) rfl rfl rfl rfl
  | check j =>
    simp only [step] at hs
    split at hs
    · split at hs
      · cases hs
        simpa using h.idle (s' := { s with waiters := s.waiters.set j .asleep }) rfl rfl (fun _ => rfl) rfl rfl rfl rfl
      · rename_i hm
        cases hs
        have hq : Quiet es := by
          unfold mustWait at hm
          simp only [decide_eq_true_eq, not_or, ne_eq] at hm
          exact h.quiet (Decidable.not_not.1 hm.1) hm.2
        obtain ⟨f, hf, hfi⟩ := h.runs
        refine ⟨h.size, ?_, ⟨f, ?_, hfi⟩, h.running, ?_, ?_, past_snoc h.past hq⟩
        · rw [queue_snoc, h.queue]
        · rw [tasksRun_snoc, hf]
        · rw [isSuspended_snoc]; exact h.susp
        · rw [isStopped_snoc, h.stop]; simp
    · cases hs
  | assign t who =>
    simp only [step] at hs
    split at hs
    · rename_i s1 hsig
      cases hs
      obtain ⟨f, hf, hfi⟩ := h.runs
      have h1 : Inv n { s with tasks := s.tasks ++ [t] } (es ++ [.assigned t]) := by
        refine ⟨h.size, ?_, ⟨f, ?_, hfi⟩, h.running, ?_, ?_, past_snoc h.past trivial⟩
        · rw [queue_snoc, h.queue]
        · rw [tasksRun_snoc, hf]
        · rw [isSuspended_snoc]; exact h.susp
        · rw [isStopped_snoc, h.stop]; simp
      exact signal_inv h1 who hsig
    · cases hs
  | suspend =>
    simp only [step] at hs
    cases hs
    obtain ⟨f, hf, hfi⟩ := h.runs
    refine ⟨h.size, ?_, ⟨f, ?_, hfi⟩, h.running, ?_, ?_, past_snoc h.past trivial⟩
    · rw [queue_snoc, h.queue]
    · rw [tasksRun_snoc, hf]
    · rw [isSuspended_snoc]
    · rw [isStopped_snoc, h.stop]; simp
  | resume =>
    simp only [step] at hs
    cases hs
    obtain ⟨f, hf, hfi⟩ := h.runs
    apply broadcast_inv
    refine ⟨h.size, ?_, ⟨f, ?_, hfi⟩, h.running, ?_, ?_, past_snoc h.past trivial⟩
    · rw [queue_snoc, h.queue]
    · rw [tasksRun_snoc, hf]
    · rw [isSuspended_snoc]
    · rw [isStopped_snoc, h.stop]; simp
  | stop =>
    simp only [step] at hs
    cases hs
    obtain ⟨f, hf, hfi⟩ := h.runs
    apply broadcast_inv
    refine ⟨h.size, ?_, ⟨f, ?_, hfi⟩, h.running, ?_, ?_, past_snoc h.past trivial⟩
    · rw [queue_snoc, h.queue]
    · rw [tasksRun_snoc, hf]
    · rw [isSuspended_snoc]; exact h.susp
    · rw [isStopped_snoc]; simp
  | clear =>
    simp only [step] at hs
    cases hs
    obtain ⟨f, hf, hfi⟩ := h.runs
    refine ⟨h.size, ?_, ⟨f, ?_, hfi⟩, h.running, ?_, ?_, past_snoc h.past trivial⟩
    · rw [queue_snoc, h.queue]
    · rw [tasksRun_snoc, hf]
    · rw [isSuspended_snoc]; exact h.susp
    · rw [isStopped_snoc, h.stop]; simp

theorem exec_inv {n : Nat} : ∀ (as : List Act) (s s' : St) (es es' : List Event), Inv n s es →
    exec s as = some (s', es') → Inv n s' (es ++ es')
  | [], s, s', es, es', h, he => by
    simp only [exec] at he
    cases he
    simpa using h
  | a :: as, s, s', es, es', h, he => by
    simp only [exec] at he
    split at he
    · cases he
    · rename_i s1 e1 h1
      split at he
      · cases he
      · rename_i s2 e2 h2
        cases he
        have := exec_inv as s1 _ (es ++ e1) e2 (step_inv h a h1) h2
        rwa [List.append_assoc] at this

theorem create_inv (n : Nat) : Inv n (create n) [] := by
  refine ⟨by simp [create], rfl, ⟨fun _ => none, rfl, ?_⟩, ?_, rfl, rfl, ?_⟩
  · intro i
    simp only [create, List.getElem?_replicate]
    split <;> rfl
  · have : List.countP Worker.isBusy (List.replicate n Worker.ready) = 0 := by
      rw [List.countP_eq_zero]
      intro w hw
      rw [List.eq_of_mem_replicate hw]
      simp [Worker.isBusy]
    simp only [create, this]
    rfl
  · intro pre e post h
    simp at h

end Knot.Pool
