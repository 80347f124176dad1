import Verif.Pool.Lemmas
/-! # Lemmas: the worker pool, who is awake -/
namespace Knot.Pool

/-- Who sleeps and why; `c` says whether the queue was cleared. -/
structure Live (c : Bool) (s : St) : Prop where
  ended : s.terminating = false → .ended ∉ s.workers
  asleep : s.terminating = true → .asleep ∉ s.workers
  count : s.running = (s.workers.countP Worker.isBusy : Nat)
  waiter : c = false → s.tasks = [] → s.running = 0 → .asleep ∉ s.waiters
  awake : c = false → s.terminating = false → s.suspended = false → s.tasks ≠ [] → s.workers ≠ [] →
    ∃ w ∈ s.workers, w.Awake

theorem mem_set_self {α : Type} {l : List α} {i : Nat} {a : α} (h : i < l.length) : a ∈ l.set i a :=
  List.mem_of_getElem? (i := i) (by rw [List.getElem?_set_self h])

theorem exists_awake {l : List Worker} (h0 : l ≠ []) (h1 : .ended ∉ l) (h2 : .asleep ∉ l) :
    ∃ w ∈ l, w.Awake := by
  cases l with
  | nil => exact absurd rfl h0
  | cons w l =>
    refine ⟨w, by simp, ?_⟩
    cases w with
    | ready => trivial
    | busy t => trivial
    | asleep => simp at h2
    | ended => simp at h1

theorem wake_asleep (l : List Worker) : .asleep ∉ l.map Worker.wake := by
  intro h
  obtain ⟨w, _, hw⟩ := List.mem_map.1 h
  cases w <;> simp [Worker.wake] at hw

theorem wake_ended (l : List Worker) (h : .ended ∉ l) : .ended ∉ l.map Worker.wake := by
  intro h'
  obtain ⟨w, hm, hw⟩ := List.mem_map.1 h'
  cases w <;> simp [Worker.wake] at hw
  exact h hm

theorem wake_waiters (l : List Waiter) : .asleep ∉ l.map Waiter.wake := by
  intro h
  obtain ⟨w, _, hw⟩ := List.mem_map.1 h
  cases w <;> simp [Waiter.wake] at hw

/-- After a broadcast everything is well. -/
theorem broadcast_live {s : St} (h1 : s.terminating = false → .ended ∉ s.workers)
    (h2 : s.running = (s.workers.countP Worker.isBusy : Nat)) : Live c (broadcast s) := by
  refine ⟨fun h => wake_ended _ (h1 h), fun _ => wake_asleep _, ?_, fun _ _ _ => wake_waiters _, ?_⟩
  · simp only [broadcast, countP_wake]; exact h2
  · intro _ ht _ _ hw
    exact exists_awake hw (wake_ended _ (h1 ht)) (wake_asleep _)

theorem round_live {s : St} (h : Live c s) (i : Nat) (w : Worker) (hi : s.workers[i]? = some w)
    (hw : w.isBusy = false) : Live c (round s i).1 := by
  have hl := (List.getElem?_eq_some_iff.1 hi).1
  unfold round
  by_cases h1 : s.terminating = true
  · rw [if_pos h1]
    refine ⟨fun h' => absurd (h1.symm.trans h') (by simp), fun _ hm => ?_, ?_, h.waiter, ?_⟩
    · rcases List.mem_or_eq_of_mem_set hm with hm | hm
      · exact h.asleep h1 hm
      · cases hm
    · dsimp only; rw [countP_set_idle _ _ _ _ hi hw rfl]; exact h.count
    · intro _ h'; exact absurd (h1.symm.trans h') (by simp)
  · rw [if_neg h1]
    have h1' : s.terminating = false := by simpa using h1
    have he : ∀ w', w' ≠ .ended → .ended ∉ s.workers.set i w' := by
      intro w' hw' hm
      rcases List.mem_or_eq_of_mem_set hm with hm | hm
      · exact h.ended h1' hm
      · exact hw' hm.symm
    by_cases h2 : s.suspended = true
    · rw [if_pos h2]
      refine ⟨fun _ => he _ (by simp), fun h' => absurd (h1'.symm.trans h') (by simp), ?_, h.waiter, ?_⟩
      · dsimp only; rw [countP_set_idle _ _ _ _ hi hw rfl]; exact h.count
      · intro _ _ h'; exact absurd (h2.symm.trans h') (by simp)
    · rw [if_neg h2]
      split
      · rename_i ht
        refine ⟨fun _ => he _ (by simp), fun h' => absurd (h1'.symm.trans h') (by simp), ?_, ?_, ?_⟩
        · dsimp only; rw [countP_set_idle _ _ _ _ hi hw rfl]; exact h.count
        · exact h.waiter
        · intro _ _ _ h'; exact absurd ht h'
      · rename_i t ts ht
        have hc : s.running + 1 = ((s.workers.set i (.busy t)).countP Worker.isBusy : Nat) := by
          rw [countP_set_start _ _ _ _ hi hw, h.count]; omega
        refine ⟨fun _ => he _ (by simp), fun h' => absurd (h1'.symm.trans h') (by simp), hc, ?_, ?_⟩
        · intro _ _ h'
          have := h.count
          dsimp only at h'
          omega
        · intro _ _ _ _ _
          exact ⟨.busy t, mem_set_self hl, trivial⟩

theorem finish_live {s : St} (h : Live c s) (i t : Nat) (hi : s.workers[i]? = some (.busy t)) :
    Live c (finishTask s i t).1 := by
  have hl := (List.getElem?_eq_some_iff.1 hi).1
  have h1 : Live c (broadcast { s with running := s.running - 1, workers := s.workers.set i .ready }) := by
    apply broadcast_live
    · intro ht hm
      rcases List.mem_or_eq_of_mem_set hm with hm | hm
      · exact h.ended ht hm
      · cases hm
    · have := countP_set_finish s.workers i t .ready hi rfl
      have := h.count
      dsimp only
      omega
  have e1 : broadcast { s with running := s.running - 1, workers := s.workers.set i .ready } =
      { broadcast { s with running := s.running - 1 } with
        workers := (broadcast { s with running := s.running - 1 }).workers.set i .ready } :=
    broadcast_set { s with running := s.running - 1 } i .ready rfl
  rw [e1] at h1
  have h3 := round_live h1 i .ready (by
    dsimp only
    rw [List.getElem?_set_self (by simpa [broadcast] using hl)]) rfl
  rw [round_override] at h3
  exact h3

/-- Nobody runs if all threads sleep. -/
theorem Live.idle {s : St} (h : Live c s) (hn : ¬ ∃ w ∈ s.workers, w.Awake) : s.running = 0 := by
  have : s.workers.countP Worker.isBusy = 0 := by
    rw [List.countP_eq_zero]
    intro w hw hb
    apply hn
    refine ⟨w, hw, ?_⟩
    cases w <;> simp_all [Worker.isBusy, Worker.Awake]
  have := h.count
  omega

/-- A sleeping thread becomes ready. -/
theorem Live.wake {s : St} (h : Live c s) (i : Nat) (hi : s.workers[i]? = some .asleep) :
    Live c { s with workers := s.workers.set i .ready } := by
  have hl := (List.getElem?_eq_some_iff.1 hi).1
  refine ⟨?_, ?_, ?_, h.waiter, ?_⟩
  · intro ht hm
    rcases List.mem_or_eq_of_mem_set hm with hm | hm
    · exact h.ended ht hm
    · cases hm
  · intro ht
    exact absurd (List.mem_of_getElem? hi) (h.asleep ht)
  · dsimp only; rw [countP_set_idle _ _ _ _ hi rfl rfl]; exact h.count
  · intro _ _ _ _ _
    exact ⟨.ready, mem_set_self hl, trivial⟩

theorem assign_live {s s' : St} (h : Live c s) (t : Nat) (who : Who)
    (hs : signal { s with tasks := s.tasks ++ [t] } who = some s') : Live c s' := by
  have hne : s.tasks ++ [t] ≠ [] := by simp
  unfold signal at hs
  split at hs
  · split at hs
    · rename_i i hi
      cases hs
      have hl := (List.getElem?_eq_some_iff.1 hi).1
      refine ⟨?_, ?_, ?_, fun _ h' => absurd h' hne, ?_⟩
      · intro ht hm
        rcases List.mem_or_eq_of_mem_set hm with hm | hm
        · exact h.ended ht hm
        · cases hm
      · intro ht
        exact absurd (List.mem_of_getElem? hi) (h.asleep ht)
      · dsimp only; rw [countP_set_idle _ _ _ _ hi rfl rfl]; exact h.count
      · intro _ _ _ _ _
        exact ⟨.ready, mem_set_self hl, trivial⟩
    · cases hs
  · split at hs
    · rename_i j hj
      cases hs
      refine ⟨h.ended, h.asleep, h.count, fun _ h' => absurd h' hne, ?_⟩
      intro hcl h1 h2 _ h4
      apply Classical.byContradiction
      intro hn
      have hr := h.idle hn
      by_cases hq : s.tasks = []
      · exact h.waiter hcl hq hr (List.mem_of_getElem? hj)
      · exact hn (h.awake hcl h1 h2 hq h4)
    · cases hs
  · split at hs
    · cases hs
    · rename_i hno
      cases hs
      refine ⟨h.ended, h.asleep, h.count, fun _ h' => absurd h' hne, ?_⟩
      intro _ h1 _ _ h4
      exact exists_awake h4 (h.ended h1) (fun hm => hno (.inl hm))

theorem step_live {s s' : St} {es : List Event} (h : Live c s) (a : Act)
    (hs : step s a = some (s', es)) : Live (c || decide (a = .clear)) s' := by
  have key : a ≠ .clear → Live c s' := fun ha => ?_
  · by_cases ha : a = .clear
    · subst ha
      simp only [step] at hs
      cases hs
      exact ⟨h.ended, h.asleep, h.count, fun h' => by simp at h', fun h' => by simp at h'⟩
    · simpa [ha] using key ha
  cases a with
  | work i =>
    simp only [step] at hs
    split at hs
    · rename_i hi
      injection hs with hs
      have := round_live h i .ready hi rfl
      rw [hs] at this
      exact this
    · cases hs
  | finish i =>
    simp only [step] at hs
    split at hs
    · rename_i t hi
      injection hs with hs
      have := finish_live h i t hi
      rw [hs] at this
      exact this
    · cases hs
  | wake i =>
    simp only [step] at hs
    split at hs
    · rename_i hi
      cases hs
      exact h.wake i hi
    · cases hs
  | wakeCall j =>
    simp only [step] at hs
    split at hs
    · cases hs
      refine ⟨h.ended, h.asleep, h.count, fun hcl h1 h2 hm => ?_, h.awake⟩
      rcases List.mem_or_eq_of_mem_set hm with hm | hm
      · exact h.waiter hcl h1 h2 hm
      · cases hm
    · cases hs
  | call =>
    simp only [step] at hs
    cases hs
    refine ⟨h.ended, h.asleep, h.count, fun hcl h1 h2 hm => ?_, h.awake⟩
    rcases List.mem_append.1 hm with hm | hm
    · exact h.waiter hcl h1 h2 hm
    · simp at hm
  | check j =>
    simp only [step] at hs
    split at hs
    · split at hs
      · rename_i hm
        cases hs
        refine ⟨h.ended, h.asleep, h.count, fun _ h1 h2 _ => ?_, h.awake⟩
        simp only [mustWait, decide_eq_true_eq] at hm
        dsimp only at h1 h2
        rcases hm with hm | hm
        · exact hm h1
        · omega
      · cases hs
        refine ⟨h.ended, h.asleep, h.count, fun hcl h1 h2 hm => ?_, h.awake⟩
        rcases List.mem_or_eq_of_mem_set hm with hm | hm
        · exact h.waiter hcl h1 h2 hm
        · cases hm
    · cases hs
  | assign t who =>
    simp only [step] at hs
    split at hs
    · rename_i s1 hsig
      cases hs
      exact assign_live h t who hsig
    · cases hs
  | suspend =>
    simp only [step] at hs
    cases hs
    exact ⟨h.ended, h.asleep, h.count, h.waiter, fun _ _ h' => by simp at h'⟩
  | resume =>
    simp only [step] at hs
    cases hs
    exact broadcast_live h.ended h.count
  | stop =>
    simp only [step] at hs
    cases hs
    exact broadcast_live (fun h' => by simp at h') h.count
  | clear => exact absurd rfl ha

theorem exec_live : ∀ (as : List Act) (c : Bool) (s s' : St) (es : List Event), Live c s →
    exec s as = some (s', es) → Live (c || decide (.clear ∈ as)) s'
  | [], c, s, s', es, h, he => by
    simp only [exec] at he
    cases he
    simpa using h
  | a :: as, c, s, s', es, h, he => by
    simp only [exec] at he
    split at he
    · cases he
    · rename_i s1 e1 h1
      split at he
      · cases he
      · rename_i s2 e2 h2
        cases he
        have := exec_live as _ s1 _ e2 (step_live h a h1) h2
        have e : (c || decide (a = .clear) || decide (.clear ∈ as)) =
            (c || decide (.clear ∈ a :: as)) := by
          rw [Bool.or_assoc]
          congr 1
          rw [Bool.eq_iff_iff]
          simp only [Bool.or_eq_true, decide_eq_true_eq, List.mem_cons]
          exact ⟨fun h => h.imp Eq.symm id, fun h => h.imp Eq.symm id⟩
        rwa [e] at this

theorem create_live (n : Nat) : Live false (create n) := by
  have hi := create_inv n
  refine ⟨?_, ?_, hi.running, ?_, ?_⟩
  · intro _ hm
    have := List.eq_of_mem_replicate hm
    cases this
  · intro h; simp [create] at h
  · intro _ _ _ hm; simp [create] at hm
  · intro _ _ _ h; simp [create] at h

/-! ### Termination -/

/-- What a round of worker steps uses up. -/
def measure (n : Nat) (s : St) : Nat :=
  (n + 2) * s.tasks.length + (n + 1) * s.workers.countP Worker.isBusy +
    s.workers.countP (fun w => decide (w = .ready))

theorem countP_ready_set_pos (l : List Worker) (i : Nat) (w : Worker) (hi : l[i]? = some .ready)
    (hw : w ≠ .ready) :
    (l.set i w).countP (fun w => decide (w = .ready)) + 1 = l.countP (fun w => decide (w = .ready)) := by
  obtain ⟨hl, e⟩ := List.getElem?_eq_some_iff.1 hi
  have : 0 < l.countP (fun w => decide (w = .ready)) :=
    List.countP_pos_iff.2 ⟨l[i], List.getElem_mem hl, by rw [e]; simp⟩
  rw [List.countP_set hl, e]
  simp [hw]
  omega

theorem countP_ready_set_neg (l : List Worker) (i : Nat) (w w' : Worker) (hi : l[i]? = some w')
    (hw' : w' ≠ .ready) (hw : w ≠ .ready) :
    (l.set i w).countP (fun w => decide (w = .ready)) = l.countP (fun w => decide (w = .ready)) := by
  obtain ⟨hl, e⟩ := List.getElem?_eq_some_iff.1 hi
  rw [List.countP_set hl, e]
  simp [hw, hw']

theorem round_measure (n : Nat) (s : St) (i : Nat) (hi : s.workers[i]? = some .ready) :
    measure n (round s i).1 < measure n s := by
  have e1 := fun w (hw : w ≠ .ready) => countP_ready_set_pos s.workers i w hi hw
  unfold round measure
  split
  · have := e1 .ended (by simp)
    have := countP_set_idle s.workers i .ready .ended hi rfl rfl
    dsimp only
    rw [this]
    omega
  · split
    · have := e1 .asleep (by simp)
      have := countP_set_idle s.workers i .ready .asleep hi rfl rfl
      dsimp only
      rw [this]
      omega
    · split
      · have := e1 .asleep (by simp)
        have := countP_set_idle s.workers i .ready .asleep hi rfl rfl
        dsimp only
        rw [this]
        omega
      · rename_i t ts ht
        have := e1 (.busy t) (by simp)
        have := countP_set_start s.workers i t .ready hi rfl
        dsimp only
        rw [this, ht, List.length_cons, Nat.mul_add, Nat.mul_add]
        omega

theorem round_parts (s : St) (i t : Nat) (hi : s.workers[i]? = some (.busy t)) :
    (round s i).1.workers.length = s.workers.length ∧
    (((round s i).1.tasks = s.tasks ∧
      (round s i).1.workers.countP Worker.isBusy + 1 = s.workers.countP Worker.isBusy) ∨
     ((round s i).1.tasks.length + 1 = s.tasks.length ∧
      (round s i).1.workers.countP Worker.isBusy = s.workers.countP Worker.isBusy)) := by
  unfold round
  split
  · exact ⟨by simp, .inl ⟨rfl, countP_set_finish _ _ _ _ hi rfl⟩⟩
  · split
    · exact ⟨by simp, .inl ⟨rfl, countP_set_finish _ _ _ _ hi rfl⟩⟩
    · split
      · rename_i ht
        exact ⟨by simp, .inl ⟨rfl, countP_set_finish _ _ _ _ hi rfl⟩⟩
      · rename_i t' ts ht
        refine ⟨by simp, .inr ⟨by rw [ht]; rfl, ?_⟩⟩
        dsimp only
        have h1 := countP_set_finish _ i t .ready hi rfl
        have hl := (List.getElem?_eq_some_iff.1 hi).1
        have h2 := countP_set_start (s.workers.set i .ready) i t' .ready
          (List.getElem?_set_self hl) rfl
        rw [List.set_set] at h2
        omega

theorem finish_measure (n : Nat) (s : St) (i t : Nat) (hn : s.workers.length = n)
    (hi : s.workers[i]? = some (.busy t)) : measure n (finishTask s i t).1 < measure n s := by
  have hb : (broadcast { s with running := s.running - 1 }).workers[i]? = some (.busy t) := by
    simp only [broadcast, List.getElem?_map, hi]; rfl
  obtain ⟨h1, h2⟩ := round_parts _ i t hb
  have hle := List.countP_le_length (p := fun w => decide (w = .ready))
    (l := (round (broadcast { s with running := s.running - 1 }) i).1.workers)
  rw [h1] at hle
  have hc : (broadcast { s with running := s.running - 1 }).workers.countP Worker.isBusy =
    s.workers.countP Worker.isBusy := countP_wake _
  have hlen : (broadcast { s with running := s.running - 1 }).workers.length = n := by
    simp [broadcast, hn]
  have ht : (broadcast { s with running := s.running - 1 }).tasks = s.tasks := rfl
  rw [hc, ht] at h2
  rw [hlen] at hle
  unfold measure finishTask
  dsimp only
  rcases h2 with ⟨h2, h3⟩ | ⟨h2, h3⟩
  · rw [h2, ← h3, Nat.mul_add (n + 1)]
    omega
  · rw [h3, ← h2, Nat.mul_add (n + 2)]
    omega

theorem exec_measure (n : Nat) : ∀ (bs : List Act) (s s' : St) (es0 es : List Event), Inv n s es0 →
    (∀ a ∈ bs, a.OfWorker) → exec s bs = some (s', es) → bs.length + measure n s' ≤ measure n s
  | [], s, s', _, es, _, _, he => by
    simp only [exec] at he
    cases he
    simp
  | a :: bs, s, s', es0, es, hi, ho, he => by
    simp only [exec] at he
    split at he
    · cases he
    · rename_i s1 e1 h1
      split at he
      · cases he
      · rename_i s2 e2 h2
        cases he
        have ih := exec_measure n bs s1 _ _ e2 (step_inv hi a h1) (fun a ha => ho a (by simp [ha])) h2
        have hoa := ho a (by simp)
        have : measure n s1 < measure n s := by
          cases a <;> simp only [Act.OfWorker] at hoa
          · simp only [step] at h1
            split at h1
            · rename_i hr
              injection h1 with h1
              have := round_measure n s _ hr
              rwa [h1] at this
            · cases h1
          · simp only [step] at h1
            split at h1
            · rename_i t hr
              injection h1 with h1
              have := finish_measure n s _ t hi.size hr
              rwa [h1] at this
            · cases h1
        simp only [List.length_cons]
        omega

theorem countP_busy_ready (l : List Worker) :
    l.countP Worker.isBusy + l.countP (fun w => decide (w = .ready)) ≤ l.length := by
  induction l with
  | nil => simp
  | cons w l ih =>
    cases w <;> simp [List.countP_cons, Worker.isBusy] at ih ⊢ <;> omega

theorem measure_le (n : Nat) (s : St) (h : s.workers.length = n) :
    measure n s ≤ (n + 2) * (s.tasks.length + n) := by
  have h1 := countP_busy_ready s.workers
  have h2 : (n + 1) * s.workers.countP Worker.isBusy + s.workers.countP (fun w => decide (w = .ready)) ≤
      (n + 1) * n := by
    have : (n + 1) * s.workers.countP Worker.isBusy +
        (n + 1) * s.workers.countP (fun w => decide (w = .ready)) ≤ (n + 1) * n := by
      rw [← Nat.mul_add]; exact Nat.mul_le_mul_left _ (by omega)
    have : s.workers.countP (fun w => decide (w = .ready)) ≤
        (n + 1) * s.workers.countP (fun w => decide (w = .ready)) := Nat.le_mul_of_pos_left _ (by omega)
    omega
  have h3 : (n + 1) * n ≤ (n + 2) * n := Nat.mul_le_mul_right _ (by omega)
  unfold measure
  rw [Nat.mul_add]
  omega

/-- No thread can make a step. -/
theorem stuck_workers {s : St} (h : ∀ a : Act, a.OfWorker → step s a = none) :
    ∀ w ∈ s.workers, ¬ w.Awake := by
  intro w hw ha
  obtain ⟨i, hl, e⟩ := List.getElem_of_mem hw
  have e' : s.workers[i]? = some w := by rw [List.getElem?_eq_getElem hl, e]
  cases w with
  | ready =>
    have := h (.work i) trivial
    simp only [step, if_pos e'] at this
    cases this
  | busy t =>
    have := h (.finish i) trivial
    simp only [step, e'] at this
    cases this
  | asleep => exact ha
  | ended => exact ha

end Knot.Pool
