import Verif.Events.Model
/-!
# C22: the zone event planner
-/
namespace Knot
open Events

namespace Events

/-- The event may run: it is planned and not suppressed by the user freeze. -/
def Runnable (time : Ty → Nat) (forced : Ty → Bool) (ufrozen : Bool) (t : Ty) : Prop :=
  time t ≠ 0 ∧ (ufrozen = true → ufreezeApplies t = true → forced t = true)

/-- Reachable states of the planner of a zone. -/
def Reachable (s : St) : Prop := ∃ now ufrozen as, run (init now ufrozen) as = some s

theorem nextStep_cond (time : Ty → Nat) (forced : Ty → Bool) (u : Bool) (i : Ty) :
    (decide (time i ≠ 0) && (forced i || !u || !ufreezeApplies i)) = true ↔ Runnable time forced u i := by
  simp only [Runnable, Bool.and_eq_true, decide_eq_true_eq, Bool.or_eq_true, Bool.not_eq_true']
  cases forced i <;> cases u <;> cases ufreezeApplies i <;> simp

/-- What the loop has found after a prefix of the event types. -/
def Best (time : Ty → Nat) (forced : Ty → Bool) (u : Bool) (seen : List Ty) : Option Ty → Prop
  | none => ∀ i ∈ seen, ¬ Runnable time forced u i
  | some t => t ∈ seen ∧ Runnable time forced u t ∧ ∀ i ∈ seen, Runnable time forced u i → time t ≤ time i

theorem nextStep_best (time : Ty → Nat) (forced : Ty → Bool) (u : Bool) (seen : List Ty) (b : Option Ty)
    (h : Best time forced u seen b) (i : Ty) :
    Best time forced u (seen ++ [i]) (nextStep time forced u b i) := by
  have hc := nextStep_cond time forced u i
  unfold nextStep
  cases b with
  | none =>
    simp only [Best] at h
    simp only [Bool.true_and]
    split
    · rename_i hr
      rw [hc] at hr
      simp only [Best, List.mem_append, List.mem_singleton]
      refine ⟨Or.inr trivial, hr, ?_⟩
      rintro j (hj | rfl) hrj
      · exact absurd hrj (h j hj)
      · exact Nat.le_refl _
    · rename_i hr
      rw [hc] at hr
      simp only [Best, List.mem_append, List.mem_singleton]
      rintro j (hj | rfl)
      · exact h j hj
      · exact hr
  | some t =>
    obtain ⟨h1, h2, h3⟩ := h
    simp only [Bool.and_assoc]
    split
    · rename_i hr
      rw [Bool.and_eq_true, hc] at hr
      simp only [decide_eq_true_eq] at hr
      simp only [Best, List.mem_append, List.mem_singleton]
      refine ⟨Or.inr trivial, hr.2, ?_⟩
      rintro j (hj | rfl) hrj
      · have := h3 j hj hrj; omega
      · exact Nat.le_refl _
    · rename_i hr
      rw [Bool.and_eq_true, hc] at hr
      simp only [decide_eq_true_eq, not_and] at hr
      simp only [Best, List.mem_append, List.mem_singleton]
      refine ⟨Or.inl h1, h2, ?_⟩
      rintro j (hj | rfl) hrj
      · exact h3 j hj hrj
      · by_cases hlt : time j < time t
        · exact absurd hrj (hr hlt)
        · omega

theorem getNext_best (time : Ty → Nat) (forced : Ty → Bool) (u : Bool) :
    Best time forced u (List.finRange count) (getNext time forced u) := by
  unfold getNext
  have gen : ∀ (l seen : List Ty) (b : Option Ty), Best time forced u seen b →
      Best time forced u (seen ++ l) (l.foldl (nextStep time forced u) b) := by
    intro l
    induction l with
    | nil => intro seen b h; simpa using h
    | cons i l ih =>
      intro seen b h
      have := ih (seen ++ [i]) _ (nextStep_best time forced u seen b h i)
      simpa using this
  have := gen (List.finRange count) [] none (by intro i hi; cases hi)
  simpa using this

end Events

/-- C22. The next event is a runnable event with the smallest planned time, and there is none only if
no event is runnable. -/
theorem C22_next (time : Ty → Nat) (forced : Ty → Bool) (u : Bool) :
    match getNext time forced u with
    | none => ∀ i, ¬ Runnable time forced u i
    | some t => Runnable time forced u t ∧ ∀ i, Runnable time forced u i → time t ≤ time i := by
  have h := getNext_best time forced u
  split
  · rename_i he; rw [he] at h; exact fun i => h i (List.mem_finRange i)
  · rename_i t he; rw [he] at h; exact ⟨h.2.1, fun i => h.2.2 i (List.mem_finRange i)⟩

/-- C22. Planning: a negative time is ignored; zero cancels the event unless it was forced by the
user; a positive time is taken if the event is not planned or planned later. -/
theorem C22_plan (forced : Ty → Bool) (time : Ty → Nat) (t x : Ty) (p : Int) :
    plan forced time (t, p) x =
      if x ≠ t ∨ p < 0 then time x
      else if p = 0 then (if forced t = true then time t else 0)
      else if time t = 0 then p.toNat else min (time t) p.toNat := by
  unfold plan assign
  simp only
  by_cases hx : x = t
  · subst hx
    simp only [ne_eq, not_true_eq_false, false_or]
    split
    · rfl
    · rename_i hp
      by_cases hz : p = 0
      · subst hz
        cases hf : forced x <;> by_cases hc : time x = 0 <;> simp [hc]
      · rw [if_neg hz]
        by_cases hc : time x = 0
        · simp [hc]
        · by_cases hlt : p < (time x : Int)
          · rw [if_pos (Or.inr (Or.inr ⟨by omega, hlt⟩)), if_pos rfl, if_neg hc]; omega
          · rw [if_neg (by rintro (h | ⟨h, _⟩ | ⟨_, h⟩) <;> omega), if_neg hc]; omega
  · simp only [ne_eq, hx, not_false_eq_true, true_or, if_true]
    split
    · rfl
    · split <;> simp [hx]

namespace Events

/-- The invariant of the planner. -/
structure Inv (s : St) : Prop where
  tasks : s.tasks.length = if s.running then 1 else 0
  cancel : s.rlock = some .cancel → s.frozen = true
  live : s.running = false → s.frozen = false → s.owed = 0 → ∀ t, s.next = some t →
    match s.rlock with
    | none => s.dispatching = true ∨ ∃ d, s.sched = some d ∧ (d ≤ s.time t * 1000 + 999 ∨ d ≤ s.now)
    | some (.schedule diff) => diff = timeUntil s.secs (s.time t)
    | some .cancel => False

/-- `reschedule` establishes the invariant whatever the calendar contains. -/
theorem reschedule_inv (s : St) (h : s.tasks.length = if s.running then 1 else 0) (hl : s.rlock = none) :
    Inv (reschedule s) := by
  unfold reschedule
  split
  · rename_i hc
    simp only [Bool.or_eq_true] at hc
    refine ⟨h, by simp, ?_⟩
    intro h1 h2
    simp only at h1 h2
    rcases hc with hc | hc
    · rw [hc] at h1; cases h1
    · rw [hc] at h2; cases h2
  · split
    · rename_i hn
      refine ⟨h, by simp, ?_⟩
      intro _ _ _ t ht
      have : s.next = some t := ht
      rw [hn] at this; cases this
    · rename_i t hn
      refine ⟨h, by simp, ?_⟩
      intro _ _ _ t' ht
      have : s.next = some t' := ht
      rw [hn] at this; cases this
      rfl

theorem next_runnable (s : St) (t : Ty) (h : s.next = some t) : s.time t ≠ 0 := by
  have := C22_next s.time s.forced s.ufrozen
  unfold St.next at h
  rw [h] at this
  exact this.1.1

theorem nextTime_some (s : St) (t : Ty) (h : s.next = some t) : s.nextTime = s.time t := by
  simp [St.nextTime, h]

theorem erase_length (l : List Task) (t : Task) (h : t ∈ l) : (l.erase t).length + 1 = l.length := by
  rw [List.length_erase_of_mem h]
  have := List.length_pos_of_mem h
  omega

theorem step_inv (s s' : St) (a : Act) (h : Inv s) (hs : step s a = some s') : Inv s' := by
  obtain ⟨h1, h2, h3⟩ := h
  cases a with
  | tick ms =>
    simp only [step] at hs
    split at hs
    · rename_i hr
      cases hs
      refine ⟨h1, h2, ?_⟩
      intro a b c t ht
      have := h3 a b c t ht
      rw [hr] at this
      simp only [hr]
      rcases this with h | ⟨d, h, h'⟩
      · exact Or.inl h
      · exact Or.inr ⟨d, h, by omega⟩
    · cases hs
  | scheduleAt args =>
    simp only [step] at hs
    split at hs
    · rename_i hr
      cases hs
      split
      · exact reschedule_inv _ h1 hr
      · rename_i hn
        refine ⟨h1, h2, ?_⟩
        intro a b c t ht
        simp only [ne_eq, Decidable.not_not] at hn
        have hz := next_runnable _ t ht
        rw [nextTime_some _ t ht] at hn
        obtain ⟨t0, ht0⟩ : ∃ t0, s.next = some t0 := by
          cases hc : s.next with
          | none => simp only [St.nextTime, hc] at hn; exact absurd hn.symm hz
          | some t0 => exact ⟨t0, rfl⟩
        have := h3 a b c t0 ht0
        rw [nextTime_some s t0 ht0] at hn
        rw [hr] at this
        simp only [hr]
        simp only [hn] at this
        exact this
    · cases hs
  | setForced t =>
    simp only [step] at hs
    cases hs
    exact ⟨h1, h2, fun _ _ c => by simp at c⟩
  | rescheduleUser =>
    simp only [step] at hs
    split at hs
    · rename_i hr; cases hs; exact reschedule_inv _ h1 hr.1
    · cases hs
  | finish =>
    simp only [step] at hs
    split at hs
    · cases hs
    · split at hs
      · rename_i diff hr
        cases hs
        refine ⟨h1, by simp, ?_⟩
        intro a b c t ht
        have := h3 a b c t ht
        rw [hr] at this
        simp only at this
        refine Or.inr ⟨_, rfl, ?_⟩
        subst this
        simp only [timeUntil, St.secs]
        have hm := Nat.mod_le ((if s.now / 1000 < s.time t then s.time t - s.now / 1000 else 0) * 1000) 4294967296
        split at hm
        · rename_i hlt; rw [if_pos hlt]; omega
        · rename_i hlt; rw [if_neg hlt]; omega
      · rename_i hr
        cases hs
        refine ⟨h1, by simp, ?_⟩
        intro a b
        have := h2 hr
        simp only at b
        rw [this] at b; cases b
      · cases hs
  | fire =>
    simp only [step] at hs
    split at hs
    · split at hs
      · rename_i d hd hc
        cases hs
        refine ⟨h1, h2, ?_⟩
        intro a b c t ht
        have := h3 a b c t ht
        simp only
        split
        · exact Or.inl trivial
        · rename_i hr; rw [hr] at this; exact this
        · rename_i hr; rw [hr] at this; exact this
      · cases hs
    · cases hs
  | dispatch =>
    simp only [step] at hs
    split at hs
    · cases hs
      split
      · rename_i hc
        refine ⟨by simp [h1, hc.1], h2, fun a => by simp at a⟩
      · rename_i hc
        refine ⟨h1, h2, ?_⟩
        intro a b
        exact absurd ⟨a, b⟩ hc
    · cases hs
  | begin =>
    simp only [step] at hs
    split at hs
    · rename_i hm
      have hl := erase_length _ _ hm
      have hrun : s.running = true := by
        cases hc : s.running with
        | true => rfl
        | false => simp [hc] at h1; rw [h1] at hm; cases hm
      rw [hrun] at h1
      simp only [if_true] at h1
      split at hs
      · rename_i hn
        cases hs
        refine ⟨by simp only [Bool.false_eq_true, if_false]; omega, h2, ?_⟩
        intro _ _ _ t ht
        have : s.next = some t := ht
        rw [hn] at this; cases this
      · cases hs
        refine ⟨by simp only [hrun, if_true, List.length_cons]; omega, h2, ?_⟩
        intro a
        simp only [hrun] at a
        cases a
    · cases hs
  | handler =>
    have hrun : ∀ x, x ∈ s.tasks → s.running = true := by
      intro x hx
      cases hc : s.running with
      | true => rfl
      | false => simp [hc] at h1; rw [h1] at hx; cases hx
    simp only [step] at hs
    split at hs
    · rename_i hm
      cases hs
      exact ⟨h1, h2, fun a => by simp only [hrun _ hm] at a; cases a⟩
    · split at hs
      · rename_i hm
        cases hs
        exact ⟨h1, h2, fun a => by simp only [hrun _ hm] at a; cases a⟩
      · cases hs
  | complete =>
    simp only [step] at hs
    split at hs
    · rename_i hr
      split at hs
      · rename_i t ht
        cases hs
        have hm := List.mem_of_find?_eq_some ht
        have hl := erase_length _ _ hm
        refine reschedule_inv _ ?_ hr
        have hle : s.tasks.length ≤ 1 := by rw [h1]; split <;> omega
        simp only
        have : (s.tasks.erase t).length = 0 := by omega
        rw [this]; rfl
      · cases hs
    · cases hs
  | enqueue t =>
    simp only [step] at hs
    split at hs
    · rename_i hc
      cases hs
      refine ⟨by simp [h1, hc.1], h2, fun a => by simp at a⟩
    · cases hs
  | freeze =>
    simp only [step] at hs
    split at hs
    · cases hs
      exact ⟨h1, fun _ => rfl, fun _ b => by simp at b⟩
    · cases hs
  | start =>
    simp only [step] at hs
    split at hs
    · rename_i hr; cases hs; exact reschedule_inv _ h1 hr
    · cases hs
  | waitTest =>
    simp only [step] at hs
    split at hs
    · cases hs; exact ⟨h1, h2, h3⟩
    · cases hs

theorem run_inv (as : List Act) (s s' : St) (h : Inv s) (hr : run s as = some s') : Inv s' := by
  induction as generalizing s with
  | nil => cases hr; exact h
  | cons a as ih =>
    simp only [run, Option.bind_eq_some_iff] at hr
    obtain ⟨s1, h1, h2⟩ := hr
    exact ih s1 (step_inv s s1 a h h1) h2

theorem reachable_inv (s : St) (h : Reachable s) : Inv s := by
  obtain ⟨now, u, as, hr⟩ := h
  refine run_inv as _ s ⟨rfl, by simp [init], ?_⟩ hr
  intro _ _ _ t ht
  have := next_runnable _ t ht
  exact absurd rfl this

end Events

/-- C22. At most one task of a zone is assigned or executing, in every interleaving; the planner says
"running" exactly while there is one. -/
theorem C22_one_at_a_time (s : St) (h : Reachable s) :
    s.tasks.length ≤ 1 ∧ (s.running = true ↔ s.tasks ≠ []) := by
  have := (reachable_inv s h).tasks
  cases hr : s.running with
  | true =>
    rw [hr] at this
    simp only [if_true] at this
    refine ⟨by omega, ?_⟩
    simp only [true_iff]
    intro hc; rw [hc] at this; simp at this
  | false =>
    rw [hr] at this
    simp at this
    simp [this]

/-- C22. No event is lost: whenever the planner is at rest (no task of the zone, not frozen, no call in
progress) and some event is runnable, the zone's entry is in the calendar, not later than the
planned time of every runnable event (to the second), or already due. -/
theorem C22_no_lost_event (s : St) (h : Reachable s) (hidle : s.tasks = []) (hf : s.frozen = false)
    (hl : s.rlock = none) (ho : s.owed = 0) (hd : s.dispatching = false) (e : Ty)
    (he : Runnable s.time s.forced s.ufrozen e) :
    ∃ d, s.sched = some d ∧ (d ≤ s.time e * 1000 + 999 ∨ d ≤ s.now) := by
  have hi := reachable_inv s h
  have hr : s.running = false := by
    cases hc : s.running with
    | false => rfl
    | true => have := ((C22_one_at_a_time s h).2.mp hc); exact absurd hidle this
  have hn := C22_next s.time s.forced s.ufrozen
  cases hc : s.next with
  | none =>
    unfold St.next at hc
    rw [hc] at hn
    exact absurd he (hn e)
  | some t =>
    have h3 := hi.live hr hf ho t hc
    unfold St.next at hc
    rw [hc] at hn
    rw [hl] at h3
    rcases h3 with h3 | ⟨d, h3, h4⟩
    · rw [hd] at h3; cases h3
    · have hle := hn.2 e he
      clear hn
      refine ⟨d, h3, ?_⟩
      rcases h4 with h4 | h4
      · exact Or.inl (Nat.le_trans h4 (Nat.add_le_add_right (Nat.mul_le_mul_right _ hle) _))
      · exact Or.inr h4

/-- C22. Progress: in such a state, once the entry is due, the scheduler thread and the dispatch give
the zone exactly one task, which then executes a runnable event of the smallest planned time. -/
theorem C22_due_event_runs (s : St) (h : Reachable s) (hidle : s.tasks = []) (hf : s.frozen = false)
    (hl : s.rlock = none) (ho : s.owed = 0) (hd : s.dispatching = false) (e : Ty)
    (he : Runnable s.time s.forced s.ufrozen e) (hnow : s.time e * 1000 + 999 ≤ s.now) :
    ∃ s' t, run s [.fire, .dispatch, .begin] = some s' ∧ s'.tasks = [.executing t] ∧
      Runnable s.time s.forced s.ufrozen t ∧ ∀ i, Runnable s.time s.forced s.ufrozen i → s.time t ≤ s.time i := by
  obtain ⟨d, h1, h2⟩ := C22_no_lost_event s h hidle hf hl ho hd e he
  have hr : s.running = false := by
    cases hc : s.running with
    | false => rfl
    | true => have := ((C22_one_at_a_time s h).2.mp hc); exact absurd hidle this
  have hdue : d ≤ s.now := by omega
  have hn := C22_next s.time s.forced s.ufrozen
  cases hc : getNext s.time s.forced s.ufrozen with
  | none => rw [hc] at hn; exact absurd he (hn e)
  | some t =>
    rw [hc] at hn
    have e1 : step s .fire = some { s with sched := none, dispatching := true } := by
      simp [step, h1, hdue, hd]
    have e2 : step { s with sched := none, dispatching := true } .dispatch =
        some { s with sched := none, dispatching := false, running := true, tasks := [.assigned] } := by
      simp [step, hr, hf, hidle]
    obtain ⟨s3, e3, e4⟩ : ∃ s3, step { s with sched := none, dispatching := false, running := true, tasks := [.assigned] } .begin = some s3
        ∧ s3.tasks = [.executing t] := by
      simp only [step, List.mem_singleton, if_true, St.next, hc]
      exact ⟨_, rfl, by simp⟩
    exact ⟨s3, t, by simp [run, e1, e2, e3], e4, hn.1, hn.2⟩

/-- C22. The user freeze: an event that starts is planned and, while the zone is frozen by the user,
is either of a kind not subject to the freeze or was forced. -/
theorem C22_ufreeze (s s' : St) (h : step s .begin = some s') (t : Ty) (ht : .executing t ∈ s'.tasks)
    (hnew : .executing t ∉ s.tasks) :
    s.time t ≠ 0 ∧ (s.ufrozen = true → ufreezeApplies t = true → s.forced t = true) := by
  have hn := C22_next s.time s.forced s.ufrozen
  simp only [step] at h
  split at h
  · split at h
    · cases h
      exact absurd (List.mem_of_mem_erase ht) hnew
    · rename_i t' hc
      cases h
      simp only [List.mem_cons, Task.executing.injEq] at ht
      rcases ht with rfl | ht
      · unfold St.next at hc
        rw [hc] at hn
        exact hn.1
      · exact absurd (List.mem_of_mem_erase ht) hnew
  · cases h

/-- C22. Starting an event uses up its plan and its user mark, and changes no other event's. -/
theorem C22_begin_consumes (s s' : St) (h : step s .begin = some s') (t : Ty) (ht : .executing t ∈ s'.tasks)
    (hnew : .executing t ∉ s.tasks) :
    s'.time t = 0 ∧ s'.forced t = false ∧ ∀ x, x ≠ t → s'.time x = s.time x ∧ s'.forced x = s.forced x := by
  simp only [step] at h
  split at h
  · split at h
    · cases h
      exact absurd (List.mem_of_mem_erase ht) hnew
    · cases h
      simp only [List.mem_cons, Task.executing.injEq] at ht
      rcases ht with rfl | ht
      · exact ⟨by simp [assign], by simp [assign], fun x hx => ⟨by simp [assign, hx], by simp [assign, hx]⟩⟩
      · exact absurd (List.mem_of_mem_erase ht) hnew
  · cases h

/-- How often an event starts in a run of actions. -/
def starts (t : Ty) (s : St) : List Act → Nat
  | [] => 0
  | a :: as => match step s a with
    | none => 0
    | some s' => (if a = .begin ∧ .assigned ∈ s.tasks ∧ s.next = some t then 1 else 0) + starts t s' as

/-- How often the event was asked for in a run of actions. -/
def requests (t : Ty) : List Act → Nat
  | [] => 0
  | .scheduleAt args :: as => args.countP (fun x => x.1 == t && x.2 != 0) + requests t as
  | .enqueue t' :: as => (if t' = t then 1 else 0) + requests t as
  | _ :: as => requests t as

/-- 1 if the time is set. -/
def pend (n : Nat) : Nat := if n = 0 then 0 else 1

theorem pend_le (n : Nat) : pend n ≤ 1 := by unfold pend; split <;> omega

theorem plan_pending (forced : Ty → Bool) (t : Ty) (args : List (Ty × Int)) (time : Ty → Nat) :
    pend (args.foldl (plan forced) time t) ≤
      args.countP (fun x => x.1 == t && x.2 != 0) + pend (time t) := by
  induction args generalizing time with
  | nil => show pend (time t) ≤ 0 + pend (time t); omega
  | cons x args ih =>
    rw [List.foldl_cons, List.countP_cons]
    refine Nat.le_trans (ih _) ?_
    have : pend (plan forced time x t) ≤ (if (x.1 == t && x.2 != 0) = true then 1 else 0) + pend (time t) := by
      unfold plan
      by_cases h1 : x.2 < 0
      · rw [if_pos h1]; omega
      · rw [if_neg h1]
        split
        · by_cases ht : t = x.1
          · subst ht
            by_cases h0 : x.2 = 0
            · simp [assign, h0, pend]
            · simp only [assign, if_true, beq_self_eq_true, Bool.true_and, bne_iff_ne, ne_eq, h0, not_false_eq_true]
              have := pend_le x.2.toNat
              omega
          · simp only [assign, if_neg ht]; omega
        · omega
    omega

theorem reschedule_time (s : St) : (reschedule s).time = s.time := by
  unfold reschedule
  split
  · rfl
  · split <;> rfl

theorem step_pending (s s' : St) (a : Act) (t : Ty) (as : List Act) (h : step s a = some s') :
    (if a = .begin ∧ .assigned ∈ s.tasks ∧ s.next = some t then 1 else 0) + pend (s'.time t) + requests t as ≤
      requests t (a :: as) + pend (s.time t) := by
  have same : ∀ b, b ≠ .begin → a = b → s'.time = s.time →
      (if a = .begin ∧ .assigned ∈ s.tasks ∧ s.next = some t then 1 else 0) + pend (s'.time t) + requests t as ≤
      requests t (a :: as) + pend (s.time t) := by
    intro b hb hab ht
    subst hab
    rw [if_neg (fun h => hb h.1), ht]
    have : requests t as ≤ requests t (a :: as) := by
      cases a <;> simp [requests]
    omega
  cases a with
  | scheduleAt args =>
    simp only [step] at h
    split at h
    · cases h
      rw [if_neg (by simp)]
      have := plan_pending s.forced t args s.time
      have e : ∀ (c : Prop) [Decidable c] (x : St), (if c then reschedule x else x).time = x.time := by
        intro c _ x; split
        · exact reschedule_time x
        · rfl
      rw [e]
      simp only [requests]
      omega
    · cases h
  | enqueue t' =>
    simp only [step] at h
    split at h
    · cases h
      rw [if_neg (by simp)]
      simp only [requests, assign]
      by_cases ht : t = t'
      · have := pend_le 1
        simp only [ht, if_true]; omega
      · simp only [if_neg ht]; omega
    · cases h
  | begin =>
    simp only [step] at h
    split at h
    · rename_i hm
      split at h
      · rename_i hn
        cases h
        rw [if_neg (by rw [hn]; simp)]
        simp only [requests]
        omega
      · rename_i t' hn
        cases h
        simp only [requests, hn, Option.some.injEq, assign, true_and, hm]
        by_cases ht : t = t'
        · subst ht
          have := C22_next s.time s.forced s.ufrozen
          unfold St.next at hn
          rw [hn] at this
          simp only [if_true]
          have h1 : pend (s.time t) = 1 := by unfold pend; rw [if_neg this.1.1]
          have h2 : pend 0 = 0 := rfl
          omega
        · simp only [if_neg (Ne.symm ht), if_neg ht]; omega
    · cases h
  | tick ms => exact same _ (by simp) rfl (by simp only [step] at h; split at h <;> cases h; rfl)
  | setForced t' => exact same _ (by simp) rfl (by simp only [step] at h; cases h; rfl)
  | rescheduleUser => exact same _ (by simp) rfl (by
      simp only [step] at h; split at h <;> cases h; exact reschedule_time _)
  | finish => exact same _ (by simp) rfl (by
      simp only [step] at h; split at h
      · cases h
      · split at h <;> cases h <;> rfl)
  | fire => exact same _ (by simp) rfl (by
      simp only [step] at h; split at h
      · split at h <;> cases h; rfl
      · cases h)
  | dispatch => exact same _ (by simp) rfl (by
      simp only [step] at h; split at h
      · cases h; split <;> rfl
      · cases h)
  | handler => exact same _ (by simp) rfl (by
      simp only [step] at h; split at h
      · cases h; rfl
      · split at h <;> cases h; rfl)
  | complete => exact same _ (by simp) rfl (by
      simp only [step] at h; split at h
      · split at h <;> cases h; exact reschedule_time _
      · cases h)
  | freeze => exact same _ (by simp) rfl (by simp only [step] at h; split at h <;> cases h; rfl)
  | start => exact same _ (by simp) rfl (by simp only [step] at h; split at h <;> cases h; exact reschedule_time _)
  | waitTest => exact same _ (by simp) rfl (by simp only [step] at h; split at h <;> cases h; rfl)

/-- C22. An event starts at most once for each time it was asked for. -/
theorem C22_starts_le_requests (now : Nat) (ufrozen : Bool) (as : List Act) (t : Ty) :
    starts t (init now ufrozen) as ≤ requests t as := by
  have key : ∀ (as : List Act) (s : St), starts t s as ≤ requests t as + pend (s.time t) := by
    intro as
    induction as with
    | nil => intro s; simp [starts]
    | cons a as ih =>
      intro s
      simp only [starts]
      split
      · omega
      · rename_i s' hs
        have h1 := ih s'
        have h2 := step_pending s s' a t as hs
        omega
  simpa [init, pend] using key as (init now ufrozen)

example : starts 3 (init 5000 false) [.start, .scheduleAt [(3, 1)], .finish, .fire, .dispatch, .begin, .handler, .complete] ≤ 1 ∧
    requests 3 [.start, .scheduleAt [(3, 1)], .finish, .fire, .dispatch, .begin] = 1 ∧
    starts 3 (init 5000 false) [.enqueue 3, .begin, .complete, .enqueue 3, .begin] = 2 := by decide +kernel

/-- C22. While the zone is frozen no task is assigned: the only tasks are those assigned before. -/
theorem C22_frozen (s s' : St) (a : Act) (hf : s.frozen = true) (h : step s a = some s') :
    s'.tasks.count .assigned ≤ s.tasks.count .assigned ∧ (s'.frozen = false → a = .start) := by
  have hresch : ∀ s : St, (reschedule s).tasks = s.tasks ∧ (reschedule s).frozen = s.frozen := by
    intro s
    unfold reschedule
    split
    · exact ⟨rfl, rfl⟩
    · split <;> exact ⟨rfl, rfl⟩
  cases a with
  | begin =>
    simp only [step] at h
    split at h
    · split at h
      · cases h
        exact ⟨(List.erase_sublist).count_le _, fun hc => by simp only [hf] at hc; cases hc⟩
      · cases h
        refine ⟨?_, fun hc => by simp only [hf] at hc; cases hc⟩
        simp only [List.count_cons]
        have := (List.erase_sublist (a := Task.assigned) (l := s.tasks)).count_le .assigned
        simpa using this
    · cases h
  | complete =>
    simp only [step] at h
    split at h
    · split at h
      · cases h
        rw [(hresch _).1, (hresch _).2]
        exact ⟨(List.erase_sublist).count_le _, fun hc => by simp only [hf] at hc; cases hc⟩
      · cases h
    · cases h
  | dispatch =>
    simp only [step] at h
    split at h
    · cases h
      simp [hf]
    · cases h
  | enqueue t => simp [step, hf] at h
  | start =>
    simp only [step] at h
    split at h
    · cases h; rw [(hresch _).1]; exact ⟨Nat.le_refl _, fun _ => rfl⟩
    · cases h
  | scheduleAt args =>
    simp only [step] at h
    split at h
    · cases h
      split
      · rw [(hresch _).1, (hresch _).2]; exact ⟨Nat.le_refl _, fun hc => by simp only [hf] at hc; cases hc⟩
      · exact ⟨Nat.le_refl _, fun hc => by simp only [hf] at hc; cases hc⟩
    · cases h
  | rescheduleUser =>
    simp only [step] at h
    split at h
    · cases h; rw [(hresch _).1, (hresch _).2]; exact ⟨Nat.le_refl _, fun hc => by simp only [hf] at hc; cases hc⟩
    · cases h
  | finish =>
    simp only [step] at h
    split at h
    · cases h
    · split at h <;> cases h <;> exact ⟨Nat.le_refl _, fun hc => by simp only [hf] at hc; cases hc⟩
  | fire =>
    simp only [step] at h
    split at h
    · split at h
      · cases h; exact ⟨Nat.le_refl _, fun hc => by simp only [hf] at hc; cases hc⟩
      · cases h
    · cases h
  | tick ms =>
    simp only [step] at h
    split at h
    · cases h; exact ⟨Nat.le_refl _, fun hc => by simp only [hf] at hc; cases hc⟩
    · cases h
  | setForced t =>
    simp only [step] at h
    cases h; exact ⟨Nat.le_refl _, fun hc => by simp only [hf] at hc; cases hc⟩
  | handler =>
    simp only [step] at h
    split at h
    · cases h; exact ⟨Nat.le_refl _, fun hc => by simp only [hf] at hc; cases hc⟩
    · split at h
      · cases h; exact ⟨Nat.le_refl _, fun hc => by simp only [hf] at hc; cases hc⟩
      · cases h
  | freeze =>
    simp only [step] at h
    split at h
    · cases h; exact ⟨Nat.le_refl _, fun hc => by simp at hc⟩
    · cases h
  | waitTest =>
    simp only [step] at h
    split at h
    · cases h; exact ⟨Nat.le_refl _, fun hc => by simp only [hf] at hc; cases hc⟩
    · cases h

/-- C22. The calendar entry made by `reschedule` is not earlier than the planned time, provided the
delay in milliseconds fits into 32 bits (about 49 days). -/
theorem C22_not_early_partial (s s' : St) (diff : Nat) (t : Ty)
    (hr : s.rlock = some (.schedule diff)) (hdiff : diff = timeUntil s.secs (s.time t))
    (hfit : diff * 1000 < 4294967296) (h : step s .finish = some s') :
    ∃ d, s'.sched = some d ∧ s.time t * 1000 ≤ d := by
  simp only [step] at h
  split at h
  · cases h
  · simp only [hr] at h
    cases h
    refine ⟨_, rfl, ?_⟩
    rw [Nat.mod_eq_of_lt hfit]
    subst hdiff
    simp only [timeUntil, St.secs]
    split <;> omega

/-! ## What does not hold

Concrete reachable states. The zone's clock starts at second 1000. -/

/-- An event planned 60 days ahead is dispatched after about 10 days: the delay in milliseconds is
truncated to 32 bits and `event_wrap` does not look at the time. -/
theorem C22_early_by_truncation :
    (run (init 1000000 false)
      [.scheduleAt [(tyExpire, 1000 + 5184000)], .finish, .tick 900000000, .fire, .dispatch, .begin]).map
      (fun s => (s.tasks, decide (s.secs < 1000 + 5184000))) = some ([.executing tyExpire], true) := by
  decide +kernel

/-- An event planned for the future is executed at once if the event that was due is cancelled between
its dispatch and its execution. -/
theorem C22_early_by_cancel :
    (run (init 1000000 false)
      [.scheduleAt [(tyExpire, 9000), (tyFlush, 1001)], .finish, .tick 2000, .fire, .dispatch,
       .scheduleAt [(tyFlush, 0)], .begin]).map
      (fun s => (s.tasks, s.secs)) = some ([.executing tyExpire], 1002) := by
  decide +kernel

/-- Cancelling the only planned event leaves the calendar entry in place; when it fires, `event_wrap`
reads `blocking[-1]`. -/
theorem C22_blocking_out_of_bounds :
    (run (init 1000000 false)
      [.scheduleAt [(tyFlush, 1001)], .finish, .scheduleAt [(tyFlush, 0)], .tick 2000, .fire, .dispatch, .begin]).map
      (fun s => s.oob) = some true := by
  decide +kernel

/-- A thread in `zone_events_freeze_blocking` may wait forever: if the event is cancelled before the
worker starts it, `event_wrap` returns without waking the waiting thread. No action of the planner
wakes it any more. -/
theorem C22_freeze_blocking_stuck :
    (run (init 1000000 false)
      [.scheduleAt [(tyFlush, 1001)], .finish, .tick 2000, .fire, .dispatch, .freeze, .finish, .waitTest,
       .scheduleAt [(tyFlush, 0)], .begin]).map
      (fun s => (s.waiter, s.running, s.tasks, (step s .waitTest).isNone)) =
      some (.waiting, false, [], true) := by
  decide +kernel

/-- C22. What holds for the waiting thread: the end of an executed event always wakes it. -/
theorem C22_complete_wakes (s s' : St) (h : step s .complete = some s') : s'.waiter ≠ .waiting := by
  simp only [step] at h
  split at h
  · split at h
    · cases h
      have hw : ∀ s : St, (reschedule s).waiter = s.waiter := by
        intro s
        unfold reschedule
        split
        · rfl
        · split <;> rfl
      rw [hw]
      simp only
      split
      · simp
      · assumption
    · cases h
  · cases h

example : Reachable (init 5000 true) := ⟨5000, true, [], rfl⟩
example : (run (init 1000000 false) [.scheduleAt [(tyRefresh, 1005), (tyExpire, 1003)], .finish]).map (·.sched)
    = some (some 1003000) := by decide +kernel

end Knot
