import Verif.Evsched.Model
import Verif.Heap.Props
/-!
# C21: the event scheduler
-/
namespace Knot
open Heap Evsched

namespace Evsched

/-- Microseconds of a time value. -/
def micros (t : TV) : Nat := t.sec * 1000000 + t.usec

/-- A time value whose microseconds are in range. -/
def Norm (t : TV) : Prop := t.usec < 1000000

/-! ## Specification: a calendar is a partial map from events to deadlines in microseconds -/

/-- The calendar of the specification. -/
structure Cal where
  due : Nat → Option Nat
  paused : Bool

inductive Op
  | schedule (now : TV) (ev dt : Nat)
  | cancel (ev : Nat)
  | loop (now : TV)
  | pause (b : Bool)

/-- A step of the specification: the calendar after the operation and the event delivered. -/
inductive Step : Cal → Op → Cal → Option Nat → Prop
  /-- scheduling sets the deadline to the current time plus the delay in milliseconds -/
  | schedule (c now ev dt) :
      Step c (.schedule now ev dt) { c with due := fun x => if x = ev then some (micros now + dt * 1000) else c.due x } none
  /-- cancelling removes the event -/
  | cancel (c ev) : Step c (.cancel ev) { c with due := fun x => if x = ev then none else c.due x } none
  /-- an event is delivered and removed if it is due and no event has an earlier deadline -/
  | deliver (c now ev t) : c.paused = false → c.due ev = some t → t ≤ micros now →
      (∀ x u, c.due x = some u → t ≤ u) →
      Step c (.loop now) { c with due := fun x => if x = ev then none else c.due x } (some ev)
  /-- nothing is delivered only if the scheduler is paused or no event is due -/
  | idle (c now) : (c.paused = true ∨ ∀ x u, c.due x = some u → micros now < u) → Step c (.loop now) c none
  | pause (c b) : Step c (.pause b) { c with paused := b } none

/-- The model performs an operation. -/
def perform (s : S) : Op → Res (S × Option Nat)
  | .schedule now ev dt => do let s ← Evsched.schedule s now ev dt; pure (s, none)
  | .cancel ev => do let s ← Evsched.cancel s ev; pure (s, none)
  | .loop now => .ok (Evsched.loop s now)
  | .pause b => .ok (setPaused s b, none)

/-- The clock values an operation reads are valid time values. -/
def Op.Valid : Op → Prop
  | .schedule now _ _ => Norm now
  | .loop now => Norm now
  | _ => True

/-- The scheduler state represents the calendar. -/
structure Rep (s : S) (c : Cal) : Prop where
  holds : Holds (evLt s.tv) s.heap (fun e => (c.due e).isSome)
  norm : ∀ e, Norm (s.tv e)
  time : ∀ e t, c.due e = some t → micros (s.tv e) = t
  paused : s.paused = c.paused

theorem carry_micros (sec usec : Nat) :
    micros (carry sec usec) = sec * 1000000 + usec ∧ Norm (carry sec usec) := by
  fun_induction carry sec usec with
  | case1 sec usec h ih =>
    refine ⟨?_, ih.2⟩
    rw [ih.1]
    omega
  | case2 sec usec h => exact ⟨rfl, by simp only [Norm]; omega⟩

theorem timevalIn_micros (now : TV) (dt : Nat) :
    micros (timevalIn now dt) = micros now + dt * 1000 ∧ Norm (timevalIn now dt) := by
  unfold timevalIn
  have h := carry_micros (now.sec + dt / 1000) (now.usec + dt % 1000 * 1000)
  refine ⟨?_, h.2⟩
  rw [h.1]
  simp only [micros]
  omega

theorem lt_iff (a b : TV) (ha : Norm a) (hb : Norm b) : a.lt b = true ↔ micros a < micros b := by
  simp only [TV.lt, micros, Norm] at *
  split <;> simp only [decide_eq_true_eq] <;> omega

theorem lt_false_iff (a b : TV) (ha : Norm a) (hb : Norm b) : a.lt b = false ↔ micros b ≤ micros a := by
  have := lt_iff a b ha hb
  cases h : a.lt b <;> simp [h] at this ⊢ <;> omega

theorem strictWeak (tv : Nat → TV) : StrictWeak (evLt tv) where
  asymm := by
    intro a b h
    simp only [evLt, TV.lt] at *
    split at h <;> simp only [decide_eq_true_eq] at h
    · rename_i he; rw [if_pos he.symm]; simp only [decide_eq_false_iff_not]; omega
    · rename_i he; rw [if_neg (by omega)]; simp only [decide_eq_false_iff_not]; omega
  trans := by
    intro a b c h1 h2
    simp only [evLt, TV.lt] at *
    split at h1 <;> split at h2 <;> split <;>
      simp only [decide_eq_false_iff_not] at * <;> omega

/-- The heap does not look at the keys of elements it does not hold. -/
theorem holds_congr {lt lt' : Nat → Nat → Bool} {h : H} {P : Nat → Prop} (hh : Holds lt h P)
    (e : ∀ a b, P a → P b → lt' a b = lt a b) : Holds lt' h P := by
  refine ⟨?_, hh.posOk, hh.mem, hh.room, hh.alloc⟩
  intro i hi hi2
  have hm : ∀ k, 1 ≤ k → k ≤ h.num → P (h.data k) := by
    intro k hk hk2
    rw [← hh.mem, hh.posOk.slot k hk hk2]; omega
  rw [e _ _ (hm i (by omega) hi2) (hm (i / 2) (by omega) (by omega))]
  exact hh.ordered i hi hi2

theorem schedule_spec (s : S) (c : Cal) (hr : Rep s c) (now : TV) (ev dt : Nat) :
    ∃ s', Evsched.schedule s now ev dt = .ok s' ∧
      Rep s' { c with due := fun x => if x = ev then some (micros now + dt * 1000) else c.due x } := by
  obtain ⟨hh, hn, ht, hp⟩ := hr
  have htv := timevalIn_micros now dt
  have agree : ∀ a b, a ≠ ev → b ≠ ev →
      evLt (setTv s.tv ev (timevalIn now dt)) a b = evLt s.tv a b := by
    intro a b ha hb
    simp only [evLt, setTv, ha, hb, if_false]
  have fin : ∀ h', Holds (evLt (setTv s.tv ev (timevalIn now dt))) h'
      (fun e => (if e = ev then some (micros now + dt * 1000) else c.due e).isSome) →
      Rep { s with heap := h', tv := setTv s.tv ev (timevalIn now dt) }
        { c with due := fun x => if x = ev then some (micros now + dt * 1000) else c.due x } := by
    intro h' hh'
    refine ⟨hh', ?_, ?_, hp⟩
    · intro e
      simp only [setTv]
      split
      · exact htv.2
      · exact hn e
    · intro e t he
      simp only [setTv] at he ⊢
      split at he
      · rename_i hc; cases he; rw [if_pos hc]; exact htv.1
      · rename_i hc; rw [if_neg hc]; exact ht e t he
  unfold Evsched.schedule
  have hfind := C37_find (evLt s.tv) s.heap _ hh ev
  by_cases hs : (c.due ev).isSome = true
  · have hf := hfind.1 hs
    obtain ⟨h', e1, e2⟩ := C37_replace (evLt s.tv) (evLt (setTv s.tv ev (timevalIn now dt))) (strictWeak _)
      (strictWeak _) s.heap _ hh ev hs agree
    simp only [show find s.heap ev > 0 by omega, if_true, e1, Res.bind_ok]
    refine ⟨_, rfl, fin h' (e2.congr ?_)⟩
    intro x
    by_cases hx : x = ev
    · simp [hx, hs]
    · simp [hx]
  · have hf := hfind.2 hs
    have hh2 : Holds (evLt (setTv s.tv ev (timevalIn now dt))) s.heap (fun e => (c.due e).isSome) := by
      refine holds_congr hh ?_
      intro a b ha hb
      refine agree a b ?_ ?_
      · rintro rfl; exact hs ha
      · rintro rfl; exact hs hb
    obtain ⟨h', e1, e2⟩ := C37_insert _ (strictWeak _) s.heap _ hh2 ev hs
    simp only [show ¬ (find s.heap ev > 0) by omega, if_false, e1, Res.bind_ok]
    refine ⟨_, rfl, fin h' (e2.congr ?_)⟩
    intro x
    by_cases hx : x = ev
    · simp [hx]
    · simp [hx]

theorem cancel_spec (s : S) (c : Cal) (hr : Rep s c) (ev : Nat) :
    ∃ s', Evsched.cancel s ev = .ok s' ∧
      Rep s' { c with due := fun x => if x = ev then none else c.due x } := by
  obtain ⟨hh, hn, ht, hp⟩ := hr
  have hfind := C37_find (evLt s.tv) s.heap _ hh ev
  have fin : ∀ h', Holds (evLt s.tv) h' (fun e => (if e = ev then none else c.due e).isSome) →
      Rep (cancelReset { s with heap := h' } ev)
        { c with due := fun x => if x = ev then none else c.due x } := by
    intro h' hh'
    refine ⟨?_, ?_, ?_, hp⟩
    · refine holds_congr hh' ?_
      intro a b ha hb
      have h1 : a ≠ ev := by rintro rfl; simp at ha
      have h2 : b ≠ ev := by rintro rfl; simp at hb
      simp only [cancelReset, evLt, setTv, h1, h2, if_false]
    · intro e
      simp only [cancelReset, setTv]
      split
      · simp [Norm]
      · exact hn e
    · intro e t he
      simp only [cancelReset, setTv] at he ⊢
      split at he
      · cases he
      · rename_i hc; rw [if_neg hc]; exact ht e t he
  unfold Evsched.cancel cancelLocked
  by_cases hs : (c.due ev).isSome = true
  · have hf := hfind.1 hs
    obtain ⟨h', e1, e2⟩ := C37_delete (evLt s.tv) (strictWeak _) s.heap _ hh ev hs
    simp only [show find s.heap ev > 0 by omega, if_true, e1, Res.bind_ok, Res.pure_eq]
    refine ⟨_, rfl, fin h' (e2.congr ?_)⟩
    intro x
    by_cases hx : x = ev
    · simp [hx]
    · simp [hx]
  · have hf := hfind.2 hs
    simp only [show ¬ (find s.heap ev > 0) by omega, if_false, Res.bind_ok, Res.pure_eq]
    refine ⟨_, rfl, fin s.heap (hh.congr ?_)⟩
    intro x
    by_cases hx : x = ev
    · subst hx; simp [hs]
    · simp [hx]

theorem loop_spec (s : S) (c : Cal) (hr : Rep s c) (now : TV) (hnow : Norm now) :
    ∃ c', Step c (.loop now) c' (Evsched.loop s now).2 ∧ Rep (Evsched.loop s now).1 c' := by
  have hr' := hr
  obtain ⟨hh, hn, ht, hp⟩ := hr
  unfold Evsched.loop
  by_cases h0 : s.heap.num = 0 ∨ s.paused = true
  · rw [if_pos h0]
    refine ⟨c, .idle c now ?_, hr'⟩
    rcases h0 with h0 | h0
    · right
      intro x u hx
      have := (C37_empty _ _ _ hh).mp h0 x
      simp [hx] at this
    · left; rw [← hp]; exact h0
  · rw [if_neg h0]
    have hnum : s.heap.num ≠ 0 := fun h => h0 (Or.inl h)
    have hpz : c.paused = false := by
      rw [← hp]
      cases hc : s.paused with
      | false => rfl
      | true => exact absurd (Or.inr hc) h0
    obtain ⟨m1, m2⟩ := C37_min _ (strictWeak s.tv) _ _ hh hnum
    obtain ⟨t, hdt⟩ := Option.isSome_iff_exists.mp m1
    have hle : ∀ x u, c.due x = some u → t ≤ u := by
      intro x u hx
      have := m2 x (by simp [hx])
      simp only [evLt, lt_false_iff _ _ (hn _) (hn _)] at this
      rw [ht _ _ hdt, ht _ _ hx] at this
      exact this
    simp only
    by_cases hge : now.ge (s.tv (s.heap.data 1)) = true
    · rw [if_pos hge]
      refine ⟨_, .deliver c now _ t hpz hdt ?_ hle, ?_⟩
      · simp only [TV.ge, Bool.not_eq_true', lt_false_iff _ _ hnow (hn _)] at hge
        rw [ht _ _ hdt] at hge
        exact hge
      · refine ⟨?_, hn, ?_, hp⟩
        · refine (C37_delmin _ (strictWeak s.tv) _ _ hh).congr ?_
          intro x
          by_cases hx : x = s.heap.data 1
          · simp [hx, hnum]
          · simp [hx]
        · intro e u he
          simp only at he ⊢
          split at he
          · cases he
          · exact ht e u he
    · rw [if_neg hge]
      refine ⟨c, .idle c now (Or.inr ?_), hr'⟩
      intro x u hx
      have h1 := hle x u hx
      have h2 : now.lt (s.tv (s.heap.data 1)) = true := by
        cases hc : now.lt (s.tv (s.heap.data 1)) with
        | true => rfl
        | false => exact absurd (by simp [TV.ge, hc]) hge
      rw [lt_iff _ _ hnow (hn _), ht _ _ hdt] at h2
      omega

end Evsched

/-- C21. A new scheduler is the empty calendar. -/
theorem C21_init : Rep Evsched.init ⟨fun _ => none, false⟩ :=
  ⟨(C37_init _ 0 _ _ (fun _ => rfl)).congr (by simp), by simp [Evsched.init, Norm], by simp, rfl⟩

/-- C21. One operation: never an error or an access out of the heap; the effect and the delivered
event are those of the calendar. -/
theorem C21_step (s : S) (c : Cal) (hr : Rep s c) (o : Evsched.Op) (ho : o.Valid) :
    ∃ s' c' d, perform s o = .ok (s', d) ∧ Step c o c' d ∧ Rep s' c' := by
  cases o with
  | schedule now ev dt =>
    obtain ⟨s', a, b⟩ := schedule_spec s c hr now ev dt
    exact ⟨s', _, none, by simp [perform, a], .schedule c now ev dt, b⟩
  | cancel ev =>
    obtain ⟨s', a, b⟩ := cancel_spec s c hr ev
    exact ⟨s', _, none, by simp [perform, a], .cancel c ev, b⟩
  | loop now =>
    obtain ⟨c', a, b⟩ := loop_spec s c hr now ho
    exact ⟨_, c', _, rfl, a, b⟩
  | pause b =>
    exact ⟨_, _, none, rfl, .pause c b, ⟨hr.holds, hr.norm, hr.time, rfl⟩⟩

namespace Evsched

/-- A run of the model: the events delivered by each operation. -/
def runOps (s : S) : List Op → Res (S × List (Option Nat))
  | [] => .ok (s, [])
  | o :: os => do
    let (s, d) ← perform s o
    let (s, ds) ← runOps s os
    pure (s, d :: ds)

/-- A run of the specification. -/
inductive Run : Cal → List Op → Cal → List (Option Nat) → Prop
  | nil (c) : Run c [] c []
  | cons (c o c' d os c'' ds) : Step c o c' d → Run c' os c'' ds → Run c (o :: os) c'' (d :: ds)

end Evsched

/-- C21. Every history of scheduling, cancelling, pausing and passes of the scheduler thread, with
arbitrary clock values (even going back), is a history of the calendar with the same deliveries. -/
theorem C21_histories (os : List Evsched.Op) (ho : ∀ o ∈ os, o.Valid) :
    ∃ s c ds, runOps Evsched.init os = .ok (s, ds) ∧ Evsched.Run ⟨fun _ => none, false⟩ os c ds ∧ Rep s c := by
  have gen : ∀ (s0 : S) (c0 : Cal), Rep s0 c0 → (∀ o ∈ os, o.Valid) →
      ∃ s c ds, runOps s0 os = .ok (s, ds) ∧ Evsched.Run c0 os c ds ∧ Rep s c := by
    clear ho
    induction os with
    | nil => intro s0 c0 h _; exact ⟨s0, c0, [], rfl, .nil c0, h⟩
    | cons o os ih =>
      intro s0 c0 h ho
      obtain ⟨s1, c1, d, a1, a2, a3⟩ := C21_step s0 c0 h o (ho o (by simp))
      obtain ⟨s2, c2, ds, b1, b2, b3⟩ := ih s1 c1 a3 (fun o' h' => ho o' (by simp [h']))
      exact ⟨s2, c2, d :: ds, by simp [runOps, a1, b1], .cons _ _ _ _ _ _ _ a2 b2, b3⟩
  exact gen _ _ C21_init ho

/-! ## Consequences for the calendar, hence by `C21_histories` for the scheduler -/

/-- C21. An event is delivered only at or after the deadline of its latest scheduling, and only if
it has not been cancelled or delivered since. -/
theorem C21_delivery_due (c : Cal) (now : TV) (c' : Cal) (ev : Nat)
    (h : Step c (.loop now) c' (some ev)) :
    ∃ t, c.due ev = some t ∧ t ≤ micros now ∧ c'.due ev = none ∧ (∀ x u, c.due x = some u → t ≤ u) := by
  cases h with
  | deliver _ _ t _ h2 h3 h4 => exact ⟨t, h2, h3, by simp, h4⟩

/-- C21. A cancelled event stays undelivered until it is scheduled again. -/
theorem C21_cancelled_never_delivered (c c' : Cal) (os : List Evsched.Op) (ds : List (Option Nat)) (ev : Nat)
    (h : Evsched.Run c os c' ds) (h0 : c.due ev = none)
    (hno : ∀ o ∈ os, ∀ now dt, o ≠ .schedule now ev dt) : some ev ∉ ds ∧ c'.due ev = none := by
  induction h with
  | nil => exact ⟨by simp, h0⟩
  | cons c o c' d os c'' ds hs hr ih =>
    have key : d ≠ some ev ∧ c'.due ev = none := by
      cases hs with
      | schedule now e dt =>
        have : ev ≠ e := by rintro rfl; exact hno _ (by simp) now dt rfl
        exact ⟨by simp, by simp [this, h0]⟩
      | cancel e => exact ⟨by simp, by simp only; split <;> simp [h0]⟩
      | deliver now e t h1 h2 h3 h4 =>
        refine ⟨?_, by simp only; split <;> simp [h0]⟩
        rintro hc; cases hc; rw [h0] at h2; cases h2
      | idle now h1 => exact ⟨by simp, h0⟩
      | pause b => exact ⟨by simp, h0⟩
    have := ih key.2 (fun o' h' => hno o' (by simp [h']))
    refine ⟨?_, this.2⟩
    simp only [List.mem_cons, not_or]
    exact ⟨fun h => key.1 h.symm, this.1⟩

/-- C21. A scheduled event is not lost: through any operations that neither cancel nor reschedule it,
it is either delivered or still scheduled with the same deadline. -/
theorem C21_not_lost (c c' : Cal) (os : List Evsched.Op) (ds : List (Option Nat)) (ev t : Nat)
    (h : Evsched.Run c os c' ds) (h0 : c.due ev = some t)
    (hno : ∀ o ∈ os, o ≠ .cancel ev ∧ ∀ now dt, o ≠ .schedule now ev dt) :
    some ev ∈ ds ∨ c'.due ev = some t := by
  induction h with
  | nil => exact Or.inr h0
  | cons c o c' d os c'' ds hs hr ih =>
    have hno' := hno o (by simp)
    have key : d = some ev ∨ c'.due ev = some t := by
      cases hs with
      | schedule now e dt =>
        have : ev ≠ e := by rintro rfl; exact hno'.2 now dt rfl
        exact Or.inr (by simp [this, h0])
      | cancel e =>
        have : ev ≠ e := by rintro rfl; exact hno'.1 rfl
        exact Or.inr (by simp [this, h0])
      | deliver now e t h1 h2 h3 h4 =>
        by_cases he : e = ev
        · exact Or.inl (by rw [he])
        · exact Or.inr (by simp only; rw [if_neg (fun h => he h.symm)]; exact h0)
      | idle now h1 => exact Or.inr h0
      | pause b => exact Or.inr h0
    rcases key with hk | hk
    · left; simp [hk]
    · rcases ih hk (fun o' h' => hno o' (by simp [h'])) with h1 | h1
      · left; simp [h1]
      · exact Or.inr h1

/-- C21. As long as some event is due and the scheduler is not paused, a pass of the loop delivers an
event: due events cannot be starved by waiting. -/
theorem C21_due_delivers (c c' : Cal) (now : TV) (d : Option Nat) (h : Step c (.loop now) c' d)
    (hp : c.paused = false) (ev t : Nat) (hd : c.due ev = some t) (ht : t ≤ micros now) :
    ∃ e u, d = some e ∧ c.due e = some u ∧ u ≤ t := by
  cases h with
  | deliver _ e u h1 h2 h3 h4 => exact ⟨_, _, rfl, h2, h4 ev t hd⟩
  | idle _ h1 =>
    rcases h1 with h1 | h1
    · rw [hp] at h1; cases h1
    · have := h1 ev t hd; omega

/-- C21. Consecutive deliveries at nondecreasing deadlines: an event delivered later, that was
already scheduled at the time of an earlier delivery, has a deadline that is not smaller. -/
theorem C21_order (c c1 c2 c3 : Cal) (now now' : TV) (os : List Evsched.Op) (ds : List (Option Nat)) (a b t u : Nat)
    (h1 : Step c (.loop now) c1 (some a)) (h2 : Evsched.Run c1 os c2 ds) (h3 : Step c2 (.loop now') c3 (some b))
    (ha : c.due a = some t) (hb : c.due b = some u) (hab : a ≠ b)
    (hno : ∀ o ∈ os, o ≠ .cancel b ∧ ∀ now dt, o ≠ .schedule now b dt) (hds : some b ∉ ds) :
    c2.due b = some u ∧ t ≤ u := by
  obtain ⟨t', h4, h5, _, h7⟩ := C21_delivery_due _ _ _ _ h1
  rw [ha] at h4; cases h4
  have hb1 : c1.due b = some u := by
    cases h1 with
    | deliver => simp only; rw [if_neg (fun h => hab h.symm)]; exact hb
  rcases C21_not_lost _ _ _ _ _ _ h2 hb1 hno with h8 | h8
  · exact absurd h8 hds
  · exact ⟨h8, h7 b u hb⟩

/-- C21, interleaved cancellation. `evsched_cancel` clears the deadline after it has released the
calendar lock. If another thread schedules the same event in between, the event stands in the
calendar with deadline zero: it is delivered at once although it was scheduled an hour ahead. -/
theorem C21_cancel_race :
    (match (do
      let s ← Evsched.schedule Evsched.init ⟨100, 0⟩ 1 5000
      let s ← cancelLocked s 1
      let s ← Evsched.schedule s ⟨100, 0⟩ 1 3600000
      pure (Evsched.loop (cancelReset s 1) ⟨101, 0⟩).2) with
    | .ok d => d == some 1 | _ => false) = true := by decide +kernel

/-- C21, interleaved cancellation, what does hold: if the event is not scheduled between the two
parts, the second part changes nothing for any calendar, so any other operations may intervene. -/
theorem C21_cancel_reset_safe (s : S) (c : Cal) (hr : Rep s c) (ev : Nat) (h0 : c.due ev = none) :
    Rep (cancelReset s ev) c := by
  obtain ⟨hh, hn, ht, hp⟩ := hr
  refine ⟨?_, ?_, ?_, hp⟩
  · refine holds_congr hh ?_
    intro a b ha hb
    have h1 : a ≠ ev := by rintro rfl; simp [h0] at ha
    have h2 : b ≠ ev := by rintro rfl; simp [h0] at hb
    simp only [cancelReset, evLt, setTv, h1, h2, if_false]
  · intro e
    simp only [cancelReset, setTv]
    split
    · simp [Norm]
    · exact hn e
  · intro e t he
    have : e ≠ ev := by rintro rfl; rw [h0] at he; cases he
    simp only [cancelReset, setTv, this, if_false]
    exact ht e t he

example : (match runOps Evsched.init [.schedule ⟨10, 0⟩ 1 5000, .schedule ⟨10, 0⟩ 2 3000, .schedule ⟨10, 0⟩ 3 4000,
      .cancel 3, .loop ⟨12, 0⟩, .loop ⟨20, 0⟩, .loop ⟨20, 0⟩, .loop ⟨20, 0⟩] with
    | .ok (_, ds) => ds == [none, none, none, none, none, some 2, some 1, none] | _ => false) = true := by
  decide +kernel

end Knot
