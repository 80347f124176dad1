/-!
# Model of the zone event planner (src/knot/events/events.c)

A state machine whose steps are the critical sections of the planner: the sections under `mx`, the
calls of the event scheduler (calendar lock) and the parts in between. Any number of threads may
call the API; an action is possible whenever the locks it needs are free. The event scheduler is
represented by the deadline of the zone's single calendar entry (its own correctness is C21), the
worker pool by the list of the zone's tasks that were assigned or are being executed (C23, C41).

Simplifications: the clock does not advance between the two clock readings of one `reschedule`
(`time(NULL)` and `gettimeofday`); `events->event` is set up; `zone_events_deinit` and the
result of blocking events are not modelled; at most one thread is in `zone_events_freeze_blocking`.
-/
namespace Knot.Events

/-- Number of event types. Source: src/knot/events/events.h:30-48. -/
abbrev count : Nat := 14
/-- Event types `0..13`. Source: src/knot/events/events.h:30-48. -/
abbrev Ty := Fin count

/-- Source: src/knot/events/events.h:33-43. -/
def tyLoad : Ty := 0
def tyRefresh : Ty := 1
def tyUpdate : Ty := 2
def tyExpire : Ty := 3
def tyFlush : Ty := 4
def tyDnssec : Ty := 7
def tyUfreeze : Ty := 9
def tyUthaw : Ty := 10
def tyDsCheck : Ty := 11

/-- `ufreeze_applies`. Source: src/knot/events/events.c:76-89. -/
def ufreezeApplies (t : Ty) : Bool :=
  t == tyLoad || t == tyRefresh || t == tyUpdate || t == tyFlush || t == tyDnssec || t == tyDsCheck

/-- What a thread holding `reschedule_lock` has still to do after it released `mx`. -/
inductive Held
  /-- `evsched_schedule` with this delay in seconds (end of `reschedule`) -/
  | schedule (diff : Nat)
  /-- `evsched_cancel` (end of `zone_events_freeze`) -/
  | cancel
  deriving DecidableEq, Repr

/-- A task of this zone given to the worker pool. -/
inductive Task
  | assigned
  | executing (t : Ty)
  deriving DecidableEq, Repr

/-- A thread in `zone_events_freeze_blocking`. -/
inductive Waiter
  | absent | waiting | woken | done
  deriving DecidableEq, Repr

/-- `zone_events_t`, the calendar entry, the tasks and the clock (milliseconds). -/
structure St where
  now : Nat
  time : Ty → Nat
  forced : Ty → Bool
  frozen : Bool
  ufrozen : Bool
  running : Bool
  /-- deadline of the calendar entry in milliseconds, if it is in the calendar -/
  sched : Option Nat
  /-- the scheduler thread has taken the entry out and is about to enter `event_dispatch` -/
  dispatching : Bool
  tasks : List Task
  rlock : Option Held
  /-- calls of `zone_events_schedule_user` that have set the flag and not yet rescheduled -/
  owed : Nat
  waiter : Waiter
  /-- `events->blocking[-1]` has been read -/
  oob : Bool

/-- Assignment to one entry of an array. -/
def assign {α : Type} (f : Ty → α) (t : Ty) (v : α) : Ty → α := fun x => if x = t then v else f x

/-- The body of the loop of `get_next_event` for the event `i`; the accumulator is the best event so
far (`none` is `next == 0`, `ZONE_EVENT_INVALID`). Source: src/knot/events/events.c:140-148. -/
def nextStep (time : Ty → Nat) (forced : Ty → Bool) (ufrozen : Bool) (best : Option Ty) (i : Ty) : Option Ty :=
  let current := time i
  if (match best with | none => true | some b => decide (current < time b)) && decide (current ≠ 0) &&
      (forced i || !ufrozen || !ufreezeApplies i) then some i else best

/-- `get_next_event`. Source: src/knot/events/events.c:131-151. -/
@[irreducible] def getNext (time : Ty → Nat) (forced : Ty → Bool) (ufrozen : Bool) : Option Ty :=
  (List.finRange count).foldl (nextStep time forced ufrozen) none

/-- `get_next_event` in a state. -/
def St.next (s : St) : Option Ty := getNext s.time s.forced s.ufrozen

/-- `get_next_time`. Source: src/knot/events/events.c:156-160. -/
def St.nextTime (s : St) : Nat := match s.next with | some t => s.time t | none => 0

/-- `time(NULL)`. -/
abbrev St.secs (s : St) : Nat := s.now / 1000

/-- `time_until`. Source: src/knot/events/events.c:92-96. -/
def timeUntil (now planned : Nat) : Nat := if now < planned then planned - now else 0

/-- `reschedule` from the point where `mx` is held until it is released: either nothing more is to
be done, or `evsched_schedule` will be called with `reschedule_lock` held.
Source: src/knot/events/events.c:176-191. -/
def reschedule (s : St) : St :=
  if s.running || s.frozen then { s with rlock := none }
  else match s.next with
    | none => { s with rlock := none }
    | some t => { s with rlock := some (.schedule (timeUntil s.secs (s.time t))) }

/-- One (type, time) argument pair of `zone_events_schedule_at`.
Source: src/knot/events/events.c:351-362. -/
def plan (forced : Ty → Bool) (time : Ty → Nat) (arg : Ty × Int) : Ty → Nat :=
  if arg.2 < 0 then time
  else
    let current := time arg.1
    if current = 0 ∨ (arg.2 = 0 ∧ forced arg.1 = false) ∨ (arg.2 > 0 ∧ arg.2 < current) then
      assign time arg.1 arg.2.toNat
    else time

/-- The actions. -/
inductive Act
  /-- the clock advances -/
  | tick (ms : Nat)
  /-- `_zone_events_schedule_at` up to the release of `mx` -/
  | scheduleAt (args : List (Ty × Int))
  /-- first section of `zone_events_schedule_user` -/
  | setForced (t : Ty)
  /-- last part of `zone_events_schedule_user`: `reschedule(events, false)` -/
  | rescheduleUser
  /-- the call of `evsched_schedule` or `evsched_cancel` by the holder of `reschedule_lock` -/
  | finish
  /-- the scheduler thread takes the due entry out of the calendar -/
  | fire
  /-- `event_dispatch` -/
  | dispatch
  /-- a worker takes the assigned task: first section of `event_wrap` -/
  | begin
  /-- the handler of the freeze or thaw event -/
  | handler
  /-- last section of `event_wrap` -/
  | complete
  /-- `zone_events_enqueue` when it can bypass the scheduler -/
  | enqueue (t : Ty)
  /-- `zone_events_freeze` up to the release of `mx` -/
  | freeze
  /-- `zone_events_start` up to the release of `mx` -/
  | start
  /-- `zone_events_freeze_blocking` enters its waiting loop, or wakes up and tests again -/
  | waitTest
  deriving DecidableEq, Repr

/-- The effect of an action, `none` if it is not possible in the state. -/
def step (s : St) : Act → Option St
  | .tick ms =>
    -- not between the two clock readings of one `reschedule`
    if s.rlock = none then some { s with now := s.now + ms } else none
  | .scheduleAt args =>
    -- src/knot/events/events.c:345-371
    if s.rlock = none then
      let old := s.nextTime
      let s := { s with time := args.foldl (plan s.forced) s.time }
      some (if old ≠ s.nextTime then reschedule s else s)
    else none
  | .setForced t =>
    -- src/knot/events/events.c:382-385
    some { s with forced := assign s.forced t true, owed := s.owed + 1 }
  | .rescheduleUser =>
    -- src/knot/events/events.c:390, 171-191
    if s.rlock = none ∧ s.owed > 0 then some (reschedule { s with owed := s.owed - 1 }) else none
  | .finish =>
    -- evsched_schedule takes the delay as uint32_t milliseconds: src/knot/events/events.c:193-195,
    -- src/knot/common/evsched.h; evsched_cancel: src/knot/events/events.c:469-470.
    -- Both need the calendar lock, held by the scheduler thread while it dispatches.
    if s.dispatching then none
    else match s.rlock with
      | some (.schedule diff) => some { s with sched := some (s.now + diff * 1000 % 4294967296), rlock := none }
      | some .cancel => some { s with sched := none, rlock := none }
      | none => none
  | .fire =>
    -- src/knot/common/evsched.c:86-88
    match s.sched with
    | some d => if d ≤ s.now ∧ s.dispatching = false then some { s with sched := none, dispatching := true } else none
    | none => none
  | .dispatch =>
    -- src/knot/events/events.c:273-278
    if s.dispatching then
      let s := { s with dispatching := false }
      some (if s.running = false ∧ s.frozen = false then
        { s with running := true, tasks := s.tasks ++ [.assigned] } else s)
    else none
  | .begin =>
    -- src/knot/events/events.c:214-225
    if .assigned ∈ s.tasks then
      match s.next with
      | none => some { s with oob := true, running := false, tasks := s.tasks.erase .assigned }
      | some t => some { s with time := assign s.time t 0, forced := assign s.forced t false,
                                tasks := .executing t :: s.tasks.erase .assigned }
    else none
  | .handler =>
    -- src/knot/events/handlers/freeze_thaw.c:22-33, 35-46
    if .executing tyUfreeze ∈ s.tasks then some { s with ufrozen := true }
    else if .executing tyUthaw ∈ s.tasks then some { s with ufrozen := false }
    else none
  | .complete =>
    -- src/knot/events/events.c:244-260
    if s.rlock = none then
      match s.tasks.find? (· ≠ .assigned) with
      | some t => some (reschedule { s with running := false, tasks := s.tasks.erase t,
                                            waiter := if s.waiter = .waiting then .woken else s.waiter })
      | none => none
    else none
  | .enqueue t =>
    -- src/knot/events/events.c:435-446; otherwise it is `scheduleAt [(t, time(NULL))]`, line 451
    if s.running = false ∧ s.frozen = false ∧ (s.ufrozen = false ∨ ufreezeApplies t = false) then
      some { s with running := true, time := assign s.time t 1, tasks := s.tasks ++ [.assigned] }
    else none
  | .freeze =>
    -- src/knot/events/events.c:463-466
    if s.rlock = none then some { s with frozen := true, rlock := some .cancel } else none
  | .start =>
    -- src/knot/events/events.c:505-509
    if s.rlock = none then some (reschedule { s with frozen := false }) else none
  | .waitTest =>
    -- src/knot/events/events.c:486-491
    if s.waiter = .absent ∨ s.waiter = .woken then
      some { s with waiter := if s.running then .waiting else .done }
    else none

/-- State after `zone_events_init` and `zone_events_setup`; the user freeze flag may be inherited
from the zone before a reload. Source: src/knot/events/events.c:281-315, src/knot/zone/zonedb-load.c:94. -/
def init (now : Nat) (ufrozen : Bool) : St :=
  { now, time := fun _ => 0, forced := fun _ => false, frozen := false, ufrozen, running := false,
    sched := none, dispatching := false, tasks := [], rlock := none, owed := 0, waiter := .absent,
    oob := false }

/-- A run of actions, all of them possible. -/
def run (s : St) : List Act → Option St
  | [] => some s
  | a :: as => (step s a).bind (run · as)

end Knot.Events
