import Verif.Heap.Model
/-!
# Model of the event scheduler (src/knot/common/evsched.c)

Events are numbers (their addresses). One step of the scheduler thread is one pass of its loop
with the value of the clock read in it. The calendar lock makes every operation atomic, except
`evsched_cancel`, which resets the deadline of the event after it has released the lock: it is
modelled in two steps. The waiting itself (condition variable) is not modelled: a step of the loop
may happen at any time.
-/
namespace Knot.Evsched
open Knot.Heap

/-- `struct timeval`. -/
structure TV where
  sec : Nat
  usec : Nat
  deriving DecidableEq, Repr

/-- `timercmp(a, b, <)` of <sys/time.h>. -/
def TV.lt (a b : TV) : Bool := if a.sec = b.sec then decide (a.usec < b.usec) else decide (a.sec < b.sec)

/-- `timercmp_ge`. Source: src/knot/common/evsched.c:28-30. -/
def TV.ge (a b : TV) : Bool := !(a.lt b)

/-- Carry loop of `timeval_in`. Source: src/knot/common/evsched.c:53-57. -/
def carry (sec usec : Nat) : TV :=
  if h : usec > 999999 then carry (sec + 1) (usec - 1000000) else ⟨sec, usec⟩
termination_by usec
decreasing_by exact Nat.sub_lt (Nat.lt_trans (Nat.succ_pos _) h) (Nat.succ_pos _)

/-- `timeval_in`: the time `now` plus `dt` milliseconds; `dt` is a `uint32_t` (`dt < 2^32`).
Source: src/knot/common/evsched.c:42-60. -/
def timevalIn (now : TV) (dt : Nat) : TV := carry (now.sec + dt / 1000) (now.usec + dt % 1000 * 1000)

/-- The scheduler: `evsched_t` with the deadlines `tv` of all events and the list of deliveries
(callbacks called, in order, newest first). -/
structure S where
  heap : H
  tv : Nat → TV
  paused : Bool
  delivered : List Nat

/-- Assignment to the deadline of one event. -/
def setTv (f : Nat → TV) (i : Nat) (v : TV) : Nat → TV := fun x => if x = i then v else f x

/-- `compare_event_heap_nodes(..) < 0`. Source: src/knot/common/evsched.c:32-37. -/
def evLt (tv : Nat → TV) (a b : Nat) : Bool := (tv a).lt (tv b)

/-- `evsched_init`: an empty calendar (heap of default size).
Source: src/knot/common/evsched.c:102-120. -/
def init : S := ⟨Heap.init 0 (fun _ => 0) (fun _ => 0), fun _ => ⟨0, 0⟩, false, []⟩

/-- `evsched_schedule` called at time `now`. Source: src/knot/common/evsched.c:180-209. -/
def schedule (s : S) (now : TV) (ev dt : Nat) : Res S := do
  let tv := setTv s.tv ev (timevalIn now dt)
  let found := find s.heap ev
  let heap ← if found > 0 then replace (evLt tv) s.heap found ev else Heap.insert (evLt tv) s.heap ev
  pure { s with heap, tv }

/-- `evsched_cancel`, the part under the lock. Source: src/knot/common/evsched.c:217-228. -/
def cancelLocked (s : S) (ev : Nat) : Res S := do
  let found := find s.heap ev
  let heap ← if found > 0 then delete (evLt s.tv) s.heap found else pure s.heap
  pure { s with heap }

/-- `evsched_cancel`, the part after the lock has been released: the deadline is cleared.
Source: src/knot/common/evsched.c:231-232. -/
def cancelReset (s : S) (ev : Nat) : S := { s with tv := setTv s.tv ev ⟨0, 0⟩ }

/-- `evsched_cancel` not interleaved with another operation. Source: src/knot/common/evsched.c:211-235. -/
def cancel (s : S) (ev : Nat) : Res S := do
  let s ← cancelLocked s ev
  pure (cancelReset s ev)

/-- One pass of the loop in `evsched_run`; the second component is the event whose callback is
called. Source: src/knot/common/evsched.c:73-97. -/
def loop (s : S) (now : TV) : S × Option Nat :=
  if s.heap.num = 0 ∨ s.paused = true then (s, none)
  else
    let ev := s.heap.data 1
    if now.ge (s.tv ev) then
      ({ s with heap := delmin (evLt s.tv) s.heap, delivered := ev :: s.delivered }, some ev)
    else (s, none)

/-- `evsched_pause` / `evsched_resume`. Source: src/knot/common/evsched.c:255-268. -/
def setPaused (s : S) (b : Bool) : S := { s with paused := b }

end Knot.Evsched
