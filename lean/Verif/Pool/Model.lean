import Verif.Prelude
/-!
# Model of the worker pool (src/knot/worker/pool.c, src/knot/worker/queue.c)

What a thread does between taking and releasing the lock of the pool is one step, because no other
thread reads or writes the pool then. Waiting on the condition releases the lock: a step ends there,
and the thread goes on in a later step, after it was woken and has the lock again. The condition may
wake a thread without a reason, and signalling it wakes one of the waiting threads, any of them
(POSIX allows more to be woken, which is a wake-up without a reason here).

A task is a number. The threads of the pool run as long as they do not return: starting and joining
them (src/knot/server/dthreads.c) is not modelled.
-/
namespace Knot.Pool

/-- Where a thread of worker_main() is, src/knot/worker/pool.c:51-88. -/
inductive Worker where
  /-- before lines 57 or, woken, before the return from line 70 -/
  | ready
  /-- waiting for the condition, line 70 -/
  | asleep
  /-- running a task, line 78 -/
  | busy (task : Nat)
  /-- returned, line 87 -/
  | ended
  deriving DecidableEq, Repr

/-- Where a call of worker_pool_wait_cb() is, src/knot/worker/pool.c:194-208. -/
inductive Waiter where
  /-- before line 200 or, woken, before the return from line 205 -/
  | ready
  /-- waiting for the condition, line 205 -/
  | asleep
  /-- returned -/
  | done
  deriving DecidableEq, Repr

/-- `struct worker_pool`, src/knot/worker/pool.c:30-40, with its threads and the calls waiting. -/
structure St where
  terminating : Bool
  suspended : Bool
  running : Int
  tasks : List Nat
  workers : List Worker
  waiters : List Waiter
  deriving DecidableEq, Repr

/-- worker_pool_create(), src/knot/worker/pool.c:92-121. -/
def create (threads : Nat) : St := ⟨false, false, 0, [], List.replicate threads .ready, []⟩

/-- What happens, as seen from outside. -/
inductive Event where
  | assigned (task : Nat)
  | started (thread task : Nat)
  | finished (thread task : Nat)
  | suspended
  | resumed
  | stopped
  | cleared
  /-- the call returns -/
  | waited (call : Nat)
  deriving DecidableEq, Repr

/-- A sleeping thread woken. -/
def Worker.wake : Worker → Worker
  | .asleep => .ready
  | w => w

/-- A sleeping call woken. -/
def Waiter.wake : Waiter → Waiter
  | .asleep => .ready
  | w => w

/-- pthread_cond_broadcast() on `wake`. -/
def broadcast (s : St) : St :=
  { s with workers := s.workers.map Worker.wake, waiters := s.waiters.map Waiter.wake }

/-- One round of the loop of worker_main() for the thread `i` which has the lock, up to the point
where it releases it, src/knot/worker/pool.c:60-77 and 85. worker_queue_dequeue() is
src/knot/worker/queue.c:46-62. -/
def round (s : St) (i : Nat) : St × List Event :=
  if s.terminating then ({ s with workers := s.workers.set i .ended }, [])
  else if s.suspended then ({ s with workers := s.workers.set i .asleep }, [])
  else
    match s.tasks with
    | [] => ({ s with workers := s.workers.set i .asleep }, [])
    | t :: ts =>
      ({ s with tasks := ts, running := s.running + 1, workers := s.workers.set i (.busy t) },
        [.started i t])

/-- Whom a signal wakes. -/
inductive Who where
  | worker (i : Nat)
  | waiter (j : Nat)
  | nobody
  deriving DecidableEq, Repr

/-- pthread_cond_signal() on `wake`; `none` if that choice is not possible: somebody is woken if
anybody waits. -/
def signal (s : St) : Who → Option St
  | .worker i =>
    if s.workers[i]? = some .asleep then some { s with workers := s.workers.set i .ready } else none
  | .waiter j =>
    if s.waiters[j]? = some .asleep then some { s with waiters := s.waiters.set j .ready } else none
  | .nobody => if .asleep ∈ s.workers ∨ .asleep ∈ s.waiters then none else some s

/-- The steps. -/
inductive Act where
  /-- a ready thread takes the lock -/
  | work (i : Nat)
  /-- the task of a thread returns and the thread takes the lock -/
  | finish (i : Nat)
  /-- a thread is woken without a reason -/
  | wake (i : Nat)
  /-- a waiting call is woken without a reason -/
  | wakeCall (j : Nat)
  /-- worker_pool_wait() is called -/
  | call
  /-- a ready call of worker_pool_wait() takes the lock -/
  | check (j : Nat)
  /-- worker_pool_assign() -/
  | assign (task : Nat) (who : Who)
  /-- worker_pool_suspend() -/
  | suspend
  /-- worker_pool_resume() -/
  | resume
  /-- worker_pool_stop() -/
  | stop
  /-- worker_pool_clear() -/
  | clear
  deriving DecidableEq, Repr

/-- The end of a task, src/knot/worker/pool.c:79-82, and the next round. -/
def finishTask (s : St) (i t : Nat) : St × List Event :=
  let s := broadcast { s with running := s.running - 1 }
  let (s, es) := round s i
  (s, .finished i t :: es)

/-- The loop condition of worker_pool_wait_cb(), src/knot/worker/pool.c:201. -/
def mustWait (s : St) : Bool := decide (s.tasks ≠ [] ∨ s.running > 0)

/-- One step, if it is possible. -/
def step (s : St) : Act → Option (St × List Event)
  | .work i => if s.workers[i]? = some .ready then some (round s i) else none
  | .finish i =>
    match s.workers[i]? with
    | some (.busy t) => some (finishTask s i t)
    | _ => none
  | .wake i =>
    if s.workers[i]? = some .asleep then some ({ s with workers := s.workers.set i .ready }, [])
    else none
  | .wakeCall j =>
    if s.waiters[j]? = some .asleep then some ({ s with waiters := s.waiters.set j .ready }, [])
    else none
  -- src/knot/worker/pool.c:194-200
  | .call => some ({ s with waiters := s.waiters ++ [.ready] }, [])
  -- src/knot/worker/pool.c:201-207
  | .check j =>
    if s.waiters[j]? = some .ready then
      if mustWait s then some ({ s with waiters := s.waiters.set j .asleep }, [])
      else some ({ s with waiters := s.waiters.set j .done }, [.waited j])
    else none
  -- src/knot/worker/pool.c:215-225; worker_queue_enqueue(), src/knot/worker/queue.c:37-44
  | .assign t who =>
    match signal { s with tasks := s.tasks ++ [t] } who with
    | some s => some (s, [.assigned t])
    | none => none
  -- src/knot/worker/pool.c:162-171
  | .suspend => some ({ s with suspended := true }, [.suspended])
  -- src/knot/worker/pool.c:173-183
  | .resume => some (broadcast { s with suspended := false }, [.resumed])
  -- src/knot/worker/pool.c:148-160
  | .stop => some (broadcast { s with terminating := true }, [.stopped])
  -- src/knot/worker/pool.c:227-237
  | .clear => some ({ s with tasks := [] }, [.cleared])

/-- Steps one after another, with what happened. -/
def exec (s : St) : List Act → Option (St × List Event)
  | [] => some (s, [])
  | a :: as =>
    match step s a with
    | none => none
    | some (s', es) =>
      match exec s' as with
      | none => none
      | some (s'', es') => some (s'', es ++ es')

end Knot.Pool
