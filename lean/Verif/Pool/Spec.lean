import Verif.Pool.Model
/-!
# Specification: the worker pool

Everything is said about the sequence of events.
-/
namespace Knot.Pool

/-- A queue: assigned tasks are appended, a task is started from the front. `none` if the events do
not behave like that. -/
def queue : List Event → Option (List Nat)
  | es => es.foldl (fun q e =>
      match q, e with
      | some q, .assigned t => some (q ++ [t])
      | some (t :: q), .started _ t' => if t = t' then some q else none
      | some [], .started _ _ => none
      | some _, .cleared => some []
      | q, _ => q) (some [])

/-- The task each thread is running; `none` if a thread starts a task while running another one, or
finishes a task it does not run. -/
def tasksRun : List Event → Option (Nat → Option Nat)
  | es => es.foldl (fun f e =>
      match f, e with
      | some f, .started i t =>
        if f i = none then some (fun j => if j = i then some t else f j) else none
      | some f, .finished i t =>
        if f i = some t then some (fun j => if j = i then none else f j) else none
      | f, _ => f) (some fun _ => none)

/-- Whether the pool is suspended. -/
def isSuspended (es : List Event) : Bool :=
  es.foldl (fun b e => match e with | .suspended => true | .resumed => false | _ => b) false

/-- Whether the pool was stopped. -/
def isStopped (es : List Event) : Bool := decide (.stopped ∈ es)

/-- Nothing is queued and nothing is running. -/
def Quiet (es : List Event) : Prop := queue es = some [] ∧ ∃ f, tasksRun es = some f ∧ ∀ i, f i = none

/-- Whether a thread runs a task. -/
def Worker.isBusy : Worker → Bool
  | .busy _ => true
  | _ => false

/-- A thread that can go on when it is scheduled. -/
def Worker.Awake : Worker → Prop
  | .ready | .busy _ => True
  | _ => False

/-- A step of a thread of the pool. -/
def Act.OfWorker : Act → Prop
  | .work _ | .finish _ => True
  | _ => False

end Knot.Pool
