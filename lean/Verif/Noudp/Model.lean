import Verif.Prelude
/-!
# Model of the module noudp (src/knot/modules/noudp/noudp.c)
-/
namespace Knot.Noudp

/-- noudp_ctx_t, src/knot/modules/noudp/noudp.c:39-43; without a rate there are no counters. -/
structure Ctx where
  rate : UInt32
  counters : List UInt32
  truncMode : Bool
  deriving DecidableEq, Repr

/-- noudp_conf_check(), src/knot/modules/noudp/noudp.c:28-37: the two options, if they are set. -/
def confCheck (allow trunc : Option UInt32) : Bool := !(allow.isSome && trunc.isSome)

/-- noudp_load(), src/knot/modules/noudp/noudp.c:72-100; `threads` is the number of server threads. Memory errors are left out. -/
def load (allow trunc : Option UInt32) (threads : Nat) : Ctx :=
  let (rate, mode) := match allow, trunc with
    | some a, _ => (a, false)
    | none, some t => (t, true)
    | none, none => (0, false)
  ⟨rate, if rate > 0 then List.replicate threads 0 else [], mode⟩

/-- The part of noudp_begin() with the counter, src/knot/modules/noudp/noudp.c:55-62: the context, and whether to truncate.
A thread without a counter is an access out of the array. -/
def count (ctx : Ctx) (thread : Nat) : Res (Ctx × Bool) :=
  match ctx.counters[thread]? with
  | none => .ub
  | some c =>
    let c := c + 1
    let apply := decide (c ≥ ctx.rate)
    .ok ({ ctx with counters := ctx.counters.set thread (if apply then 0 else c) }, apply == ctx.truncMode)

/-- noudp_begin(), src/knot/modules/noudp/noudp.c:45-70: whether the answer is only the header with the flag TC. -/
def begin (ctx : Ctx) (udp : Bool) (thread : Nat) : Res (Ctx × Bool) :=
  if !udp then .ok (ctx, false)
  else if ctx.rate > 0 then count ctx thread
  else .ok (ctx, true)

/-- Queries one after another, each over UDP or not, on a thread. A counter is only used by its own thread, so every schedule of
threads is such a sequence. -/
def run (ctx : Ctx) : List (Bool × Nat) → Res (List Bool)
  | [] => .ok []
  | q :: qs => do
    let r ← begin ctx q.1 q.2
    let rest ← run r.1 qs
    .ok (r.2 :: rest)

end Knot.Noudp
