import Verif.Sockaddr.Model
/-!
# Model of the pool of outgoing connections (src/contrib/conn_pool.c)

A connection is a number; -1 is none. The operations take a mutex, so a history is a sequence of them; the check and the closing
of a connection that was taken out happen after the mutex is released, but concern only this connection. Memory is never
exhausted. Times are numbers of seconds, 64 bits; 0 means none, which `knot_time_cmp()` takes for infinity.
-/
namespace Knot.Connpool
open Sockaddr (Addr Fam)

/-- conn_pool_memb_t, src/contrib/conn_pool.h: an unused place has `last` 0. -/
structure Memb where
  last : Nat
  src : Addr
  dst : Addr
  fd : Int
  deriving DecidableEq, Repr

/-- conn_pool_t, src/contrib/conn_pool.h; the capacity is the length of `conns`. -/
structure Pool where
  conns : List Memb
  usage : Nat
  timeout : Nat
  deriving DecidableEq, Repr

/-- A place after memset(). -/
def unused : Memb := ⟨0, ⟨.unspec, [], 0⟩, ⟨.unspec, [], 0⟩, 0⟩

/-- knot_time_cmp(), src/contrib/time.h:87-90. -/
def timeCmp (a b : Nat) : Int :=
  (if a = b then 0 else 1) * (if a = 0 ∨ b = 0 then -1 else 1) * (if a < b then -1 else 1)

/-- conn_pool_init(), src/contrib/conn_pool.c:99-124. -/
def init (capacity timeout : Nat) : Option Pool :=
  if capacity = 0 ∨ timeout = 0 then none else some ⟨List.replicate capacity unused, 0, timeout⟩

/-- pool_pop(), src/contrib/conn_pool.c:161-170, with its assertions. -/
def pop (p : Pool) (i : Nat) : Res (Int × Pool) :=
  match p.conns[i]? with
  | none => .ub
  | some c => if c.last = 0 ∨ p.usage = 0 then .ub else .ok (c.fd, { p with conns := p.conns.set i unused, usage := p.usage - 1 })

/-- pool_push(), src/contrib/conn_pool.c:202-215, with its assertions; `now` is knot_time(). -/
def push (p : Pool) (i now : Nat) (src dst : Addr) (fd : Int) : Res Pool :=
  match p.conns[i]? with
  | none => .ub
  | some c =>
    if c.last ≠ 0 ∨ p.usage ≥ p.conns.length then .ub
    else .ok { p with conns := p.conns.set i ⟨now, src, dst, fd⟩, usage := p.usage + 1 }

/-- The place `i`. -/
def place (p : Pool) (i : Nat) : Memb := (p.conns[i]?).getD unused

/-- The loop of get_old(), src/contrib/conn_pool.c:58-65, over `n` places from `i` on. -/
def oldLoop (older : Nat) : Nat → Nat → Int → Nat → Pool → Res (Int × Nat × Pool)
  | 0, _, fd, next, p => .ok (fd, next, p)
  | n + 1, i, fd, next, p =>
    if fd = -1 ∧ timeCmp (place p i).last older < 0 then do
      let r ← pop p i
      oldLoop older n (i + 1) r.1 next r.2
    else oldLoop older n (i + 1) fd (if timeCmp (place p i).last next < 0 then (place p i).last else next) p

/-- get_old(), src/contrib/conn_pool.c:47-69: the connection, the time of the oldest other one, the pool. -/
def getOld (p : Pool) (older : Nat) : Res (Int × Nat × Pool) := oldLoop older p.conns.length 0 (-1) 0 p

/-- The inner loop of closing_thread(), src/contrib/conn_pool.c:80-87, and of conn_pool_deinit(), lines 134-136, without other
operations in between: the connections closed, the time of the oldest one left, the pool. `fuel` bounds the steps. -/
def closeLoop (older : Nat) : Nat → Pool → Res (List Int × Nat × Pool)
  | 0, _ => .ub
  | fuel + 1, p => do
    let r ← getOld p older
    if r.1 = -1 then .ok ([], r.2.1, r.2.2)
    else do
      let s ← closeLoop older fuel r.2.2
      .ok (r.1 :: s.1, s.2.1, s.2.2)

/-- `now - timeout + 1` as a knot_time_t, src/contrib/conn_pool.c:81. -/
def limit (now timeout : Nat) : Nat := (now + 2 ^ 64 - timeout + 1) % 2 ^ 64

/-- A pass of closing_thread(), src/contrib/conn_pool.c:75-94: the connections closed, the time to sleep, the pool. -/
def closePass (p : Pool) (now : Nat) : Res (List Int × Nat × Pool) := do
  let r ← closeLoop (limit now p.timeout) (p.conns.length + 1) p
  .ok (r.1, if r.2.1 = 0 then p.timeout else r.2.1 + p.timeout - now, r.2.2)

/-- The loop of conn_pool_get(), src/contrib/conn_pool.c:183-190. -/
def getLoop (le : Bool) (src dst : Addr) : Nat → Nat → Pool → Res (Int × Pool)
  | 0, _, p => .ok (-1, p)
  | n + 1, i, p =>
    if (place p i).last ≠ 0 ∧ Sockaddr.cmp le (place p i).dst dst false = 0 ∧ Sockaddr.cmp le (place p i).src src true = 0 then pop p i
    else getLoop le src dst n (i + 1) p

/-- Where the loop of conn_pool_put() ends: at a free place, or with the oldest one. -/
inductive Spot where
  | free (i : Nat)
  | oldest (i : Nat)
  deriving DecidableEq, Repr

/-- The loop of conn_pool_put(), src/contrib/conn_pool.c:231-240. -/
def putLoop (p : Pool) : Nat → Nat → Nat → Nat → Spot
  | 0, _, _, oi => .oldest oi
  | n + 1, i, ot, oi =>
    if (place p i).last = 0 then .free i
    else if timeCmp (place p i).last ot < 0 then putLoop p n (i + 1) (place p i).last i
    else putLoop p n (i + 1) ot oi

/-- conn_pool_put(), src/contrib/conn_pool.c:217-247: the connection returned, and the pool. -/
def put (p : Pool) (now : Nat) (src dst : Addr) (fd : Int) : Res (Int × Pool) :=
  match putLoop p p.conns.length 0 0 p.conns.length with
  | .free i => do
    let q ← push p i now src dst fd
    .ok (-1, q)
  | .oldest i =>
    if ¬i < p.conns.length then .ub
    else do
      let r ← pop p i
      let q ← push r.2 i now src dst fd
      .ok (r.1, q)

/-- Operations of the threads; in `get`, `invalid` is what the check of the connection says. -/
inductive Op where
  | put (now : Nat) (src dst : Addr) (fd : Int)
  | get (src dst : Addr) (invalid : Bool)
  | old (older : Nat)
  | setTimeout (t : Nat)
  deriving DecidableEq, Repr

/-- What happens to connections: put into the pool, taken for use, closed, returned to the one who puts another. -/
inductive Ev where
  | put (fd : Int)
  | taken (fd : Int)
  | closed (fd : Int)
  | returned (fd : Int)
  deriving DecidableEq, Repr

/-- One operation: conn_pool_put(), conn_pool_get() with its check (src/contrib/conn_pool.c:172-200), one step of closing, and
conn_pool_timeout() (lines 143-159). -/
def step (le : Bool) (p : Pool) : Op → Res (Pool × List Ev)
  | .put now src dst fd => do
    let r ← put p now src dst fd
    .ok (r.2, .put fd :: (if r.1 = -1 then [] else [.returned r.1]))
  | .get src dst invalid => do
    let r ← getLoop le src dst p.conns.length 0 p
    .ok (r.2, if r.1 = -1 then [] else if invalid then [.closed r.1] else [.taken r.1])
  | .old older => do
    let r ← getOld p older
    .ok (r.2.2, if r.1 = -1 then [] else [.closed r.1])
  | .setTimeout t => .ok ({ p with timeout := if t = 0 then p.timeout else t }, [])

/-- A history. -/
def run (le : Bool) : Pool → List Op → Res (Pool × List Ev)
  | p, [] => .ok (p, [])
  | p, o :: os => do
    let r ← step le p o
    let s ← run le r.1 os
    .ok (s.1, r.2 ++ s.2)

end Knot.Connpool
