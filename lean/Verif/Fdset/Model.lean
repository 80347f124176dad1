/-! # TCP connections of a thread: model of src/knot/common/fdset.[ch] (with epoll) and the loop of
src/knot/server/tcp-handler.c

The events of the sockets, the outcomes of accepting and serving and the time are inputs. Not modelled: memory
errors and the allocated size of the arrays, the variants with kqueue and poll, the processing of queries. -/
namespace Knot.Fdset

/-- An item of the parallel arrays of fdset_t, src/knot/common/fdset.h:44-64: descriptor, context (the
interface), whether the second context (the TLS connection) is set, timeout (0 for none), and whether the events
are FDSET_REMOVE_FLAG. -/
structure Conn where
  fd : Nat
  ctx : Nat
  tls : Bool
  timeout : Nat
  mark : Bool
  deriving DecidableEq, Repr

/-- fdset_t with the kernel: `reg` is the epoll set, the index stored for a registered descriptor; `opn` are the
open descriptors; `log` the calls of close() by the set, with whether the TLS connection was left behind. -/
structure S where
  arr : List Conn
  reg : Nat → Option Nat
  opn : List Nat
  log : List (Nat × Bool)

/-- A map changed at one place. -/
def put (f : Nat → Option Nat) (n : Nat) (a : Option Nat) : Nat → Option Nat :=
  fun m => if m = n then a else f m

/-- close(): the kernel removes the descriptor from the epoll set. -/
def closeFd (s : S) (fd : Nat) (tls : Bool) : S :=
  { s with reg := put s.reg fd none, opn := s.opn.erase fd, log := s.log ++ [(fd, tls)] }

/-- fdset_add(), src/knot/common/fdset.c:96-133. `ok` is whether epoll_ctl() succeeds; the item stays if it does
not. -/
def add (s : S) (fd ctx : Nat) (ok : Bool) : S :=
  { s with arr := s.arr ++ [⟨fd, ctx, false, 0, false⟩],
           reg := if ok then put s.reg fd (some s.arr.length) else s.reg }

/-- fdset_remove(), src/knot/common/fdset.c:135-195. epoll_ctl() fails for a descriptor that is not
registered. The last item is moved to the place of the removed one. -/
def remove (s : S) (idx : Nat) : S :=
  match s.arr[idx]?, s.arr.getLast? with
  | some c, some l =>
    if (s.reg c.fd).isNone then closeFd s c.fd c.tls
    else
      let s := closeFd s c.fd c.tls
      let s' := { s with arr := (s.arr.set idx l).dropLast }
      if idx < s.arr.length - 1 then
        if (s.reg l.fd).isNone then s' else { s' with reg := put s'.reg l.fd (some idx) }
      else s'
  | _, _ => s

/-- fdset_set_watchdog(), src/knot/common/fdset.c:302-319, interval not negative. -/
def watchdog (arr : List Conn) (idx : Nat) (t : Nat) : List Conn :=
  arr.modify idx (fun c => { c with timeout := t })

/-- What the kernel says about a descriptor: an error, data to read, something else. -/
inductive Kind
  | error
  | pollin
  | other
  deriving DecidableEq, Repr

/-- An event of the epoll set and what happens when it is handled: `client` is the result of net_accept() with
the result of epoll_ctl(), `ok` whether a query was served, `tls` whether the interface is a TLS one, `now` the
time. -/
structure Ev where
  fd : Nat
  kind : Kind
  client : Option (Nat × Bool)
  ok : Bool
  tls : Bool
  now : Nat
  deriving DecidableEq, Repr

/-- tcp_context_t: client_threshold, max_worker_fds, idle_timeout. -/
structure Conf where
  thr : Nat
  max : Nat
  idle : Nat
  deriving DecidableEq, Repr

/-- tcp_event_accept(), src/knot/server/tcp-handler.c:229-245. -/
def accept (c : Conf) (s : S) (idx : Nat) (e : Ev) : S :=
  match e.client, s.arr[idx]? with
  | some (fd, ok), some m =>
    let s1 := add { s with opn := fd :: s.opn } fd m.ctx ok
    if ok then { s1 with arr := watchdog s1.arr s.arr.length (e.now + c.idle) }
    else closeFd s1 fd false
  | _, _ => s

/-- tcp_event_serve(), src/knot/server/tcp-handler.c:247-308: the TLS connection is made, the timeout moved if
the query was served. -/
def serve (c : Conf) (arr : List Conn) (idx : Nat) (e : Ev) : List Conn :=
  let arr := arr.modify idx (fun x => { x with tls := x.tls || e.tls })
  if e.ok then watchdog arr idx (e.now + c.idle) else arr

/-- free_tls_ctx() and fdset_it_remove(), src/knot/server/tcp-handler.c:87-94, src/knot/common/fdset.h:312-346. -/
def markAt (arr : List Conn) (idx : Nat) : List Conn :=
  arr.modify idx (fun x => { x with tls := false, mark := true })

/-- The body of the loop of tcp_wait_for_events(), src/knot/server/tcp-handler.c:329-355, for the event with the
index `idx`; the second component is `dirty`. -/
def handle (c : Conf) (st : S × Nat) (x : Nat × Ev) : S × Nat :=
  let s := st.1
  let idx := x.1
  let e := x.2
  match e.kind with
  | .error => if c.thr ≤ idx then ({ s with arr := markAt s.arr idx }, st.2 + 1) else st
  | .pollin =>
    if idx < c.thr then
      if s.arr.length < c.max then (accept c s idx e, st.2) else st
    else if e.ok then ({ s with arr := serve c s.arr idx e }, st.2)
    else ({ s with arr := markAt (serve c s.arr idx e) idx }, st.2 + 1)
  | .other => st

/-- The loop of fdset_it_commit(), src/knot/common/fdset.c:271-300, for the indices below the given one. -/
def commit : Nat → S → Nat → S × Nat
  | 0, s, d => (s, d)
  | k + 1, s, d =>
    if d = 0 then (s, d)
    else if (s.arr[k]?).any (·.mark) then commit k (remove s k) (d - 1)
    else commit k s d

/-- The events fdset_poll() and fdset_it_next() give from the index `offset` on, src/knot/common/fdset.c:197-269,
src/knot/common/fdset.h:289-303: the index is that stored for the descriptor. -/
def events (s : S) (offset : Nat) (evs : List Ev) : List (Nat × Ev) :=
  (evs.filterMap (fun e => (s.reg e.fd).map (fun i => (i, e)))).filter (fun x => offset ≤ x.1)

/-- tcp_wait_for_events(), src/knot/server/tcp-handler.c:310-357. `none` is a failed assertion: at the start, or
at the end of fdset_it_commit(). -/
def wait (c : Conf) (s : S) (evs : List Ev) : Option S :=
  if c.max < s.arr.length then none
  else
    let offset := if s.arr.length = c.max then c.thr else 0
    let st := (events s offset evs).foldl (handle c) (s, 0)
    let r := commit st.1.arr.length st.1 st.2
    if r.2 = 0 then some r.1 else none

/-- The loop of fdset_sweep(), src/knot/common/fdset.c:321-340, with tcp_sweep(), for the last `k` items. `none` is
an endless loop: the item at the index was not removed. -/
def sweepLoop (now : Nat) : Nat → S → Option S
  | 0, s => some s
  | k + 1, s =>
    let idx := s.arr.length - (k + 1)
    if (s.arr[idx]?).any (fun c => decide (0 < c.timeout ∧ c.timeout ≤ now)) then
      let s1 := remove { s with arr := s.arr.modify idx (fun c => { c with tls := false }) } idx
      if s1.arr.length = s.arr.length then none else sweepLoop now k s1
    else sweepLoop now k s

/-- fdset_sweep(). -/
def sweep (now : Nat) (s : S) : Option S := sweepLoop now s.arr.length s

/-- tcp_set_ifaces(), src/knot/server/tcp-handler.c:127-159, for descriptors and contexts of the interfaces. -/
def start (masters : List (Nat × Nat)) : S :=
  masters.foldl (fun s m => add { s with opn := m.1 :: s.opn } m.1 m.2 true) ⟨[], fun _ => none, [], []⟩

/-- update_tcp_conf(), src/knot/server/tcp-handler.c:72-85: the limit of items. -/
def limit (thr maxClients threads : Nat) : Nat := thr + Nat.max (maxClients / threads) 1

end Knot.Fdset
