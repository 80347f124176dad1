import Verif.Fdset.Model
/-! # C55: what should happen to the connections -/
namespace Knot.Fdset

/-- The event of a descriptor, if there is one. -/
def eventOf (evs : List Ev) (fd : Nat) : Option Ev := evs.find? (fun e => e.fd = fd)

/-- What becomes of a client's connection in a round of events: closed after an error or a failed query, its timeout
moved after a served query, nothing else; nothing if there is no event of its own. -/
def after (idle : Nat) (evs : List Ev) (x : Conn) : Option Conn :=
  match eventOf evs x.fd with
  | none => some x
  | some e =>
    match e.kind, e.ok with
    | .error, _ => none
    | .pollin, false => none
    | .pollin, true => some { x with tls := x.tls || e.tls, timeout := e.now + idle }
    | .other, _ => some x

/-- The new connections, in the order of the events of the listening sockets `ms`, as long as there are fewer than
`max` items. -/
def accepted (max idle : Nat) (ms : List Conn) : Nat → List Ev → List Conn
  | _, [] => []
  | n, e :: evs =>
    match ms.find? (fun m => m.fd = e.fd), e.client with
    | some m, some (fd, _) =>
      if e.kind = .pollin ∧ n < max then
        ⟨fd, m.ctx, false, e.now + idle, false⟩ :: accepted max idle ms (n + 1) evs
      else accepted max idle ms n evs
    | _, _ => accepted max idle ms n evs

/-- The set and the kernel agree: a descriptor is registered with an index iff it is there; all registered ones are
open. Nothing is marked for removal. -/
structure Good (s : S) : Prop where
  reg : ∀ fd i, s.reg fd = some i ↔ (s.arr[i]?).map (·.fd) = some fd
  opn : ∀ fd, fd ∈ s.opn ↔ ∃ c ∈ s.arr, c.fd = fd
  nodup : s.opn.Nodup
  marks : ∀ c ∈ s.arr, c.mark = false

/-- The items of the clients: those after the `k` listening sockets. -/
def clients (k : Nat) (s : S) : List Conn := s.arr.drop k

/-- The items of the listening sockets. -/
def listeners (k : Nat) (s : S) : List Conn := s.arr.take k

/-- Events the kernel can give: of registered descriptors, each once; accepted descriptors were not open; adding to
the epoll set succeeds. -/
structure Fits (s : S) (evs : List Ev) : Prop where
  nodup : (evs.map (·.fd)).Nodup
  known : ∀ e ∈ evs, ∃ c ∈ s.arr, c.fd = e.fd
  fresh : ∀ e ∈ evs, ∀ fd ok, e.client = some (fd, ok) → fd ∉ s.opn ∧ ok = true
  once : (evs.filterMap (fun e => e.client.map (·.1))).Nodup

/-- The lives of a thread: any number of rounds of events, sweeps and changes of the configuration, in any order. -/
inductive Life (masters : List (Nat × Nat)) : Conf → S → Prop
  | start {c : Conf} : c.thr = masters.length → masters.length ≤ c.max → (masters.map (·.1)).Nodup →
      Life masters c (start masters)
  | wait {c : Conf} {s s' : S} {evs : List Ev} : Life masters c s → Fits s evs → wait c s evs = some s' →
      Life masters c s'
  | sweep {c : Conf} {s s' : S} {now : Nat} : Life masters c s → sweep now s = some s' → Life masters c s'
  | conf {c c' : Conf} {s : S} : Life masters c s → c'.thr = c.thr → Life masters c' s

/-- The connection is past its timeout. -/
def Expired (now : Nat) (c : Conn) : Prop := 0 < c.timeout ∧ c.timeout ≤ now

instance (now : Nat) (c : Conn) : Decidable (Expired now c) := by unfold Expired; exact inferInstance

end Knot.Fdset
