import Verif.Prelude
/-!
# Model of the doubly linked lists and the worker queue
(src/contrib/ucw/lists.c, src/knot/worker/queue.c)

Memory is modelled at the pointer level: an address is a `Nat`, 0 is the null pointer. A list
structure consists of the addresses of its `head` and `tail` nodes. Dereferencing the null pointer
and failed assertions are undefined behaviour; use after free is excluded by the allocator
assumption (a new node's address is not one of the addresses in use).
-/
namespace Knot.Queue

/-- The `next` and `prev` fields of all nodes, and the `d` field of all pointer nodes.
Source: src/contrib/ucw/lists.h:14-16, 67-70. -/
structure Mem where
  next : Nat → Nat
  prev : Nat → Nat
  data : Nat → Nat

/-- A list structure: addresses of its two embedded nodes. Source: src/contrib/ucw/lists.h:18-20. -/
structure LList where
  head : Nat
  tail : Nat

def setAt (f : Nat → Nat) (a v : Nat) : Nat → Nat := fun x => if x = a then v else f x

/-- `p->next = v`; undefined for the null pointer. -/
def Mem.setNext (m : Mem) (p v : Nat) : Res Mem := if p = 0 then .ub else .ok { m with next := setAt m.next p v }
/-- `p->prev = v`; undefined for the null pointer. -/
def Mem.setPrev (m : Mem) (p v : Nat) : Res Mem := if p = 0 then .ub else .ok { m with prev := setAt m.prev p v }
/-- `p->next`. -/
def Mem.getNext (m : Mem) (p : Nat) : Res Nat := if p = 0 then .ub else .ok (m.next p)
/-- `p->prev`. -/
def Mem.getPrev (m : Mem) (p : Nat) : Res Nat := if p = 0 then .ub else .ok (m.prev p)

/-- `init_list`. Source: src/contrib/ucw/lists.c:117-124. -/
def initList (m : Mem) (l : LList) : Res Mem := do
  let m ← m.setNext l.head l.tail
  let m ← m.setPrev l.head 0
  let m ← m.setNext l.tail 0
  m.setPrev l.tail l.head

/-- `add_tail`. Source: src/contrib/ucw/lists.c:42-52. -/
def addTail (m : Mem) (l : LList) (n : Nat) : Res Mem := do
  let z := l.tail
  let m ← m.setNext n z
  let zp ← m.getPrev z
  let m ← m.setPrev n zp
  let zp ← m.getPrev z
  let m ← m.setNext zp n
  let m ← m.setPrev z n
  let zn ← m.getNext z
  if zn = 0 then .ok m else .ub

/-- `add_head`. Source: src/contrib/ucw/lists.c:61-71. -/
def addHead (m : Mem) (l : LList) (n : Nat) : Res Mem := do
  let z := l.head
  let zn ← m.getNext z
  let m ← m.setNext n zn
  let m ← m.setPrev n z
  let zn ← m.getNext z
  let m ← m.setPrev zn n
  let m ← m.setNext z n
  let zp ← m.getPrev z
  if zp = 0 then .ok m else .ub

/-- `insert_node`. Source: src/contrib/ucw/lists.c:81-90. -/
def insertNode (m : Mem) (n after : Nat) : Res Mem := do
  let z ← m.getNext after
  let m ← m.setNext n z
  let m ← m.setPrev n after
  let m ← m.setNext after n
  m.setPrev z n

/-- `rem_node`. Source: src/contrib/ucw/lists.c:98-108. -/
def remNode (m : Mem) (n : Nat) : Res Mem := do
  let z ← m.getPrev n
  let x ← m.getNext n
  let m ← m.setNext z x
  let m ← m.setPrev x z
  let m ← m.setPrev n 0
  m.setNext n 0

/-- `EMPTY_LIST`. Source: src/contrib/ucw/lists.h:37. -/
def isEmpty (m : Mem) (l : LList) : Res Bool := do
  let h ← m.getNext l.head
  let n ← m.getNext h
  .ok (n == 0)

/-- `WALK_LIST` from node `n`: the nodes visited. `fuel` bounds the number of nodes; running out of
fuel is reported as undefined behaviour (an endless walk). Source: src/contrib/ucw/lists.h:25-26. -/
def walk (m : Mem) : Nat → Nat → Res (List Nat)
  | 0, _ => .ub
  | fuel + 1, n => do
    let nx ← m.getNext n
    if nx = 0 then .ok []
    else do
      let r ← walk m fuel nx
      .ok (n :: r)

/-- `list_size`. Source: src/contrib/ucw/lists.c:171-181. -/
def listSize (m : Mem) (l : LList) (fuel : Nat) : Res Nat := do
  let h ← m.getNext l.head
  let r ← walk m fuel h
  .ok r.length

/-- `ptrlist_add` with the address `node` returned by the allocator.
Source: src/contrib/ucw/lists.c:206-216. -/
def ptrlistAdd (m : Mem) (l : LList) (val node : Nat) : Res Mem :=
  addTail { m with data := setAt m.data node val } l node

/-- `worker_queue_enqueue`. Source: src/knot/worker/queue.c:37-44. -/
def enqueue (m : Mem) (l : LList) (task node : Nat) : Res Mem :=
  if task = 0 then .ok m else ptrlistAdd m l task node

/-- `worker_queue_dequeue`: the task (0 when empty) and the memory afterwards.
Source: src/knot/worker/queue.c:46-62. -/
def dequeue (m : Mem) (l : LList) : Res (Nat × Mem) := do
  let e ← isEmpty m l
  if e then .ok (0, m)
  else do
    let node ← m.getNext l.head
    let task := m.data node
    let m ← remNode m node
    .ok (task, m)

end Knot.Queue
