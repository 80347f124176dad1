import Verif.Trie.Model
/-!
# Model of copy-on-write in the qp-trie (src/contrib/qp-trie/trie.c)

Here the trie is in memory: twig arrays and keys are objects with addresses, and a node holds the
address of its array or key. The old and the new trie of a transaction share the memory. The bit that
marks a twig array is in the first element of the array (`twigs(t)->i & TFLAG_COW`) and the one of a
key in its length word; here it is a field of the object. Writing an element of a marked array could
lose the mark in C, so it is `Res.ub` here. Accessing or freeing an object that is not allocated is
`Res.ub`, too. Allocation does not fail, `mm_realloc` always moves, an array has as many
elements as its bitmap has bits, the callbacks for the values are
NULL as in src/knot/zone/zone-tree.c:62. `log` records the addresses of the objects that were written
(except for their marks) or freed; the program does not have it.

Loops over a path take the number of addresses ever used as their fuel; running out of it is `Res.ub`.
-/
namespace Knot.Cow
open Knot.Trie (Key)

variable {V : Type}

/-- `node_t`, src/contrib/qp-trie/trie.c:82-85; `twigs` and `key` are addresses. -/
inductive Node (V : Type) where
  | leaf (key : Nat) (val : V)
  | branch (index bmp : Nat) (twigs : Nat)

/-- What is allocated: an array of nodes, or a `tkey_t`, src/contrib/qp-trie/trie.c:51-54. -/
inductive Body (V : Type) where
  | twigs (l : List (Node V))
  | key (chars : Key)

/-- An allocated object with its mark. -/
structure Obj (V : Type) where
  flag : Bool
  body : Body V

/-- The memory. Addresses from `next` on were never used. -/
structure Mem (V : Type) where
  obj : Nat → Option (Obj V)
  next : Nat
  log : List Nat

/-- `struct trie`, src/contrib/qp-trie/trie.c:87-91. -/
structure Trie (V : Type) where
  root : Node V
  weight : Nat

/-- `struct trie_cow`, src/contrib/qp-trie/trie.c:1249-1254, with the memory. -/
structure St (V : Type) where
  mem : Mem V
  old : Trie V
  new : Trie V

/-- empty_root(), src/contrib/qp-trie/trie.c:188-191 -/
def emptyRoot : Node V := .branch 8589934591 0 0

/-- trie_create(), src/contrib/qp-trie/trie.c:327-339 -/
def create : Trie V := ⟨emptyRoot, 0⟩

/-! ## Memory -/

/-- The memory with one object replaced. -/
def Mem.upd (m : Mem V) (a : Nat) (o : Option (Obj V)) : Mem V :=
  { m with obj := fun x => if x = a then o else m.obj x }

/-- mm_alloc() of an object with the given content. -/
def Mem.alloc (m : Mem V) (b : Body V) : Mem V × Nat :=
  ({ m.upd m.next (some ⟨false, b⟩) with next := m.next + 1 }, m.next)

/-- mm_free() -/
def Mem.free (m : Mem V) (a : Nat) : Res (Mem V) :=
  match m.obj a with
  | none => .ub
  | some _ => .ok { m.upd a none with log := a :: m.log }

/-- Setting or clearing the mark of an object. -/
def Mem.setFlag (m : Mem V) (a : Nat) (f : Bool) : Res (Mem V) :=
  match m.obj a with
  | none => .ub
  | some o => .ok (m.upd a (some ⟨f, o.body⟩))

/-- Reading the mark of an object. -/
def Mem.getFlag (m : Mem V) (a : Nat) : Res Bool :=
  match m.obj a with
  | none => .ub
  | some o => .ok o.flag

/-- Reading a twig array. -/
def Mem.twigs (m : Mem V) (a : Nat) : Res (List (Node V)) :=
  match m.obj a with
  | some ⟨_, .twigs l⟩ => .ok l
  | _ => .ub

/-- Reading a key. -/
def Mem.key (m : Mem V) (a : Nat) : Res Key :=
  match m.obj a with
  | some ⟨_, .key k⟩ => .ok k
  | _ => .ub

/-- twig(), src/contrib/qp-trie/trie.c:293-297, the node itself. -/
def Mem.twig (m : Mem V) (bmp a i : Nat) : Res (Node V) := do
  let l ← m.twigs a
  if i < Trie.branchWeight bmp then Res.rd l i else .ub

/-- A pointer to a node of the new trie. -/
inductive Ptr where
  | root
  | slot (twigs i : Nat)
  deriving DecidableEq

/-- Reading through a pointer. -/
def load (s : St V) : Ptr → Res (Node V)
  | .root => .ok s.new.root
  | .slot a i => do
    let l ← s.mem.twigs a
    Res.rd l i

/-- Writing through a pointer. -/
def store (s : St V) : Ptr → Node V → Res (St V)
  | .root, n => .ok { s with new := { s.new with root := n } }
  | .slot a i, n =>
    match s.mem.obj a with
    | some ⟨false, .twigs l⟩ =>
      if i < l.length then
        .ok { s with mem := { s.mem.upd a (some ⟨false, .twigs (l.set i n)⟩) with log := a :: s.mem.log } }
      else .ub
    | _ => .ub

/-- mm_realloc() of a twig array with its new content; it moves. -/
def Mem.realloc (m : Mem V) (a : Nat) (l : List (Node V)) : Res (Mem V × Nat) :=
  match m.obj a with
  | some ⟨false, .twigs _⟩ =>
    match m.free a with
    | .ok m' => .ok (m'.alloc (.twigs l))
    | _ => .ub
  | _ => .ub

/-! ## Reading -/

/-- The loop of trie_get_try(), src/contrib/qp-trie/trie.c:440-450. -/
def getTryNode (m : Mem V) : (fuel : Nat) → Node V → Key → Res (Option V)
  | 0, _, _ => .ub
  | _ + 1, .leaf k v, key => do
    let lkey ← m.key k
    .ok (if Trie.keyEq key lkey then some v else none)
  | fuel + 1, .branch i bmp a, key =>
    if bmp.testBit (Trie.keybit i key) then do
      let c ← m.twig bmp a (Trie.twigoff bmp (Trie.keybit i key))
      getTryNode m fuel c key
    else .ok none

/-- trie_get_try(), src/contrib/qp-trie/trie.c:435-451 -/
def getTry (m : Mem V) (tbl : Trie V) (key : Key) : Res (Option V) :=
  if tbl.weight = 0 then .ok none else getTryNode m m.next tbl.root key

/-- The list of the results of a function on the elements. -/
def mapM' {α β : Type} (f : α → Res β) : List α → Res (List β)
  | [] => .ok []
  | a :: l =>
    match f a with
    | .ok b =>
      match mapM' f l with
      | .ok bs => .ok (b :: bs)
      | .err e => .err e
      | .ub => .ub
    | .err e => .err e
    | .ub => .ub

/-- apply_nodes(), src/contrib/qp-trie/trie.c:999-1008, with a callback that collects keys and values. -/
def collect (m : Mem V) : (fuel : Nat) → Node V → Res (List (Key × V))
  | 0, _ => .ub
  | _ + 1, .leaf k v => do
    let key ← m.key k
    .ok [(key, v)]
  | fuel + 1, .branch _ _ a => do
    let l ← m.twigs a
    let ls ← mapM' (collect m fuel) l
    .ok ls.flatten

/-- trie_apply(), src/contrib/qp-trie/trie.c:1010-1016 -/
def contents (m : Mem V) (tbl : Trie V) : Res (List (Key × V)) :=
  if tbl.weight = 0 then .ok [] else collect m m.next tbl.root

/-! ## Searching -/

/-- The first loop of ns_find_branch(), src/contrib/qp-trie/trie.c:646-658: the stack, its top first,
and the key of the leaf on the top. -/
def descend (s : St V) : (fuel : Nat) → Ptr → List Ptr → Key → Res (List Ptr × Key)
  | 0, _, _, _ => .ub
  | fuel + 1, p, up, key => do
    let n ← load s p
    match n with
    | .leaf k _ => do
      let lkey ← s.mem.key k
      .ok (p :: up, lkey)
    | .branch i bmp a =>
      let ci := Trie.chosen bmp (Trie.keybit i key)
      if ci < Trie.branchWeight bmp then descend s fuel (.slot a ci) (p :: up) key else .ub

/-- The climb at src/contrib/qp-trie/trie.c:680-688; the stack has its top first. -/
def climb (s : St V) (index : Nat) : List Ptr → Res (List Ptr)
  | [] => .ub
  | [p] => .ok [p]
  | p :: q :: up => do
    let n ← load s q
    match n with
    | .leaf _ _ => .ub
    | .branch i _ _ => if i < index then .ok (p :: q :: up) else climb s index (q :: up)

/-- Where the key differs: `idiff`, `tbit` and `kbit`; `none` is TMAX_INDEX. -/
abbrev Diff := Option (Nat × Nat × Nat)

/-- The assertion about the top of the stack, src/contrib/qp-trie/trie.c:693-696. -/
def topOk (s : St V) (index : Nat) : List Ptr → Res Bool
  | [] => .ub
  | p :: _ => do
    let n ← load s p
    match n with
    | .leaf _ _ => .ok true
    | .branch j _ _ => .ok (decide (index ≤ j))

/-- ns_find_branch(), src/contrib/qp-trie/trie.c:641-706, in the new trie. -/
def findBranch (s : St V) (key : Key) : Res (List Ptr × Diff) := do
  let r ← descend s s.mem.next .root [] key
  match Trie.diffIndex key r.2 with
  | none => .ok (r.1, none)
  | some index => do
    let st ← climb s index r.1
    let ok ← topOk s index st
    if ok then .ok (st, some (index, Trie.keybit index r.2, Trie.keybit index key)) else .ub

/-! ## Copy on write -/

/-- cow_marked() and cow_key(), src/contrib/qp-trie/trie.c:1257-1266: whether the object of a node is
marked. -/
def marked (m : Mem V) : Node V → Res Bool
  | .branch _ _ a => m.getFlag a
  | .leaf k _ => m.getFlag k

/-- mark_cow(), src/contrib/qp-trie/trie.c:1281-1294, without the callback. -/
def markCow (m : Mem V) : Node V → Res (Mem V)
  | .branch _ _ a => m.setFlag a true
  | .leaf k _ => m.setFlag k true

/-- The loop at src/contrib/qp-trie/trie.c:1304-1305. -/
def markAll (m : Mem V) : List (Node V) → Res (Mem V)
  | [] => .ok m
  | n :: l =>
    match markCow m n with
    | .ok m' => markAll m' l
    | .err e => .err e
    | .ub => .ub

/-- memcpy() of a whole array to a new one. -/
def Mem.copy (m : Mem V) (a : Nat) : Res (Mem V × Nat) :=
  match m.obj a with
  | some ⟨f, .twigs l⟩ =>
    let r := m.alloc (.twigs l)
    match r.1.setFlag r.2 f with
    | .ok m' => .ok (m', r.2)
    | _ => .ub
  | _ => .ub

/-- cow_pushdown_one(), src/contrib/qp-trie/trie.c:1297-1310: the memory and the new array. The array is
allocated last instead of first; the copy includes the mark as it is then. -/
def pushOne (m : Mem V) (a : Nat) : Res (Mem V × Nat) := do
  let l ← m.twigs a
  let m1 ← markAll m l
  let m2 ← m1.setFlag a false
  m2.copy a

/-- The adjustment of a stack entry at src/contrib/qp-trie/trie.c:1321-1322; `moved` holds the old and
the new array of the previous entry if it was copied. -/
def relocate : (moved : Option (Nat × Nat)) → Ptr → Res Ptr
  | none, p => .ok p
  | some (a, a'), .slot b i => if b = a then .ok (.slot a' i) else .ub
  | some _, .root => .ub

/-- One round of the loop of cow_pushdown(), src/contrib/qp-trie/trie.c:1323-1341, for a stack entry:
the state and, if the twigs were copied, the old and the new array. -/
def unshare (s : St V) (p : Ptr) : Res (St V × Option (Nat × Nat)) := do
  let n ← load s p
  let mk ← marked s.mem n
  match n, mk with
  | _, false => .ok (s, none)
  | .branch i bmp a, true => do
    let r ← pushOne s.mem a
    let s' ← store { s with mem := r.1 } p (.branch i bmp r.2)
    .ok (s', some (a, r.2))
  | .leaf k v, true => do
    let okey ← s.mem.key k
    let chars ← Trie.storedKey okey
    let r := s.mem.alloc (.key chars)
    let s' ← store { s with mem := r.1 } p (.leaf r.2 v)
    let m' ← s'.mem.setFlag k false
    .ok ({ s' with mem := m' }, none)

/-- cow_pushdown(), src/contrib/qp-trie/trie.c:1313-1344; here the stack has the root first. -/
def pushdown (s : St V) (moved : Option (Nat × Nat)) : List Ptr → Res (St V × List Ptr)
  | [] => .ok (s, [])
  | p :: ps => do
    let p' ← relocate moved p
    let r ← unshare s p'
    let r' ← pushdown r.1 r.2 ps
    .ok (r'.1, p' :: r'.2)

/-- trie_cow(), src/contrib/qp-trie/trie.c:1346-1366. The log starts anew. -/
def cow (m : Mem V) (old : Trie V) : Res (St V) :=
  if old.weight = 0 then .ok ⟨{ m with log := [] }, old, old⟩
  else do
    let m' ← markCow { m with log := [] } old.root
    .ok ⟨m', old, old⟩

/-! ## Modification -/

/-- The assertion at src/contrib/qp-trie/trie.c:971-976; the stack has its top first. -/
def parentOk (s : St V) (key : Key) : List Ptr → Res Bool
  | _ :: q :: _ => do
    let n ← load s q
    match n with
    | .leaf _ _ => .ub
    | .branch i bmp _ => .ok (bmp.testBit (Trie.keybit i key))
  | _ => .ok true

/-- cow_get_ins() at a branch that lacks the child, src/contrib/qp-trie/trie.c:954-968 and 987. -/
def addChild (s : St V) (p : Ptr) (i bmp a kbit : Nat) (leaf : Node V) : Res (St V) :=
  if bmp.testBit kbit then .ub
  else do
    let l ← s.mem.twigs a
    let r ← s.mem.realloc a (l.take (Trie.twigoff bmp kbit) ++ leaf :: l.drop (Trie.twigoff bmp kbit))
    store { s with mem := r.1 } p (.branch i (bmp ||| 2 ^ kbit) r.2)

/-- cow_get_ins(), a new binary branch, src/contrib/qp-trie/trie.c:969-987. -/
def splitNode (s : St V) (p : Ptr) (t : Node V) (idiff tbit kbit : Nat) (leaf : Node V) : Res (St V) :=
  let bmp := 2 ^ tbit ||| 2 ^ kbit
  match Trie.twigoff bmp tbit, Trie.twigoff bmp kbit with
  | 0, 1 =>
    let r := s.mem.alloc (.twigs [t, leaf])
    store { s with mem := r.1 } p (.branch idiff bmp r.2)
  | 1, 0 =>
    let r := s.mem.alloc (.twigs [leaf, t])
    store { s with mem := r.1 } p (.branch idiff bmp r.2)
  | _, _ => .ub

/-- cow_get_ins() for a key that is not present, src/contrib/qp-trie/trie.c:945-988: a new leaf with the
value is put at the top of the stack. -/
def insertAt (s : St V) (key : Key) (st : List Ptr) (idiff tbit kbit : Nat) (v : V) : Res (St V) :=
  match st with
  | [] => .ub
  | p :: _ => do
    let chars ← Trie.storedKey key
    let r := s.mem.alloc (.key chars)
    let s := { s with mem := r.1 }
    let t ← load s p
    match t with
    | .branch i bmp a =>
      if i = idiff then addChild s p i bmp a kbit (.leaf r.2 v)
      else do
        let ok ← parentOk s key st
        if ok then splitNode s p t idiff tbit kbit (.leaf r.2 v) else .ub
    | .leaf _ _ => do
      let ok ← parentOk s key st
      if ok then splitNode s p t idiff tbit kbit (.leaf r.2 v) else .ub

/-- The caller's write through the pointer to the value of an existing leaf. -/
def writeVal (s : St V) (st : List Ptr) (w : Option V → V) : Res (St V) :=
  match st with
  | [] => .ub
  | p :: _ => do
    let t ← load s p
    match t with
    | .leaf k v => store s p (.leaf k (w (some v)))
    | .branch _ _ _ => .ub

/-- trie_get_cow(), src/contrib/qp-trie/trie.c:1374-1377 and 924-991, followed by a write of the value
through the returned pointer; `w` gets the value found there (`none` for a new leaf). -/
def getCow (s : St V) (key : Key) (w : Option V → V) : Res (St V) :=
  if s.new.weight = 0 then do
    let chars ← Trie.storedKey key
    let r := s.mem.alloc (.key chars)
    .ok { s with mem := r.1, new := ⟨.leaf r.2 (w none), 1⟩ }
  else do
    let f ← findBranch s key
    let r ← pushdown s none f.1.reverse
    match f.2 with
    | none => writeVal r.1 r.2.reverse w
    | some (idiff, tbit, kbit) => do
      let s' ← insertAt r.1 key r.2.reverse idiff tbit kbit (w none)
      .ok { s' with new := { s'.new with weight := s'.new.weight + 1 } }

/-- The part of del_found() that removes the leaf from its parent `p`,
src/contrib/qp-trie/trie.c:508-526; `ci` is its place. -/
def delTwig (s : St V) (q : Ptr) (key : Key) (ci : Nat) : Res (St V) := do
  let n ← load s q
  match n with
  | .leaf _ _ => .ub
  | .branch i bmp a => do
    let l ← s.mem.twigs a
    if Trie.branchWeight bmp = 2 then do
      let c ← Res.rd l (1 - ci)
      let s' ← store s q c
      let m' ← s'.mem.free a
      .ok { s' with mem := m' }
    else do
      let r ← s.mem.realloc a (l.eraseIdx ci)
      store { s with mem := r.1 } q (.branch i (bmp ^^^ (bmp &&& 2 ^ Trie.keybit i key)) r.2)

/-- del_found(), src/contrib/qp-trie/trie.c:495-527; the stack has the leaf first. -/
def delFound (s : St V) (key : Key) (st : List Ptr) : Res (St V × V) :=
  match st with
  | [] => .ub
  | p :: up => do
    let t ← load s p
    match t with
    | .branch _ _ _ => .ub
    | .leaf k v => do
      let f ← s.mem.getFlag k
      if f then .ub
      else do
        let m ← s.mem.free k
        let s := { s with mem := m, new := { s.new with weight := s.new.weight - 1 } }
        match up, p with
        | [], _ => if s.new.weight = 0 then .ok ({ s with new := ⟨emptyRoot, 0⟩ }, v) else .ub
        | q :: _, .slot _ ci => do
          let s' ← delTwig s q key ci
          .ok (s', v)
        | _ :: _, .root => .ub

/-- trie_del_cow(), src/contrib/qp-trie/trie.c:1379-1401: the state and, unless KNOT_ENOENT, the value. -/
def delCow (s : St V) (key : Key) : Res (St V × Option V) :=
  if s.new.weight = 0 then .ok (s, none)
  else do
    let f ← findBranch s key
    match f.2 with
    | some _ => .ok (s, none)
    | none => do
      let r ← pushdown s none f.1.reverse
      let r' ← delFound r.1 key r.2.reverse
      .ok (r'.1, some r'.2)

/-! ## The end of a transaction -/

/-- A function that changes the memory, on the elements of a list in turn. -/
def forAll (f : Mem V → Node V → Res (Mem V)) (m : Mem V) : List (Node V) → Res (Mem V)
  | [] => .ok m
  | n :: l =>
    match f m n with
    | .ok m' => forAll f m' l
    | .err e => .err e
    | .ub => .ub

/-- cow_cleanup(), src/contrib/qp-trie/trie.c:1404-1431, without the callback. -/
def cleanup : (fuel : Nat) → Mem V → Node V → Res (Mem V)
  | 0, _, _ => .ub
  | fuel + 1, m, .branch _ _ a => do
    let mk ← m.getFlag a
    if mk then m.setFlag a false
    else do
      let l ← m.twigs a
      let m' ← forAll (cleanup fuel) m l
      m'.free a
  | _ + 1, m, .leaf k _ => do
    let mk ← m.getFlag k
    if mk then m.setFlag k false else m.free k

/-- trie_cow_commit(), src/contrib/qp-trie/trie.c:1433-1441: the memory and the trie that is left. -/
def commit (s : St V) : Res (Mem V × Trie V) :=
  if s.old.weight = 0 then .ok (s.mem, s.new)
  else do
    let m ← cleanup s.mem.next s.mem s.old.root
    .ok (m, s.new)

/-- trie_cow_rollback(), src/contrib/qp-trie/trie.c:1443-1451 -/
def rollback (s : St V) : Res (Mem V × Trie V) :=
  if s.new.weight = 0 then .ok (s.mem, s.old)
  else do
    let m ← cleanup s.mem.next s.mem s.new.root
    .ok (m, s.old)

/-- clear_trie(), src/contrib/qp-trie/trie.c:341-352 -/
def clearTrie : (fuel : Nat) → Mem V → Node V → Res (Mem V)
  | 0, _, _ => .ub
  | fuel + 1, m, .branch _ _ a => do
    let l ← m.twigs a
    let m' ← forAll (clearTrie fuel) m l
    m'.free a
  | _ + 1, m, .leaf k _ => m.free k

/-- trie_free(), src/contrib/qp-trie/trie.c:354-361, without the trie's own structure. -/
def free (m : Mem V) (tbl : Trie V) : Res (Mem V) :=
  if tbl.weight = 0 then .ok m else clearTrie m.next m tbl.root

end Knot.Cow
