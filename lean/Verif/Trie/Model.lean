import Verif.Prelude
/-!
# Model of the qp-trie (src/contrib/qp-trie/trie.c)

A node is a leaf with a key and a value or a branch with a nibble index, a bitmap and the packed
array of children. The C code packs flags, bitmap and index into one word; here they are separate
fields, and a bit of the bitmap is named by its position 0–16 instead of its mask, so `BMP_NOBYTE`
is position 0. A stack of node pointers (`nstack_t`) is a path: the node on the top and, for every
node above it, that node and the number of the child taken (`twig_number`). Writing through such a
pointer changes the whole trie; that is `plug`. Allocation does not fail. The copy-on-write marks
are not part of this file. An index outside the child array and a failed `assert` are `Res.ub`.
-/
namespace Knot.Trie

abbrev Key := List UInt8

/-- `node_t`, src/contrib/qp-trie/trie.c:82-85, and `tkey_t`, :51-54. -/
inductive Node (V : Type) where
  | leaf (key : Key) (val : V)
  | branch (index bmp : Nat) (twigs : List (Node V))

/-- `struct trie`, src/contrib/qp-trie/trie.c:87-91. -/
structure Trie (V : Type) where
  root : Node V
  weight : Nat

variable {V : Type}

/-- mkleaf(), src/contrib/qp-trie/trie.c:161-175: the key as it is stored. The length is kept in
31 bits although 2^31 passes the check. -/
def storedKey (key : Key) : Res Key :=
  if key.length > 2147483648 then .err .enomem else .ok (key.take (key.length % 2147483648))

/-- empty_root(), src/contrib/qp-trie/trie.c:188-191 -/
def emptyRoot : Node V := .branch 8589934591 0 []

/-- trie_create(), src/contrib/qp-trie/trie.c:327-339 -/
def create : Trie V := ⟨emptyRoot, 0⟩

/-- keybit(), src/contrib/qp-trie/trie.c:255-267: position of the nibble's bit, 0 past the end. -/
def keybit (ni : Nat) (key : Key) : Nat :=
  match key[ni / 2]? with
  | none => 0
  | some ki => (if ni % 2 = 1 then ki.toNat % 16 else ki.toNat / 16) + 1

/-- twigoff(), src/contrib/qp-trie/trie.c:247-252: number of bits set below a position. -/
def twigoff (bmp bit : Nat) : Nat := ((List.range bit).filter bmp.testBit).length

/-- branch_weight(), src/contrib/qp-trie/trie.c:238-244 (the assertion is not modelled here). -/
def branchWeight (bmp : Nat) : Nat := twigoff bmp 17

/-- twig(), src/contrib/qp-trie/trie.c:293-297, with its assertion. -/
def twig (bmp : Nat) (tw : List (Node V)) (i : Nat) : Res (Node V) :=
  if i < branchWeight bmp then Res.rd tw i else .ub

theorem twig_mem {bmp : Nat} {tw : List (Node V)} {i : Nat} {c : Node V} (h : twig bmp tw i = .ok c) : c ∈ tw := by
  unfold twig Res.rd at h
  split at h
  · split at h
    · rename_i e; injection h with h; subst h; exact List.mem_of_getElem? e
    · cases h
  · cases h

theorem twig_lt {bmp : Nat} {tw : List (Node V)} {i idx : Nat} {c : Node V} (h : twig bmp tw i = .ok c) :
    sizeOf c < sizeOf (Node.branch idx bmp tw) := by
  have := List.sizeOf_lt_of_mem (twig_mem h)
  simp only [Node.branch.sizeOf_spec]; omega

/-- key_cmp(), src/contrib/qp-trie/trie.c:309-325, used for equality only. -/
def keyEq (k1 k2 : Key) : Bool := k1 == k2

/-- The loop of trie_get_try(), src/contrib/qp-trie/trie.c:440-450. -/
def getTryNode (t : Node V) (key : Key) : Res (Option V) :=
  match t with
  | .leaf k v => .ok (if keyEq key k then some v else none)
  | .branch i bmp tw =>
    if bmp.testBit (keybit i key) then
      match h : twig bmp tw (twigoff bmp (keybit i key)) with
      | .ok c => getTryNode c key
      | _ => .ub
    else .ok none
termination_by sizeOf t
decreasing_by exact twig_lt h

/-- trie_get_try(), src/contrib/qp-trie/trie.c:435-451 -/
def getTry (tbl : Trie V) (key : Key) : Res (Option V) :=
  if tbl.weight = 0 then .ok none else getTryNode tbl.root key

/-! ## Node stacks -/

/-- `nstack_t`, src/contrib/qp-trie/trie.c:560-566: the top of the stack and the way to it, the
nearest parent first. -/
structure Stk (V : Type) where
  top : Node V
  up : List (Node V × Nat)

/-- What the stack's memory holds when the top node is the given one. -/
def plug (t : Node V) : List (Node V × Nat) → Node V
  | [] => t
  | (.branch i bmp tw, ci) :: up => plug (.branch i bmp (tw.set ci t)) up
  | (.leaf k v, _) :: up => plug (.leaf k v) up

/-- ns_first_leaf(), src/contrib/qp-trie/trie.c:730-740 -/
def firstLeaf (t : Node V) (up : List (Node V × Nat)) : Res (Stk V) :=
  match t with
  | .leaf k v => .ok ⟨.leaf k v, up⟩
  | .branch i bmp tw =>
    match h : twig bmp tw 0 with
    | .ok c => firstLeaf c ((.branch i bmp tw, 0) :: up)
    | _ => .ub
termination_by sizeOf t
decreasing_by exact twig_lt h

/-- ns_last_leaf(), src/contrib/qp-trie/trie.c:712-723 -/
def lastLeaf (t : Node V) (up : List (Node V × Nat)) : Res (Stk V) :=
  match t with
  | .leaf k v => .ok ⟨.leaf k v, up⟩
  | .branch i bmp tw =>
    match h : twig bmp tw (branchWeight bmp - 1) with
    | .ok c => lastLeaf c ((.branch i bmp tw, branchWeight bmp - 1) :: up)
    | _ => .ub
termination_by sizeOf t
decreasing_by exact twig_lt h

/-- The loop of ns_prev_leaf(), src/contrib/qp-trie/trie.c:760-769 (`none` is KNOT_ENOENT). -/
def prevUp : List (Node V × Nat) → Res (Option (Stk V))
  | [] => .ok none
  | (.leaf _ _, _) :: _ => .ub
  | (.branch i bmp tw, ci) :: up =>
    if ci = 0 then prevUp up
    else do
      let c ← twig bmp tw (ci - 1)
      let s ← lastLeaf c ((.branch i bmp tw, ci - 1) :: up)
      .ok (some s)

/-- ns_prev_leaf(), src/contrib/qp-trie/trie.c:748-771 -/
def prevLeaf (s : Stk V) : Res (Option (Stk V)) :=
  match s.top with
  | .leaf _ _ => prevUp s.up
  | .branch i bmp tw =>
    if bmp.testBit 0 then do
      let c ← twig bmp tw 0
      .ok (some ⟨c, (.branch i bmp tw, 0) :: s.up⟩)
    else prevUp s.up

/-- hastwig(t, BMP_NOBYTE), src/contrib/qp-trie/trie.c:277-283, with its assertion that t is a branch. -/
def hasNobyte : Node V → Res Bool
  | .leaf _ _ => .ub
  | .branch _ bmp _ => .ok (bmp.testBit 0)

/-- The condition at src/contrib/qp-trie/trie.c:791. -/
def skipHere (skip : Bool) (ci : Nat) (t : Node V) : Res Bool :=
  if skip ∧ ci = 0 then hasNobyte t else .ok false

/-- The loop of ns_next_leaf(), src/contrib/qp-trie/trie.c:787-806; `t` is the top of the stack. -/
def nextUp (skip : Bool) (t : Node V) : List (Node V × Nat) → Res (Option (Stk V))
  | [] => .ok none
  | (.leaf _ _, _) :: _ => .ub
  | (.branch i bmp tw, ci) :: up => do
    let sk ← skipHere skip ci t
    if sk then nextUp skip (.branch i bmp tw) up
    else if ci + 1 > branchWeight bmp then .ub
    else if ci + 1 = branchWeight bmp then nextUp skip (.branch i bmp tw) up
    else do
      let c ← twig bmp tw (ci + 1)
      let s ← firstLeaf c ((.branch i bmp tw, ci + 1) :: up)
      .ok (some s)

/-- ns_next_leaf(), src/contrib/qp-trie/trie.c:780-808 -/
def nextLeaf (skip : Bool) (s : Stk V) : Res (Option (Stk V)) :=
  match s.top, skip with
  | .branch i bmp tw, false => do
    let s' ← firstLeaf (.branch i bmp tw) s.up
    .ok (some s')
  | t, sk => nextUp sk t s.up

/-- ns_prefix(), src/contrib/qp-trie/trie.c:811-831. `first`: the walk is at the parent of the node
where it started; only then can the found child be that node. -/
def prefixUp (first : Bool) : List (Node V × Nat) → Res (Option (Stk V))
  | [] => .ok none
  | (.leaf _ _, _) :: _ => .ub
  | (.branch i bmp tw, ci) :: up =>
    if bmp.testBit 0 then
      if first ∧ ci = 0 then prefixUp false up
      else do
        let c ← twig bmp tw 0
        .ok (some ⟨c, (.branch i bmp tw, 0) :: up⟩)
    else prefixUp false up

/-! ## Searching -/

/-- The child followed at src/contrib/qp-trie/trie.c:656. -/
def chosen (bmp bit : Nat) : Nat := if bmp.testBit bit then twigoff bmp bit else 0

/-- The first loop of ns_find_branch(), src/contrib/qp-trie/trie.c:646-658. -/
def descend (t : Node V) (up : List (Node V × Nat)) (key : Key) : Res (Stk V) :=
  match t with
  | .leaf k v => .ok ⟨.leaf k v, up⟩
  | .branch i bmp tw =>
    match h : twig bmp tw (chosen bmp (keybit i key)) with
    | .ok c => descend c ((.branch i bmp tw, chosen bmp (keybit i key)) :: up) key
    | _ => .ub
termination_by sizeOf t
decreasing_by exact twig_lt h

/-- The number of equal bytes at the front, src/contrib/qp-trie/trie.c:661-666. -/
def bytei : Key → Key → Nat
  | a :: s, b :: t => if a == b then bytei s t + 1 else 0
  | _, _ => 0

/-- Index of the first differing nibble, src/contrib/qp-trie/trie.c:667-678; `none` is TMAX_INDEX. -/
def diffIndex (key lkey : Key) : Option Nat :=
  let n := bytei key lkey
  if n = key.length ∧ key.length = lkey.length then none
  else if n < key.length ∧ n < lkey.length then
    match key[n]?, lkey[n]? with
    | some k1, some k2 => some (if ((k1 ^^^ k2) &&& 0xf0) == 0 then 2 * n + 1 else 2 * n)
    | _, _ => some (2 * n)
  else some (2 * n)

/-- The climb at src/contrib/qp-trie/trie.c:680-688. -/
def climb (index : Nat) (t : Node V) : List (Node V × Nat) → Res (Stk V)
  | [] => .ok ⟨t, []⟩
  | (.leaf _ _, _) :: _ => .ub
  | (.branch i bmp tw, ci) :: up =>
    if i < index then .ok ⟨t, (.branch i bmp tw, ci) :: up⟩ else climb index (.branch i bmp tw) up

/-- The result of ns_find_branch(): the exact leaf, or the stack with `idiff`, `tbit`, `kbit`. -/
inductive Found (V : Type) where
  | exact (s : Stk V)
  | diff (s : Stk V) (idiff tbit kbit : Nat)

/-- The part of ns_find_branch() after the descent, src/contrib/qp-trie/trie.c:659-705; the closing
assertion about the top node (:693-696) is included, the one about its parent is the loop condition. -/
def findFrom (key : Key) (s : Stk V) : Res (Found V) :=
  match s.top with
  | .branch _ _ _ => .ub
  | .leaf lkey _ =>
    match diffIndex key lkey with
    | none => .ok (.exact s)
    | some index => do
      let s' ← climb index s.top s.up
      match s'.top with
      | .leaf _ _ => .ok (.diff s' index (keybit index lkey) (keybit index key))
      | .branch j _ _ => if j < index then .ub else .ok (.diff s' index (keybit index lkey) (keybit index key))

/-- ns_find_branch(), src/contrib/qp-trie/trie.c:641-706 -/
def findBranch (t : Node V) (key : Key) : Res (Found V) := do
  let s ← descend t [] key
  findFrom key s

/-- The result of ns_get_leq(): KNOT_EOK, 1 or KNOT_ENOENT. -/
inductive Leq (V : Type) where
  | exact (s : Stk V)
  | prev (s : Stk V)
  | none

/-- The end of ns_get_leq(), src/contrib/qp-trie/trie.c:864-876: `t` is the branch whose child for the
bit `b` is taken, `lower` is `kbit < tbit`. -/
def leqStep (i bmp : Nat) (tw : List (Node V)) (up : List (Node V × Nat)) (b : Nat) (lower : Bool) : Res (Leq V) :=
  let j : Int := if bmp.testBit b then (twigoff bmp b : Int) - (if lower then 1 else 0) else (twigoff bmp b : Int) - 1
  if j ≥ 0 then do
    let c ← twig bmp tw j.toNat
    let s ← lastLeaf c ((.branch i bmp tw, j.toNat) :: up)
    .ok (.prev s)
  else do
    let r ← prevLeaf ⟨.branch i bmp tw, up⟩
    match r with
    | some s => .ok (.prev s)
    | .none => .ok .none

/-- ns_get_leq() when the top is not the branch where the key differs, src/contrib/qp-trie/trie.c:850-863. -/
def leqUp (key : Key) (t : Node V) (up : List (Node V × Nat)) (tbit kbit : Nat) : Res (Leq V) :=
  match up with
  | [] => if kbit < tbit then .ok .none else do
      let s ← lastLeaf t []
      .ok (.prev s)
  | (.leaf _ _, _) :: _ => .ub
  | (.branch i bmp tw, _) :: up' => leqStep i bmp tw up' (keybit i key) (decide (kbit < tbit))

/-- ns_get_leq(), src/contrib/qp-trie/trie.c:837-877, with the stack at the root. -/
def getLeqNode (t : Node V) (key : Key) : Res (Leq V) := do
  let f ← findBranch t key
  match f with
  | .exact s => .ok (.exact s)
  | .diff s idiff tbit kbit =>
    match s.top with
    | .branch i bmp tw =>
      if i = idiff then leqStep i bmp tw s.up kbit (decide (kbit < tbit)) else leqUp key s.top s.up tbit kbit
    | .leaf _ _ => leqUp key s.top s.up tbit kbit

/-- trie_get_leq(), src/contrib/qp-trie/trie.c:879-900, and trie_it_get_leq(), :902-918 -/
def getLeq (tbl : Trie V) (key : Key) : Res (Leq V) :=
  if tbl.weight = 0 then .ok .none else getLeqNode tbl.root key

/-! ## Modification -/

/-- cow_get_ins() at a branch that lacks the child, src/contrib/qp-trie/trie.c:954-968. -/
def addChild (i bmp : Nat) (tw : List (Node V)) (kbit : Nat) (leaf : Node V) : Res (Node V) :=
  if bmp.testBit kbit then .ub
  else .ok (.branch i (bmp ||| 2 ^ kbit) (tw.take (twigoff bmp kbit) ++ leaf :: tw.drop (twigoff bmp kbit)))

/-- cow_get_ins(), a new binary branch, src/contrib/qp-trie/trie.c:969-986. The children are placed by `twigoff`. -/
def splitNode (t : Node V) (idiff tbit kbit : Nat) (leaf : Node V) : Res (Node V) :=
  let bmp := 2 ^ tbit ||| 2 ^ kbit
  match twigoff bmp tbit, twigoff bmp kbit with
  | 0, 1 => .ok (.branch idiff bmp [t, leaf])
  | 1, 0 => .ok (.branch idiff bmp [leaf, t])
  | _, _ => .ub

/-- The assertion at src/contrib/qp-trie/trie.c:971-976. -/
def parentOk (key : Key) : List (Node V × Nat) → Bool
  | [] => true
  | (.branch i bmp _, _) :: _ => bmp.testBit (keybit i key)
  | (.leaf _ _, _) :: _ => false

/-- cow_get_ins() after ns_find_branch() for a key that is not present, src/contrib/qp-trie/trie.c:948-989. -/
def insertAt (key : Key) (s : Stk V) (idiff tbit kbit : Nat) (leaf : Node V) : Res (Node V) :=
  match s.top with
  | .branch i bmp tw =>
    if i = idiff then do
      let n ← addChild i bmp tw kbit leaf
      .ok (plug n s.up)
    else if !parentOk key s.up then .ub
    else do
      let n ← splitNode s.top idiff tbit kbit leaf
      .ok (plug n s.up)
  | .leaf _ _ => if !parentOk key s.up then .ub else do
    let n ← splitNode s.top idiff tbit kbit leaf
    .ok (plug n s.up)

/-- The leaf on the top with its value replaced by the caller's write through the returned pointer. -/
def writeLeaf (w : Option V → V) : Node V → Node V
  | .leaf k v => .leaf k (w (some v))
  | t => t

/-- cow_get_ins() without copy-on-write, src/contrib/qp-trie/trie.c:924-991, followed by a write of
the value through the returned pointer; `w` gets the value found there (`none` for a new leaf). -/
def insWith (tbl : Trie V) (key : Key) (w : Option V → V) : Res (Trie V) :=
  if tbl.weight = 0 then do
    let k ← storedKey key
    .ok ⟨.leaf k (w none), 1⟩
  else do
    let f ← findBranch tbl.root key
    match f with
    | .exact s => .ok ⟨plug (writeLeaf w s.top) s.up, tbl.weight⟩
    | .diff s idiff tbit kbit => do
      let k ← storedKey key
      let r ← insertAt key s idiff tbit kbit (.leaf k (w none))
      .ok ⟨r, tbl.weight + 1⟩

/-- The way down in trie_del(), src/contrib/qp-trie/trie.c:534-546; `none` is KNOT_ENOENT. -/
def delFind (t : Node V) (up : List (Node V × Nat)) (key : Key) : Res (Option (Stk V)) :=
  match t with
  | .leaf k v => .ok (if keyEq key k then some ⟨.leaf k v, up⟩ else none)
  | .branch i bmp tw =>
    if bmp.testBit (keybit i key) then
      match h : twig bmp tw (twigoff bmp (keybit i key)) with
      | .ok c => delFind c ((.branch i bmp tw, twigoff bmp (keybit i key)) :: up) key
      | _ => .ub
    else .ok none
termination_by sizeOf t
decreasing_by exact twig_lt h

/-- del_found(), src/contrib/qp-trie/trie.c:495-527: the leaf on the top of the stack, with key
`key`, is removed; the deleted value is returned. -/
def delFound (weight : Nat) (key : Key) (v : V) (up : List (Node V × Nat)) : Res (Trie V × V) :=
  match up with
  | [] => if weight - 1 = 0 then .ok (⟨emptyRoot, 0⟩, v) else .ub
  | (.leaf _ _, _) :: _ => .ub
  | (.branch i bmp tw, ci) :: up' =>
    if branchWeight bmp = 2 then do
      let c ← Res.rd tw (1 - ci)
      .ok (⟨plug c up', weight - 1⟩, v)
    else .ok (⟨plug (.branch i (bmp ^^^ (bmp &&& 2 ^ keybit i key)) (tw.eraseIdx ci)) up', weight - 1⟩, v)

/-- trie_del(), src/contrib/qp-trie/trie.c:529-551: the new trie and, unless KNOT_ENOENT, the value. -/
def del (tbl : Trie V) (key : Key) : Res (Trie V × Option V) :=
  if tbl.weight = 0 then .ok (tbl, none)
  else do
    let f ← delFind tbl.root [] key
    match f with
    | none => .ok (tbl, none)
    | some ⟨.leaf k v, up⟩ => do
      let r ← delFound tbl.weight k v up
      .ok (r.1, some r.2)
    | some ⟨.branch _ _ _, _⟩ => .ub

/-- trie_clear(), src/contrib/qp-trie/trie.c:363-371 -/
def clear (_tbl : Trie V) : Trie V := ⟨emptyRoot, 0⟩

/-! ## Iteration -/

/-- trie_it_begin(), src/contrib/qp-trie/trie.c:1019-1034; `none` is an iterator that is finished. -/
def itBegin (tbl : Trie V) : Res (Option (Stk V)) :=
  if tbl.weight = 0 then .ok none
  else do
    let s ← firstLeaf tbl.root []
    .ok (some s)

/-- trie_it_next(), src/contrib/qp-trie/trie.c:1092-1097 -/
def itNext (s : Stk V) : Res (Option (Stk V)) := nextLeaf false s

/-- trie_it_prev(), src/contrib/qp-trie/trie.c:1118-1123 -/
def itPrev (s : Stk V) : Res (Option (Stk V)) := prevLeaf s

/-- The root of the stack, `stack[0]`. -/
def stkRoot (s : Stk V) : Node V := plug s.top s.up

/-- trie_it_next_loop(), src/contrib/qp-trie/trie.c:1099-1109 -/
def itNextLoop (s : Stk V) : Res (Option (Stk V)) := do
  let r ← nextLeaf false s
  match r with
  | some s' => .ok (some s')
  | none => do
    let s' ← firstLeaf (stkRoot s) []
    .ok (some s')

/-- trie_it_prev_loop(), src/contrib/qp-trie/trie.c:1125-1135 -/
def itPrevLoop (s : Stk V) : Res (Option (Stk V)) := do
  let r ← prevLeaf s
  match r with
  | some s' => .ok (some s')
  | none => do
    let s' ← lastLeaf (stkRoot s) []
    .ok (some s')

/-- trie_it_next_nosuffix(), src/contrib/qp-trie/trie.c:1111-1116 -/
def itNextNosuffix (s : Stk V) : Res (Option (Stk V)) := nextLeaf true s

/-- trie_it_parent(), src/contrib/qp-trie/trie.c:1137-1142 -/
def itParent (s : Stk V) : Res (Option (Stk V)) := prefixUp true s.up

/-- trie_it_key(), trie_it_val(), src/contrib/qp-trie/trie.c:1073-1090 -/
def itEntry (s : Stk V) : Res (Key × V) :=
  match s.top with
  | .leaf k v => .ok (k, v)
  | .branch _ _ _ => .ub

/-- trie_it_del(), src/contrib/qp-trie/trie.c:1144-1166: the trie without the current leaf. -/
def itDel (weight : Nat) (s : Stk V) : Res (Trie V) :=
  match s.top with
  | .leaf k v => do
    let r ← delFound weight k v s.up
    .ok r.1
  | .branch _ _ _ => .ub

mutual
/-- apply_nodes(), src/contrib/qp-trie/trie.c:999-1008. The callback works on a state `S` and stops
the walk by returning a nonzero code. -/
def applyNodes {S : Type} (f : S → V → S × Int) : Node V → S → S × Int
  | .leaf _ v, s => f s v
  | .branch _ _ tw, s => applyTwigs f tw s
/-- The loop of apply_nodes(), src/contrib/qp-trie/trie.c:1004-1007. -/
def applyTwigs {S : Type} (f : S → V → S × Int) : List (Node V) → S → S × Int
  | [], s => (s, 0)
  | t :: ts, s =>
    match applyNodes f t s with
    | (s', 0) => applyTwigs f ts s'
    | (s', e) => (s', e)
end

/-- trie_apply(), src/contrib/qp-trie/trie.c:1010-1016 -/
def apply {S : Type} (f : S → V → S × Int) (tbl : Trie V) (s : S) : S × Int :=
  if tbl.weight = 0 then (s, 0) else applyNodes f tbl.root s

/-! ## Wildcard search -/

/-- The search for the last matching zero byte, src/contrib/qp-trie/trie.c:474-481: the position of the
last zero in the common beginning of the key and the found key, not counting the key's last byte.
`i` is the current position, `lmz` the value so far. -/
def lastZero (len : Nat) : Key → Key → (i : Nat) → (lmz : Int) → Int
  | a :: s, b :: t, i, lmz =>
    if a == b then lastZero len s t (i + 1) (if a == 0 ∧ i < len - 1 then (i : Int) else lmz) else lmz
  | _, _, _, lmz => lmz

/-- trie_get_try_wildcard(), src/contrib/qp-trie/trie.c:457-492. The shortcut for the exact match (:479)
is the test `key = lcp`. The copy of the key is UB if it is longer than the key. -/
def getTryWildcard (tbl : Trie V) (key : Key) : Res (Option V) :=
  if tbl.weight = 0 then .ok none
  else do
    let s ← descend tbl.root [] key
    match s.top with
    | .branch _ _ _ => .ub
    | .leaf lcp v =>
      if key.length ≠ 0 ∧ key = lcp then .ok (some v)
      else if key.length = 0 then .ok (if lcp.length = 0 then some v else none)
      else
        let wlen := (lastZero key.length key lcp 0 (-1) + 3).toNat
        if key.length < wlen - 2 then .ub
        else getTry tbl (key.take (wlen - 2) ++ [42, 0])

end Knot.Trie
