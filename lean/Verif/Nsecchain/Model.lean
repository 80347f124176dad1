import Verif.Bitmap.Model
import Verif.Dname.Spec
/-!
# The NSEC chain

src/knot/dnssec/nsec-chain.c and the flags of nodes from src/knot/zone/adjust.c. The nodes of a zone are a
heap: a function from names to nodes, with the list of the names of the tree in its order. A node that does
not exist, or is flagged as deleted, is a node without RRsets; nodes made empty stay in the list. Names are
lower-case but in the data of NSEC records. Errors of memory allocation are left out. There are no NSEC3
records in the tree.
-/
namespace Knot.Nsecchain
open Dname (Name lowerName canonCmp)

abbrev Bytes := List UInt8

/-- zone_node_t, src/knot/zone/node.h:29-100: the types of the RRsets but NSEC and RRSIG, the types that the
RRSIG records cover, the NSEC records (the next name and the bitmap) and their TTL, two flags. -/
structure Node where
  types : List Nat := []
  sigs : List Nat := []
  nsec : List (Name × Bytes) := []
  ttl : Nat := 0
  nonauth : Bool := false
  deleg : Bool := false
  deriving DecidableEq, Repr

abbrev Heap := Name → Node

def put (h : Heap) (x : Name) (n : Node) : Heap := fun y => if y = x then n else h y

/-- rrset_count. -/
def count (n : Node) : Nat := n.types.length + (if n.sigs = [] then 0 else 1) + (if n.nsec = [] then 0 else 1)

/-! ## Flags -/

/-- adjust_cb_flags() for one node, src/knot/zone/adjust.c:41-76, without the flags of subtrees. The
parent is the node of the name without its first label. -/
def adjustOne (apex : Name) (h : Heap) (x : Name) : Heap :=
  let n := h x
  let parent := h x.tail
  if x ≠ apex ∧ (parent.deleg ∨ parent.nonauth) then put h x { n with nonauth := true, deleg := false }
  else if 2 ∈ n.types ∧ x ≠ apex then put h x { n with nonauth := false, deleg := true }
  else put h x { n with nonauth := false, deleg := false }

/-- zone_adjust_contents() with it, src/knot/zone/adjust.c:345-412: in the order of the tree. -/
def adjust (apex : Name) (names : List Name) (h : Heap) : Heap := names.foldl (adjustOne apex) h

/-! ## Creating -/

/-- bitmap_add_node_rrsets(), src/knot/dnssec/nsec-chain.c:26-48: the types added. -/
def bitmapTypes (n : Node) (exact : Bool) : List Nat :=
  n.types.filter (fun t => !n.deleg || t == 2 || t == 43) ++
  (if exact && !n.nsec.isEmpty then [47] else []) ++
  (if exact && !n.sigs.isEmpty && (!n.deleg || n.sigs.contains 43 || n.sigs.contains 47) then [46] else [])

/-- create_nsec_rrset(), src/knot/dnssec/nsec-chain.c:81-105: the record. -/
def createNsec (n : Node) (next : Name) : Name × Bytes :=
  (next, Bitmap.write (([47, 46] : List Nat).foldl Bitmap.add ((bitmapTypes n false).foldl Bitmap.add Bitmap.new)))

/-- knot_nsec_changeset_remove(), src/knot/dnssec/nsec-chain.c:656-699, applied to the node: the NSEC records
and their signatures are removed; without such signatures, those of NSEC3. -/
def removeNsec (n : Node) : Node :=
  { n with
    nsec := []
    sigs := if 47 ∈ n.sigs then n.sigs.filter (· != 47) else n.sigs.filter (· != 50) }

/-- knot_nsec_empty_nsec_and_rrsigs_in_node(), src/knot/dnssec/nsec-chain.c:705-717. -/
def onlyNsec (n : Node) : Bool := n.types.isEmpty

/-- The end of connect_nsec_nodes(), src/knot/dnssec/nsec-chain.c:147-184: the new NSEC in the node. -/
def setNext (ttl : Nat) (n : Node) (next : Name) : Node :=
  let new := createNsec n next
  if n.nsec = [] then { n with nsec := [new], ttl := ttl }
  else if n.nsec.map (fun r => (lowerName r.1, r.2)) = [new] ∧ n.ttl = ttl then n
  else { removeNsec n with nsec := [new], ttl := ttl }

/-- connect_nsec_nodes(), src/knot/dnssec/nsec-chain.c:119-185: also NSEC_NODE_SKIP. -/
def connect (ttl : Nat) (h : Heap) (a b : Name) : Heap × Bool :=
  if (h b).nsec ≠ [] ∧ ((h b).nonauth ∨ onlyNsec (h b)) then (put h b (removeNsec (h b)), true)
  else if count (h b) = 0 ∨ (h b).nonauth then (h, true)
  else (put h a (setNext ttl (h a) b), false)

/-- The loop of knot_nsec_chain_iterate_create(), src/knot/dnssec/nsec-chain.c:568-583. -/
def createLoop (ttl : Nat) : Heap → Name → Name → Bool → List Name → Heap × Name × Name × Bool
  | h, previous, current, skip, [] => (h, previous, current, skip)
  | h, previous, _, _, c :: l =>
    let r := connect ttl h previous c
    if r.2 then createLoop ttl r.1 previous c true l else createLoop ttl r.1 c c false l

/-- knot_nsec_create_chain(), src/knot/dnssec/nsec-chain.c:724-733, with
knot_nsec_chain_iterate_create(), src/knot/dnssec/nsec-chain.c:546-590: the result is NSEC_NODE_SKIP if the
last step skips. -/
def create (ttl : Nat) (names : List Name) (h : Heap) : Res (Heap × Bool) :=
  match names with
  | [] => .err .einval
  | first :: l =>
    let r := createLoop ttl h first first false l
    .ok (connect ttl r.1 (if r.2.2.2 then r.2.1 else r.2.2.1) first)

/-! ## Fixing -/

/-- node_no_nsec(), src/knot/dnssec/nsec-chain.c:228-233. -/
def noNsec (n : Node) : Bool := n.nonauth || decide (count n = 0)

/-- nsec_update_bitmap(), src/knot/dnssec/nsec-chain.c:243-265. -/
def updateBitmap (ttl : Nat) (n : Node) : Node :=
  if noNsec n || onlyNsec n then removeNsec n
  else
    match n.nsec with
    | [] => { n with nsec := [createNsec n []], ttl := ttl }
    | r :: _ => { n with nsec := [createNsec n r.1], ttl := ttl }

/-- nsec_update_bitmaps(), src/knot/dnssec/nsec-chain.c:267-281. -/
def updateBitmaps (ttl : Nat) (ptrs : List Name) (h : Heap) : Heap :=
  ptrs.foldl (fun h x => put h x (updateBitmap ttl (h x))) h

/-- The last of the names that may have an NSEC. -/
def lastIn (h : Heap) (l : List Name) : Option Name := (l.reverse.find? (fun x => !noNsec (h x)))

/-- nsec_prev(), src/knot/dnssec/nsec-chain.c:335-345: the names before, then round from the last one. The
pointers come from adjust_single(), src/knot/zone/adjust.c:372-383. The assertion is there; callers follow
NULL. -/
def nsecPrev (names : List Name) (h : Heap) (x : Name) : Res Name :=
  match (lastIn h (names.takeWhile (· != x))).or (lastIn h names) with
  | none => .ub
  | some y => if onlyNsec (h y) then .ub else .ok y

/-- The loop over deleted nodes, src/knot/dnssec/nsec-chain.c:626-631. Going round without finding any is
an endless loop. -/
def prevKept (names : List Name) (old new : Heap) : Nat → Name → Res Name
  | 0, _ => .ub
  | fuel + 1, x => do
    let y ← nsecPrev names old x
    if noNsec (new y) then prevKept names old new fuel y else .ok y

/-- node_nearer(), src/knot/dnssec/nsec-chain.c:524-539. `a` is never NULL. -/
def nearer (a : Name) (b : Option Name) (ref : Name) : Name :=
  match b with
  | none => a
  | some b =>
    if a = b then b
    else
      let abigger := canonCmp a ref != .lt
      let bbigger := canonCmp b ref != .lt
      let cmp := canonCmp a b
      let cmp := if abigger != bbigger then cmp.swap else cmp
      if cmp = .lt then b else a

/-- reconnect_nsec_nodes(), src/knot/dnssec/nsec-chain.c:196-226: `an` is the node `a`. -/
def reconnect (h : Heap) (an : Node) (b : Name) : Res Heap :=
  match an.nsec, (h b).nsec with
  | ra :: _, rb :: _ => .ok (put h b { h b with nsec := [(ra.1, rb.2)] })
  | _, _ => .ub

/-- One round for a node after the start, src/knot/dnssec/nsec-chain.c:624-643. -/
def fixOne (ttl : Nat) (names : List Name) (old h : Heap) (prevIt : Option Name) (c : Name) :
    Res (Heap × Option Name) :=
  let delNew := noNsec (h c)
  let delOld := noNsec (old c)
  if !delOld && delNew then do
    let p ← prevKept names old h (names.length + 1) c
    let h ← reconnect h (old c) (nearer p prevIt c)
    .ok (h, prevIt)
  else if delOld && !delNew then do
    let p ← nsecPrev names h c
    let h ← reconnect h (h p) c
    let r := connect ttl h p c
    if r.2 then .err .error else .ok (r.1, some c)
  else .ok (h, prevIt)

/-- The loop of knot_nsec_chain_iterate_fix(), src/knot/dnssec/nsec-chain.c:602-648, with the iterator at
`l`. The second time at the start it ends; `fuel` is for both rounds. -/
def fixLoop (ttl : Nat) (names ptrs : List Name) (old : Heap) : Nat → Heap → Option Name → Option Name → List Name →
    Res Heap
  | 0, _, _, _, _ => .ub
  | fuel + 1, h, started, prevIt, l =>
    let l := if l = [] then ptrs else l
    match l with
    | [] => .ub
    | c :: rest =>
      if started = some c then .ok h
      else
        let started := if started = none ∧ noNsec (old c) = false ∧ noNsec (h c) = false then some c else started
        if rest = [] ∧ started = none then .ub
        else if started = none then fixLoop ttl names ptrs old fuel h started prevIt rest
        else do
          let r ← fixOne ttl names old h prevIt c
          fixLoop ttl names ptrs old fuel r.1 started r.2 rest

/-- knot_nsec_fix_chain(), src/knot/dnssec/nsec-chain.c:731-761. The apex is put to the changed nodes, which
are in the order of the tree. -/
def fix (ttl : Nat) (names ptrs : List Name) (old new : Heap) : Res Heap :=
  fixLoop ttl names (names.filter (fun x => ptrs.contains x || names.head? == some x)) old
    (2 * names.length + 1) (updateBitmaps ttl ptrs new) none none
    (names.filter (fun x => ptrs.contains x || names.head? == some x))

/-! ## Checking -/

/-- check_nsec_bitmap() for NSEC, src/knot/dnssec/nsec-chain.c:418-515. KNOT_DNSSEC_EXTRA_NSEC is `eexist`. -/
def checkBitmap (n : Node) : Res Unit :=
  if n.nsec.length ≠ 1 ∧ noNsec n = false then .err .enonsec
  else if noNsec n ∧ n.nsec.length > 0 then .err .eexist
  else if noNsec n then .ok ()
  else
    match n.nsec with
    | r :: _ =>
      if Bitmap.write ((bitmapTypes n true).foldl Bitmap.add Bitmap.new) = r.2 then .ok () else .err .ensecBitmap
    | [] => .ub

/-- nsec_check_bitmaps(), src/knot/dnssec/nsec-chain.c:517-520. -/
def checkBitmaps (h : Heap) : List Name → Res Unit
  | [] => .ok ()
  | x :: l => do
    let _ ← checkBitmap (h x)
    checkBitmaps h l

/-- nsec_check_connect_nodes() for NSEC, src/knot/dnssec/nsec-chain.c:302-333: `true` is NSEC_NODE_SKIP. -/
def checkConnect (h : Heap) (a b : Name) : Res Bool :=
  if noNsec (h b) then .ok true
  else
    match (h a).nsec with
    | [r] => if lowerName r.1 = lowerName b then .ok false else .err .ensecChain
    | _ => .err .ensecChain

/-- The loop of knot_nsec_chain_iterate_create() with it. -/
def checkLoop (h : Heap) : Name → Name → Bool → List Name → Res (Name × Name × Bool)
  | previous, current, skip, [] => .ok (previous, current, skip)
  | previous, _, _, c :: l => do
    let s ← checkConnect h previous c
    if s then checkLoop h previous c true l else checkLoop h c c false l

/-- knot_nsec_check_chain(), src/knot/dnssec/nsec-chain.c:763-780. -/
def check (names : List Name) (h : Heap) : Res Bool := do
  let _ ← checkBitmaps h names
  match names with
  | [] => .err .einval
  | first :: l => do
    let r ← checkLoop h first first false l
    checkConnect h (if r.2.2 then r.1 else r.2.1) first

/-- nsec_check_prev_next(), src/knot/dnssec/nsec-chain.c:347-398. -/
def checkPrevNext (names : List Name) (h : Heap) (x : Name) : Res Unit :=
  if noNsec (h x) then .ok ()
  else do
    let p ← nsecPrev names h x
    let _ ← checkConnect h p x
    match (h x).nsec with
    | [r] =>
      if lowerName r.1 ∈ names then do
        let q ← nsecPrev names h (lowerName r.1)
        if q = x then .ok () else .err .ensecChain
      else .err .ensecChain
    | _ => .err .ensecChain

/-- nsec_check_new_connects(), src/knot/dnssec/nsec-chain.c:400-403. -/
def checkPrevNexts (names : List Name) (h : Heap) : List Name → Res Unit
  | [] => .ok ()
  | x :: l => do
    let _ ← checkPrevNext names h x
    checkPrevNexts names h l

/-- knot_nsec_check_chain_fix(), src/knot/dnssec/nsec-chain.c:782-798. -/
def checkFix (names ptrs : List Name) (h : Heap) : Res Unit := do
  let _ ← checkBitmaps h ptrs
  checkPrevNexts names h ptrs

end Knot.Nsecchain
