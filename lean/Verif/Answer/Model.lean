import Verif.Nsecchain.Model
/-!
# Answering queries

src/knot/nameserver/internet.c, for a zone with its contents, without modules. The nodes are those of the model
of NSEC chains. Names are lower-case and without zero octets. RRSIG records that go with others, NSEC and NSEC3
proofs and the additional section are left out, so is the failure of memory allocation.
-/
namespace Knot.Answer
open Dname (Name canonCmp commonSuffixLen)
open Nsecchain (Node Heap count)

/-- zone_contents_t, src/knot/zone/contents.h:30-43, with the nodes: the names in the order of the tree; the
name in the first record of a type at a node; the type of the first RRset of a node. -/
structure Zone where
  apex : Name
  names : List Name
  node : Heap
  target : Name → Nat → Name
  first : Name → Nat

/-- knot_dname_is_wildcard(), src/libknot/dname.h:214-218. -/
def wildcard (x : Name) : Bool := x.head? == some [42]

/-- A record in the response: of a node, with the owner as it is written, or a CNAME made from DNAME. -/
inductive Rec where
  | rr (owner source : Name) (type : Nat)
  | synth (owner target : Name)
  deriving DecidableEq, Repr

/-- knotd_in_state_t, src/knot/include/module.h:522-532. -/
inductive State where
  | hit | miss | nodata | deleg | follow | trunc | error
  deriving DecidableEq, Repr

/-- What changes in knotd_qdata_t and its extra, src/knot/nameserver/process_query.h:28-52, while an answer is
made, and the answer section; the node may be NULL. -/
structure St where
  name : Name
  node : Option Name := none
  chain : Nat := 0
  wild : List (Name × Name) := []
  rcode : Nat := 0
  answer : List Rec := []
  deriving DecidableEq, Repr

/-- What a request fixes: the type, the protocol (`udp`), and which sequences of records fit in the packet. -/
structure Req where
  type : Nat
  udp : Bool
  fits : List Rec → Bool

/-! ## Finding a name -/

/-- The loop in zone_contents_find_dname(), src/knot/zone/contents.c:337-340. -/
def climb (apex : Name) (k : Nat) : Name → Res Name
  | [] => if k < 0 then .ub else .ok []
  | l :: x => if k < x.length + 1 then (if l :: x = apex then .ub else climb apex k x) else .ok (l :: x)

inductive Find where
  | out
  | found (x : Name)
  | notFound (encloser : Name)
  deriving DecidableEq, Repr

/-- zone_contents_find_dname(), src/knot/zone/contents.c:295-344, with zone_tree_get_less_or_equal(),
src/knot/zone/zone-tree.c:146-198: the last name before, or the last one. -/
def findDname (z : Zone) (n : Name) : Res Find :=
  if ¬ z.apex <:+ n then .ok .out
  else if n ∈ z.names then .ok (.found n)
  else
    match ((z.names.filter (fun x => canonCmp x n == .lt)).getLast?).or z.names.getLast? with
    | none => .err .enonode
    | some p => do
      let c ← climb z.apex (commonSuffixLen p n) p
      .ok (.notFound c)

/-! ## Records -/

/-- node_rrtype_exists(), src/knot/zone/node.h:333-336. -/
def has (n : Node) (t : Nat) : Bool :=
  n.types.contains t || (t == 46 && !n.sigs.isEmpty) || (t == 47 && !n.nsec.isEmpty)

/-- process_query_put_rr() in the answer section, src/knot/nameserver/process_query.c:953-1013: the owner. -/
def expand (st : St) (x : Name) (t : Nat) : Name := if wildcard x && t != 39 then st.name else x

/-- pkt_contains() for a record that is not copied, src/libknot/packet/pkt.c:39-53. -/
def contains (st : St) (x : Name) (t : Nat) : Bool :=
  !(wildcard x && t != 39) && st.answer.any (fun
    | .rr _ y u => y == x && u == t
    | .synth .. => false)

/-- knot_pkt_put_rotate(), src/libknot/packet/pkt.c:501-570: `none` is KNOT_ESPACE. -/
def put (q : Req) (st : St) (r : Rec) : Option St :=
  if q.fits (st.answer ++ [r]) then some { st with answer := st.answer ++ [r] } else none

/-- put_answer(), src/knot/nameserver/internet.c:126-169: the type of the RRset. -/
def answerType (z : Zone) (t : Nat) (x : Name) : Option Nat :=
  if t = 255 then (if count (z.node x) = 0 then none else some (z.first x))
  else if has (z.node x) t then some t
  else none

/-- Its end: `none` is KNOT_ESPACE. -/
def putAnswer (z : Zone) (q : Req) (st : St) (x : Name) : Option St :=
  match answerType z q.type x with
  | none => some st
  | some t => put q st (.rr (if st.answer = [] then st.name else expand st x t) x t)

/-! ## Following CNAME and DNAME -/

/-- wildcard_has_visited(), src/knot/nameserver/internet.c:27-36. -/
def visited (st : St) (x : Name) : Bool := st.wild.any (fun w => w.1 == x)

/-- wildcard_visit(), src/knot/nameserver/internet.c:39-56. -/
def visit (z : Zone) (st : St) (x : Name) : St :=
  if (z.node x).nonauth then st else { st with wild := st.wild ++ [(x, st.name)] }

/-- Octets of a name on the wire. -/
def size (n : Name) : Nat := (n.map (fun l => l.length + 1)).sum + 1

/-- dname_cname_cannot_synth(), src/knot/nameserver/internet.c:103-114. The owner is a suffix of the name. -/
def cannotSynth (owner target n : Name) : Bool :=
  decide (n.length - owner.length + target.length > 127) || decide (size n - size owner + size target > 255)

/-- knot_dname_replace_suffix() in dname_cname_synth(), src/knot/nameserver/internet.c:59-97. -/
def synthName (owner target n : Name) : Name := n.take (n.length - owner.length) ++ target

/-- The end of follow_cname(), src/knot/nameserver/internet.c:340-369, from the check of the count of records. -/
def followEnd (z : Zone) (st : St) (before : Nat) (x : Name) (next : Name) : St × State :=
  if st.answer.length ≤ before then ({ st with node := none }, .hit)
  else if wildcard x then
    if visited st x then ({ visit z st x with node := none }, .hit)
    else ({ visit z st x with name := next }, .follow)
  else ({ st with name := next }, .follow)

/-- follow_cname(), src/knot/nameserver/internet.c:289-370. -/
def followCname (z : Zone) (q : Req) (st : St) (x : Name) (t : Nat) : St × State :=
  let st := { st with chain := st.chain + 1 }
  if st.chain > 5 then ({ st with node := none }, .hit)
  else
    let before := st.answer.length
    match (if contains st x t then some st else put q st (.rr (expand st x t) x t)) with
    | none => (st, .trunc)
    | some st1 =>
      if t = 39 then
        if cannotSynth x (z.target x t) st.name then followEnd z { st1 with rcode := 6 } before x (z.target x t)
        else
          match put q st1 (.synth st.name (synthName x (z.target x t) st.name)) with
          | none => (st1, .trunc)
          | some st2 =>
            if q.type = 5 then (st2, .hit)
            else followEnd z st2 before x (synthName x (z.target x t) st.name)
      else followEnd z st1 before x (z.target x t)

/-! ## One name -/

/-- name_found(), src/knot/nameserver/internet.c:372-407. -/
def nameFound (z : Zone) (q : Req) (st : St) (x : Name) : St × State :=
  let st := { st with node := some x }
  let n := z.node x
  if (n.deleg ∧ q.type ≠ 43) ∨ n.nonauth then (st, .deleg)
  else if has n 5 ∧ q.type ≠ 5 ∧ q.type ≠ 46 ∧ q.type ≠ 47 ∧ q.type ≠ 255 then followCname z q st x 5
  else
    match putAnswer z q st x with
    | none => (st, if q.udp then .trunc else .error)
    | some st' => (st', if st'.answer.length = st.answer.length then .nodata else .hit)

/-- The loop in name_not_found(), src/knot/nameserver/internet.c:444-448. -/
def authEncloser (z : Zone) : Name → Res Name
  | [] => if count (z.node []) = 0 ∨ (z.node []).nonauth then .ub else .ok []
  | l :: x =>
    if count (z.node (l :: x)) = 0 ∨ (z.node (l :: x)).nonauth then
      (if l :: x = z.apex then .ub else authEncloser z x)
    else .ok (l :: x)

/-- name_not_found(), src/knot/nameserver/internet.c:409-457. NODE_FLAGS_WILDCARD_CHILD is set for the parent
of a wildcard in the tree, src/knot/zone/zone-tree.c:222-283. -/
def nameNotFound (z : Zone) (q : Req) (st : St) (c : Name) : Res (St × State) :=
  let w : Name := [42] :: c
  if w ∈ z.names then
    let r := nameFound z q st w
    .ok (if visited r.1 w then r else (visit z r.1 w, r.2))
  else if ¬ ((z.node c).nonauth ∨ (z.node c).deleg) ∧ has (z.node c) 39 then
    .ok (followCname z q { st with node := some c } c 39)
  else do
    let d ← authEncloser z c
    if (z.node d).deleg then .ok ({ st with node := some d }, .deleg) else .ok ({ st with node := none }, .miss)

/-- solve_name(), src/knot/nameserver/internet.c:459-477. -/
def solveName (z : Zone) (q : Req) (following : Bool) (st : St) : Res (St × State) := do
  let f ← findDname z st.name
  match f with
  | .found x => .ok (nameFound z q st x)
  | .notFound c => nameNotFound z q st c
  | .out => if following then .ok (st, .hit) else .ub

/-- The loop in solve_answer(), src/knot/nameserver/internet.c:503-506. -/
def solveLoop (z : Zone) (q : Req) : Nat → St × State → Res (St × State)
  | 0, _ => .ub
  | fuel + 1, r =>
    if r.2 = .follow then do
      let r ← solveName z q true r.1
      solveLoop z q fuel r
    else .ok r

/-! ## The response -/

structure Resp where
  state : State
  aa : Bool
  rcode : Nat
  answer : List Rec
  /-- The authority section: the node and the type. -/
  authority : Option (Name × Nat)
  deriving DecidableEq, Repr

/-- The loop in put_delegation(), src/knot/nameserver/internet.c:185-188. -/
def delegation (z : Zone) : Name → Res Name
  | [] => if (z.node []).deleg then .ok [] else .ub
  | l :: x =>
    if (z.node (l :: x)).deleg then .ok (l :: x)
    else if l :: x = z.apex then .ub
    else delegation z x

/-- answer_query(), src/knot/nameserver/internet.c:650-709, with solve_answer(), 479-509, and solve_authority(),
523-559; there is space for the authority section. Without space for the answer the RCODE is not written; after an
error the response is made again by process_query_err(), src/knot/nameserver/process_query.c:513-556. -/
def answer (z : Zone) (q : Req) (name : Name) : Res Resp := do
  let r ← solveName z q false { name := name }
  let aa := decide (r.2 ≠ .deleg)
  let r ← solveLoop z q 7 r
  match r.2 with
  | .miss => .ok ⟨.miss, aa, 3, r.1.answer, some (z.apex, 6)⟩
  | .nodata => .ok ⟨.nodata, aa, r.1.rcode, r.1.answer, some (z.apex, 6)⟩
  | .deleg =>
    match r.1.node with
    | none => .ub
    | some x => do
      let d ← delegation z x
      .ok ⟨.deleg, aa, r.1.rcode, r.1.answer, some (d, 2)⟩
  | .trunc => .ok ⟨.trunc, aa, 0, r.1.answer, none⟩
  | .error => .ok ⟨.error, false, if r.1.rcode = 0 then 2 else r.1.rcode, [], none⟩
  | s => .ok ⟨s, aa, r.1.rcode, r.1.answer, none⟩

end Knot.Answer
