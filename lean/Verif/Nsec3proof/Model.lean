import Verif.Nsecproof.Model
/-!
# NSEC3 proofs

src/knot/nameserver/nsec_proofs.c for a zone with NSEC3, solve_authority_dnssec(), and the creation of an NSEC3 chain,
src/knot/dnssec/nsec3-chain.c. The hash of a name is a number: the order of its text in base32hex is that of the number
(see C11). There is space for the authority section. Signatures that go with the records and the failure of memory
allocation are left out.
-/
namespace Knot.Nsec3proof
open Dname (Name)
open Nsecchain (Node)
open Answer (Zone Rec State St Req wildcard findDname size solveName solveLoop delegation)

/-- An NSEC3 record: the next hash, the types in the bitmap, the flag opt-out. -/
structure Nsec3 where
  next : Nat
  types : List Nat
  optout : Bool
  deriving DecidableEq, Repr

/-- zone_contents_t, src/knot/zone/contents.h:30-43, with its NSEC3 nodes: the hash with the parameters of the zone; the
hashes that the nodes are named after, in the order of the tree; the NSEC3 record of the chain with these parameters, if
the node has one (NODE_FLAGS_IN_NSEC3_CHAIN, adjust_cb_nsec3_flags(), src/knot/zone/adjust.c:145-164). -/
structure Zone3 extends Zone where
  hash : Name → Nat
  tree : List Nat
  nsec3 : Nat → Option Nsec3

/-! ## Nodes -/

/-- node_nsec3_get(), src/knot/zone/node.h:414-421, as set by node_update_nsec3_node(), src/knot/dnssec/zone-nsec.c:110-123. -/
def nsec3Get (z : Zone3) (x : Name) : Option Nat := if z.tree.contains (z.hash x) then some (z.hash x) else none

/-- Where adjust_cb_flags(), src/knot/zone/adjust.c:41-76, sets NODE_FLAGS_SUBTREE_AUTH. -/
def setsAuth (n : Node) : Bool := !n.nonauth && (if n.deleg then n.types.contains 43 else !n.types.isEmpty)

/-- NODE_FLAGS_SUBTREE_AUTH after adjust_cb_flags() for all nodes, src/knot/zone/adjust.c:41-76, with
node_set_flag_hierarch(), src/knot/zone/node.h:308-313. -/
def subtreeAuth (z : Zone3) (x : Name) : Bool := z.names.any (fun y => decide (x <:+ y) && setsAuth (z.node y))

/-- NODE_FLAGS_SUBTREE_DATA, the same. -/
def subtreeData (z : Zone3) (x : Name) : Bool := z.names.any (fun y => decide (x <:+ y) && !(z.node y).types.isEmpty)

/-- ds_optout(), src/knot/nameserver/nsec_proofs.c:43-46. -/
def dsOptout (z : Zone3) (x : Name) : Bool := (nsec3Get z x).isNone && !subtreeAuth z x

/-- node_in_nsec3(), src/knot/nameserver/nsec_proofs.c:68-71. -/
def inNsec3 (z : Zone3) (x : Name) : Bool := !(z.node x).nonauth && !dsOptout z x

/-- nsec3_encloser(), src/knot/nameserver/nsec_proofs.c:92-102. -/
def nsec3Encloser (z : Zone3) : Name → Res Name
  | [] => if inNsec3 z [] then .ok [] else .ub
  | l :: x => if inNsec3 z (l :: x) then .ok (l :: x) else if l :: x = z.apex then .ub else nsec3Encloser z x

/-- get_next_closer(), src/knot/nameserver/nsec_proofs.c:117-132. -/
def nextCloser (c n : Name) : Res Name :=
  if n.length ≤ c.length then .ub
  else if (n.drop (n.length - c.length - 1)).tail = c then .ok (n.drop (n.length - c.length - 1))
  else .ub

/-- zone_contents_find_nsec3(), src/knot/zone/contents.c:387-421, with find_in_tree(), 61-81: whether there is a node, and
the previous one. The steps of node_prev() from the last node before, around the tree, are a search of the list of nodes
in this order. -/
def findNsec3 (z : Zone3) (h : Nat) : Res (Bool × Option Nat) :=
  if z.tree = [] then .ub
  else .ok (z.tree.contains h,
    ((z.tree.filter (fun x => x < h)).reverse ++ (z.tree.filter (fun x => h ≤ x)).reverse).find? (fun x => (z.nsec3 x).isSome))

/-! ## The records -/

/-- put_nxt_from_node() for NSEC3, src/knot/nameserver/nsec_proofs.c:137-153: the hashes whose NSEC3 is in the authority
section. NSEC3 is never in the answer section. -/
def putNsec3 (acc : List Nat) (h : Option Nat) : List Nat :=
  match h with
  | none => acc
  | some h => if acc.contains h then acc else acc ++ [h]

/-- put_covering_nsec3(), src/knot/nameserver/nsec_proofs.c:210-229, with zone_contents_find_nsec3_for_name(),
src/knot/zone/contents.c:357-385. -/
def putCovering (z : Zone3) (acc : List Nat) (x : Name) : Res (List Nat) :=
  if z.tree = [] then .ok acc
  else do
    let r ← findNsec3 z (z.hash x)
    if r.1 || r.2.isNone then .err .error else .ok (putNsec3 acc r.2)

/-- put_nsec3_next_closer(), src/knot/nameserver/nsec_proofs.c:242-251. -/
def putNextCloser (z : Zone3) (acc : List Nat) (cpe n : Name) : Res (List Nat) := do
  let x ← nextCloser cpe n
  putCovering z acc x

/-- put_closest_encloser_proof(), src/knot/nameserver/nsec_proofs.c:270-287. -/
def encloserProof (z : Zone3) (acc : List Nat) (n cpe : Name) : Res (List Nat) :=
  putNextCloser z (putNsec3 acc (nsec3Get z cpe)) cpe n

/-- The end of put_nsec3_nxdomain(), src/knot/nameserver/nsec_proofs.c:440-450, with adjust_cb_wildcard_nsec3(),
src/knot/zone/adjust.c:89-129. -/
def putWildcard (z : Zone3) (acc : List Nat) (cpe : Name) : Res (List Nat) :=
  if size cpe + 2 > 255 then .err .error
  else do
    let r ← findNsec3 z (z.hash ([42] :: cpe))
    if r.1 then .err .error else .ok (putNsec3 acc r.2)

/-- put_nsec3_nxdomain(), src/knot/nameserver/nsec_proofs.c:425-451, with `encloser` of the last search. -/
def nxdomain (z : Zone3) (n : Name) : Res (List Nat) := do
  let f ← findDname z.toZone n
  match f with
  | .notFound c => do
    let cpe ← nsec3Encloser z c
    let acc ← encloserProof z [] n cpe
    putWildcard z acc cpe
  | _ => .ub

/-- wildcard_expanded(), src/knot/nameserver/nsec_proofs.c:35-38. -/
def expanded (x n : Name) : Bool := !wildcard n && wildcard x

/-- put_nsec3_nodata(), src/knot/nameserver/nsec_proofs.c:519-547, for the node `x`, with `encloser` of the last search. -/
def nodata (z : Zone3) (n x : Name) : Res (List Nat) :=
  if expanded x n || dsOptout z x then do
    let f ← findDname z.toZone n
    match f with
    | .found c | .notFound c => do
      let cpe ← nsec3Encloser z c
      encloserProof z (putNsec3 [] (nsec3Get z x)) n cpe
    | .out => .ub
  else .ok (putNsec3 [] (nsec3Get z x))

/-- What is added to the authority section: NSEC3 records and DS. -/
structure Denial where
  nsec3 : List Nat
  ds : Option Name
  deriving DecidableEq, Repr

/-- nsec_prove_dp_security(), src/knot/nameserver/nsec_proofs.c:616-636, at the node of the delegation. -/
def dpSecurity (z : Zone3) (n d : Name) : Res Denial :=
  if 43 ∈ (z.node d).types then .ok ⟨[], some d⟩
  else do
    let l ← nodata z n d
    .ok ⟨l, none⟩

/-- nsec_prove_wildcards(), src/knot/nameserver/nsec_proofs.c:571-593, with put_wildcard_answer(), 337-358, and
put_nsec3_wildcard(), 320-330. -/
def wildcards (z : Zone3) : List (Name × Name) → List Nat → Res (List Nat)
  | [], acc => .ok acc
  | (w, n) :: l, acc =>
    if expanded w n then do
      let cpe ← nsec3Encloser z w.tail
      let acc ← putNextCloser z acc cpe n
      wildcards z l acc
    else wildcards z l acc

/-- The switch in solve_authority_dnssec(), src/knot/nameserver/internet.c:561-597. -/
def prove (z : Zone3) (r : St × State) : Res Denial :=
  match r.2 with
  | .hit => .ok ⟨[], none⟩
  | .miss => do
    let l ← nxdomain z r.1.name
    .ok ⟨l, none⟩
  | .nodata =>
    match r.1.node with
    | none => .err .einval
    | some x => do
      let l ← nodata z r.1.name x
      .ok ⟨l, none⟩
  | .deleg =>
    match r.1.node with
    | none => .err .einval
    | some x => do
      let d ← delegation z.toZone x
      dpSecurity z r.1.name d
  | .trunc => .err .espace
  | .error => .err .einval
  | .follow => .ub

/-- answer_query(), src/knot/nameserver/internet.c:650-709, with solve_authority_dnssec(), 561-597: what is added for
DNSSEC. -/
def denial (z : Zone3) (q : Req) (name : Name) : Res Denial := do
  let r ← solveName z.toZone q false { name := name }
  let r ← solveLoop z.toZone q 7 r
  let d ← prove z r
  let l ← wildcards z r.1.wild d.nsec3
  .ok ⟨l, d.ds⟩

/-! ## The chain -/

/-- nsec3_empty(), src/knot/dnssec/nsec3-chain.c:29-33. -/
def nsec3Empty (z : Zone3) (optout : Bool) (x : Name) : Bool := if optout then !subtreeAuth z x else !subtreeData z x

/-- node_should_be_signed_nsec3(), src/knot/dnssec/nsec3-chain.c:43-58, with knot_zone_sign_rr_should_be_signed(),
src/knot/dnssec/zone-sign.c:1001-1022, for a node that is not below a delegation. -/
def shouldSign (n : Node) : Bool := if n.deleg then n.types.contains 43 else !n.types.isEmpty

/-- The types that create_nsec3_node_for_node(), src/knot/dnssec/nsec3-chain.c:234-268, puts in the bitmap. -/
def bitmapTypes (z : Zone3) (x : Name) : List Nat :=
  Nsecchain.bitmapTypes (z.node x) false ++ (if shouldSign (z.node x) then [46] else []) ++ (if x = z.apex then [51] else [])

/-- Inserting in the tree of NSEC3 nodes: a node with the name of another replaces it. -/
def insert (l : List (Nat × List Nat)) (h : Nat × List Nat) : List (Nat × List Nat) :=
  match l with
  | [] => [h]
  | a :: l => if h.1 < a.1 then h :: a :: l else if h.1 = a.1 then h :: l else a :: insert l h

/-- create_nsec3_nodes(), src/knot/dnssec/nsec3-chain.c:413-462: the hashes with the types, in order. -/
def createNodes (z : Zone3) (optout : Bool) : List (Nat × List Nat) :=
  (z.names.filter (fun x => !(z.node x).nonauth && !nsec3Empty z optout x)).foldl
    (fun l x => insert l (z.hash x, bitmapTypes z x)) []

/-- knot_nsec_chain_iterate_create(), src/knot/dnssec/nsec-chain.c:546-596, with connect_nsec3_nodes(),
src/knot/dnssec/nsec3-chain.c:308-317: each node to the next one, the last one to the first. -/
def connect (optout : Bool) (first : Nat) : List (Nat × List Nat) → List (Nat × Nsec3)
  | [] => []
  | [a] => [(a.1, ⟨first, a.2, optout⟩)]
  | a :: b :: l => (a.1, ⟨b.1, a.2, optout⟩) :: connect optout first (b :: l)

/-- knot_nsec3_create_chain(), src/knot/dnssec/nsec3-chain.c:625-656, with zone_update_nsec3_nodes(), 565-606: the NSEC3
nodes of the zone afterwards, those and no other. -/
def createChain (z : Zone3) (optout : Bool) : Res Zone3 :=
  match createNodes z optout with
  | [] => .err .einval
  | a :: l => .ok { z with tree := (a :: l).map (·.1), nsec3 := fun h => (connect optout a.1 (a :: l)).lookup h }

end Knot.Nsec3proof
