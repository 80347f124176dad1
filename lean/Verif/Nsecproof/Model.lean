import Verif.Answer.Model
/-!
# NSEC proofs

src/knot/nameserver/nsec_proofs.c for a zone with NSEC, and solve_authority_dnssec(), on top of the model of answers.
There is space for the authority section. Signatures that go with the records, NSEC3, and the failure of memory
allocation are left out.
-/
namespace Knot.Nsecproof
open Dname (Name canonCmp)
open Nsecchain (Node count lastIn)
open Answer (Zone Rec State St Req wildcard findDname size solveName solveLoop delegation)

/-- node_prev(), src/knot/zone/node.h:287-290, as set by adjust_single() and zone_adjust_tree(), src/knot/zone/adjust.c:345-412:
the last name before with authoritative records; that of the first name is the last such one of all. -/
def nodePrev (z : Zone) (x : Name) : Option Name :=
  (lastIn z.node (z.names.filter (fun y => canonCmp y x == .lt))).or (lastIn z.node z.names)

/-- node_in_nsec(), src/knot/nameserver/nsec_proofs.c:55-58. -/
def inNsec (n : Node) : Bool := !n.nonauth && decide (count n ≠ 0)

/-- nsec_previous(), src/knot/nameserver/nsec_proofs.c:77-87. -/
def nsecPrevious (z : Zone) : Nat → Name → Res Name
  | 0, _ => .ub
  | fuel + 1, x =>
    if inNsec (z.node x) then .ok x
    else
      match nodePrev z x with
      | none => .ub
      | some y => nsecPrevious z fuel y

/-- `previous` of zone_contents_find_dname(), src/knot/zone/contents.c:295-344, from zone_tree_get_less_or_equal(),
src/knot/zone/zone-tree.c:146-198, for a name of the zone. -/
def findPrev (z : Zone) (n : Name) : Res Name :=
  match (if n ∈ z.names then nodePrev z n
    else (z.names.filter (fun x => canonCmp x n == .lt)).getLast?.or (z.names.head?.bind (nodePrev z))) with
  | none => .ub
  | some p => .ok p

/-- findPrev() and nsec_previous(). -/
def covering (z : Zone) (n : Name) : Res Name := do
  let p ← findPrev z n
  nsecPrevious z (z.names.length + 2) p

/-- pkt_contains(), src/libknot/packet/pkt.c:39-53, for NSEC in the answer section: records expanded from a wildcard
are copied, src/knot/nameserver/process_query.c:953-1013, unless they are the first, src/knot/nameserver/internet.c:126-169. -/
def inAnswer (ans : List Rec) (x : Name) : Bool :=
  match ans with
  | [] => false
  | r :: l =>
    (match r with
      | .rr _ y u => y == x && u == 47
      | .synth .. => false) ||
    (!wildcard x && l.any (fun
      | .rr _ y u => y == x && u == 47
      | .synth .. => false))

/-- put_nxt_from_node() for NSEC, src/knot/nameserver/nsec_proofs.c:137-153: the nodes whose NSEC is in the authority
section. -/
def putNsec (z : Zone) (ans : List Rec) (acc : List Name) (x : Name) : List Name :=
  if (z.node x).nsec = [] then acc
  else if inAnswer ans x || acc.contains x then acc
  else acc ++ [x]

/-- put_covering_nsec(), src/knot/nameserver/nsec_proofs.c:182-205. -/
def putCovering (z : Zone) (ans : List Rec) (acc : List Name) (w : Name) : Res (List Name) := do
  let f ← findDname z w
  match f with
  | .found x => .ok (putNsec z ans acc x)
  | .notFound _ => do
    let p ← covering z w
    .ok (putNsec z ans acc p)
  | .out => .err .eoutofzone

/-- put_nsec_nxdomain(), src/knot/nameserver/nsec_proofs.c:376-408, with `previous` and `encloser` of the last search,
src/knot/nameserver/internet.c:459-477. -/
def nxdomain (z : Zone) (ans : List Rec) (n : Name) : Res (List Name) := do
  let f ← findDname z n
  match f with
  | .notFound c => do
    let p ← covering z n
    let acc := putNsec z ans [] p
    if size c > 253 then .err .einval else putCovering z ans acc ([42] :: c)
  | _ => .ub

/-- put_nsec_nodata(), src/knot/nameserver/nsec_proofs.c:496-506, for the node `x`, with `previous` of the last search. -/
def nodata (z : Zone) (ans : List Rec) (n x : Name) : Res (List Name) :=
  if count (z.node x) = 0 then do
    let p ← covering z n
    .ok (putNsec z ans [] p)
  else .ok (putNsec z ans [] x)

/-- What is added to the authority section: NSEC records and DS. -/
structure Denial where
  nsec : List Name
  ds : Option Name
  deriving DecidableEq, Repr

/-- nsec_prove_dp_security(), src/knot/nameserver/nsec_proofs.c:616-636, at the node of the delegation. -/
def dpSecurity (z : Zone) (ans : List Rec) (n d : Name) : Res Denial :=
  if 43 ∈ (z.node d).types then .ok ⟨[], some d⟩
  else do
    let l ← nodata z ans n d
    .ok ⟨l, none⟩

/-- nsec_prove_wildcards(), src/knot/nameserver/nsec_proofs.c:571-593, with put_wildcard_answer(), 337-358, and
wildcard_expanded(), 35-38. -/
def wildcards (z : Zone) (ans : List Rec) : List (Name × Name) → List Name → Res (List Name)
  | [], acc => .ok acc
  | (w, n) :: l, acc =>
    if !wildcard n && wildcard w then do
      let p ← covering z n
      wildcards z ans l (putNsec z ans acc p)
    else wildcards z ans l acc

/-- The switch in solve_authority_dnssec(), src/knot/nameserver/internet.c:561-597. -/
def prove (z : Zone) (r : St × State) : Res Denial :=
  match r.2 with
  | .hit => .ok ⟨[], none⟩
  | .miss => do
    let l ← nxdomain z r.1.answer r.1.name
    .ok ⟨l, none⟩
  | .nodata =>
    match r.1.node with
    | none => .err .einval
    | some x => do
      let l ← nodata z r.1.answer r.1.name x
      .ok ⟨l, none⟩
  | .deleg =>
    match r.1.node with
    | none => .err .einval
    | some x => do
      let d ← delegation z x
      dpSecurity z r.1.answer r.1.name d
  | .trunc => .err .espace
  | .error => .err .einval
  | .follow => .ub

/-- answer_query(), src/knot/nameserver/internet.c:650-709, with solve_authority_dnssec(), 561-597: what is added for
DNSSEC. -/
def denial (z : Zone) (q : Req) (name : Name) : Res Denial := do
  let r ← solveName z q false { name := name }
  let r ← solveLoop z q 7 r
  let d ← prove z r
  let l ← wildcards z r.1.answer r.1.wild d.nsec
  .ok ⟨l, d.ds⟩

end Knot.Nsecproof
