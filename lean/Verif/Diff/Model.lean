import Verif.Changeset.Model
import Verif.Serial.Model
/-!
# Model of the difference of two zones (src/knot/zone/zone-diff.c)

A zone is two trees of nodes; a node has an owner and RRsets, possibly none (an empty non-terminal).
A tree is the list of its nodes in any order; every node in it has another owner, and every RRset
of a node another type. `serialOf` is knot_soa_serial(), src/libknot/rrtype/soa.h:52-57.
-/
namespace Knot.Diff
open Knot.Dname (Name)
open Knot.Changeset (Key RRs RRset Contents Ch addAddition addRemoval insertRd soa rrsig soaKey)

abbrev Bytes := List UInt8

/-- `zone_node_t`, src/knot/zone/node.h:32-54. -/
structure Node where
  owner : Name
  rrsets : List (Nat × RRs)

abbrev Tree := List Node

/-- `zone_contents_t`, src/knot/zone/contents.h:30-43. -/
structure Zone where
  nodes : Tree
  nsec3 : Tree

/-- node_rrset(), src/knot/zone/node.h:369-384. -/
def rrsetOf : List (Nat × RRs) → Nat → Option RRs
  | [], _ => none
  | (t', r) :: l, t => if t' = t then some r else rrsetOf l t

/-- zone_tree_get(), src/knot/zone/zone-tree.c:124-144. -/
def getNode : Tree → Name → Option Node
  | [], _ => none
  | n :: l, o => if n.owner = o then some n else getNode l o

/-- `struct zone_diff_param`, src/knot/zone/zone-diff.c:25-30, the flags. -/
structure Ign where
  dnssec : Bool
  zonemd : Bool

/-- The condition on ignored types with rrset_is_dnssec(), src/knot/zone/zone-diff.c:32-42, 99-100. -/
def ignored (g : Ign) (type : Nat) : Bool :=
  (g.dnssec && decide (type = rrsig ∨ type = 47 ∨ type = 50)) || (g.zonemd && decide (type = 63))

/-- load_soas(), the comparison of the serials, src/knot/zone/zone-diff.c:66-89. -/
def soaChange (c : Res Serial.Cmp) (apex : Name) (a b : RRs) (ch : Ch) : Res Ch :=
  match c with
  | .ok .equal => .err .enodiff
  | .ok .lower => .ok { ch with soaFrom := some (soaKey apex, a), soaTo := some (soaKey apex, b) }
  | .ok _ => .err .erange
  | .err e => .err e
  | .ub => .ub

/-- load_soas(), src/knot/zone/zone-diff.c:44-90. -/
def loadSoas (serialOf : Bytes → Nat) (apex : Name) (s1 s2 : Option RRs) (ch : Ch) : Res Ch :=
  match s1, s2 with
  | some a, some b =>
    match a.data, b.data with
    | x :: _, y :: _ => soaChange (Serial.serialCompare (serialOf x) (serialOf y)) apex a b ch
    | _, _ => .err .einval
  | _, _ => .err .einval

/-- add_node(), src/knot/zone/zone-diff.c:92-111. -/
def addNode (g : Ign) (nsec3 : Bool) (n : Node) (ch : Ch) : Ch :=
  n.rrsets.foldl (fun ch r =>
    if ignored g r.1 then ch else addAddition ch (⟨nsec3, n.owner, r.1⟩, r.2) false) ch

/-- remove_node(), src/knot/zone/zone-diff.c:113-132. -/
def removeNode (g : Ign) (nsec3 : Bool) (n : Node) (ch : Ch) : Ch :=
  n.rrsets.foldl (fun ch r =>
    if ignored g r.1 then ch else addRemoval ch (⟨nsec3, n.owner, r.1⟩, r.2) false) ch

/-- rdata_return_changes(), src/knot/zone/zone-diff.c:134-170. -/
def returnChanges (type : Nat) (r1 r2 : RRs) : RRs :=
  ⟨r1.ttl, r1.data.foldl (fun acc x =>
    if decide (r1.ttl ≠ r2.ttl ∧ type ≠ rrsig) || decide (x ∉ r2.data) then insertRd x acc else acc) []⟩

/-- diff_rrsets(), src/knot/zone/zone-diff.c:172-213. -/
def diffRrsets (k : Key) (r1 r2 : RRs) (ch : Ch) : Ch :=
  let toRemove := returnChanges k.type r1 r2
  let toAdd := returnChanges k.type r2 r1
  let ch := if toRemove.data = [] then ch else addRemoval ch (k, toRemove) false
  if toAdd.data = [] then ch else addAddition ch (k, toAdd) false

/-- knot_zone_diff_node(), the first loop, src/knot/zone/zone-diff.c:247-281. -/
def diffFirst (g : Ign) (nsec3 : Bool) (n m : Node) (ch : Ch) (r : Nat × RRs) : Ch :=
  if r.1 = soa then ch
  else if ignored g r.1 then ch
  else
    match rrsetOf m.rrsets r.1 with
    | none => addRemoval ch (⟨nsec3, n.owner, r.1⟩, r.2) false
    | some r2 => diffRrsets ⟨nsec3, n.owner, r.1⟩ r.2 r2 ch

/-- knot_zone_diff_node(), the second loop, src/knot/zone/zone-diff.c:283-305. -/
def diffSecond (g : Ign) (nsec3 : Bool) (n : Node) (ch : Ch) (r : Nat × RRs) : Ch :=
  if r.1 = soa then ch
  else if ignored g r.1 then ch
  else
    match rrsetOf n.rrsets r.1 with
    | none => addAddition ch (⟨nsec3, n.owner, r.1⟩, r.2) false
    | some _ => ch

/-- knot_zone_diff_node(), src/knot/zone/zone-diff.c:216-308; `second` is the other tree. -/
def diffNode (g : Ign) (nsec3 : Bool) (second : Tree) (ch : Ch) (n : Node) : Ch :=
  match getNode second n.owner with
  | none => removeNode g nsec3 n ch
  | some m =>
    if n.rrsets = [] then addNode g nsec3 m ch
    else m.rrsets.foldl (diffSecond g nsec3 n) (n.rrsets.foldl (diffFirst g nsec3 n m) ch)

/-- add_new_nodes(), src/knot/zone/zone-diff.c:311-335; `first` is the first tree. -/
def addNewNode (g : Ign) (nsec3 : Bool) (first : Tree) (ch : Ch) (n : Node) : Ch :=
  match getNode first n.owner with
  | none => addNode g nsec3 n ch
  | some _ => ch

/-- load_trees(), src/knot/zone/zone-diff.c:337-358. -/
def loadTrees (g : Ign) (nsec3 : Bool) (t1 t2 : Tree) (ch : Ch) : Ch :=
  t2.foldl (addNewNode g nsec3 t1) (t1.foldl (diffNode g nsec3 t2) ch)

/-- The SOA of a zone. -/
def soaOf (apex : Name) (z : Zone) : Option RRs :=
  match getNode z.nodes apex with
  | none => none
  | some n => rrsetOf n.rrsets soa

/-- zone_contents_diff(), src/knot/zone/zone-diff.c:360-393: the changeset and the code returned. -/
def zoneDiff (serialOf : Bytes → Nat) (apex : Name) (g : Ign) (z1 z2 : Zone) : Res (Ch × Option Err) :=
  match loadSoas serialOf apex (soaOf apex z1) (soaOf apex z2) Ch.init with
  | .ok ch => .ok (loadTrees g true z1.nsec3 z2.nsec3 (loadTrees g false z1.nodes z2.nodes ch), none)
  | .err .enodiff =>
    let ch := loadTrees g true z1.nsec3 z2.nsec3 (loadTrees g false z1.nodes z2.nodes Ch.init)
    .ok (ch, some (if ch.isEmpty then .enodiff else .esemcheck))
  | .err e => .err e
  | .ub => .ub

end Knot.Diff
