import Verif.Changeset.Model
import Verif.Serial.Model
/-!
# Model of dynamic updates (src/knot/updates/ddns.c)

Names are lists of labels in lower case, the leftmost label first. The zone is updated through the
update of the changeset model (UPDATE_INCREMENTAL, not strict); the changeset that model keeps is not
used here (UPDATE_NO_CHSET). The node of a name exists in the ordinary tree if there are RRsets at the
name or below it, or if it is the apex. `serialOf` is knot_soa_serial().
-/
namespace Knot.Ddns
open Knot.Dname (Name)
open Knot.Changeset (Key RRs RRset Contents Update lookup zuAdd zuRemove soa rrsig soaKey)

abbrev Bytes := List UInt8

/-! KNOT_CLASS_*, KNOT_RRTYPE_* and KNOT_RCODE_*, src/libknot/descriptor.h:40-45, 53-170,
src/libknot/consts.h:75-96. -/
abbrev classIn : Nat := 1
abbrev classNone : Nat := 254
abbrev classAny : Nat := 255
abbrev typeAny : Nat := 255
abbrev ns : Nat := 2
abbrev cname : Nat := 5
abbrev dname : Nat := 39
abbrev nsec3param : Nat := 51
abbrev formerr : Nat := 1
abbrev servfail : Nat := 2
abbrev nxdomain : Nat := 3
abbrev refused : Nat := 5
abbrev yxdomain : Nat := 6
abbrev yxrrset : Nat := 7
abbrev nxrrset : Nat := 8
abbrev notzone : Nat := 10

/-- A record of the prerequisite or the update section. -/
structure Rec where
  owner : Name
  type : Nat
  cls : Nat
  ttl : Nat
  data : Bytes
  deriving DecidableEq, Repr

/-- knot_rrset_is_nsec3rel(), src/libknot/rrset.c:127-137. -/
def nsec3rel (type : Nat) (data : Bytes) : Bool :=
  decide (type = 50) || (decide (type = rrsig) &&
    match data with
    | a :: b :: _ => decide (a.toNat * 256 + b.toNat = 50)
    | _ => false)

/-- The record as an RRset. -/
def Rec.rr (r : Rec) : RRset := (⟨nsec3rel r.type r.data, r.owner, r.type⟩, ⟨r.ttl, [r.data]⟩)

/-- knot_dname_in_bailiwick() >= 0, src/libknot/dname.c:793-810. -/
def inZone (apex o : Name) : Bool := apex.isSuffixOf o

/-! ## Nodes -/

/-- get_node(), src/knot/zone/contents.c:92-98: the node exists. -/
def hasNode (apex : Name) (z : Contents) (o : Name) : Bool :=
  decide (o = apex) || z.any (fun rr => !rr.1.nsec3 && o.isSuffixOf rr.1.owner)

/-- get_nsec3_node(), src/knot/zone/contents.c:100-107, with the empty
nodes zone_tree_add_node() makes, src/knot/zone/zone-tree.c:221-257. -/
def hasNsec3 (z : Contents) (o : Name) : Bool :=
  z.any (fun rr => rr.1.nsec3 && o.isSuffixOf rr.1.owner)

/-- zone_contents_node_or_nsec3(), src/knot/zone/contents.c:255-266: there is a node. -/
def isNode (apex : Name) (z : Contents) (o : Name) : Bool := hasNode apex z o || hasNsec3 z o

/-- The same function: which tree the node is from. -/
def treeOf (apex : Name) (z : Contents) (o : Name) : Bool := !hasNode apex z o

/-- node_rrset() of that node, src/knot/zone/node.h:369-384. -/
def nodeRR (apex : Name) (z : Contents) (o : Name) (type : Nat) : Option RRs :=
  lookup z ⟨treeOf apex z o, o, type⟩

/-- The RRsets of that node. -/
def nodeRRsets (apex : Name) (z : Contents) (o : Name) : List RRset :=
  z.filter (fun rr => decide (rr.1.nsec3 = treeOf apex z o ∧ rr.1.owner = o))

/-! ## Prerequisites -/

/-- add_rr_to_list(), src/knot/updates/ddns.c:38-55. -/
def addToList : List (Name × Nat × List Bytes) → Rec → List (Name × Nat × List Bytes)
  | [], r => [(r.owner, r.type, [r.data])]
  | (o, t, d) :: l, r =>
    if t = r.type ∧ o = r.owner then (o, t, Changeset.insertRd r.data d) :: l
    else (o, t, d) :: addToList l r

/-- check_rrset_exists(), src/knot/updates/ddns.c:57-77: 0 or the RCODE. -/
def checkExists (apex : Name) (z : Contents) (e : Name × Nat × List Bytes) : Res Nat :=
  if e.2.1 = typeAny then .ub
  else
    match nodeRR apex z e.1 e.2.1 with
    | none => .ok nxrrset
    | some d => .ok (if d.data = e.2.2 then 0 else nxrrset)

/-- check_stored_rrsets(), src/knot/updates/ddns.c:79-94. -/
def checkStored (apex : Name) (z : Contents) : List (Name × Nat × List Bytes) → Res Nat
  | [] => .ok 0
  | e :: l => do
    let c ← checkExists apex z e
    if c ≠ 0 then .ok c else checkStored apex z l

/-- process_prereq(), src/knot/updates/ddns.c:173-219, with check_in_use(), check_not_in_use(),
check_type_exist() and check_type_not_exist(), src/knot/updates/ddns.c:96-158: the new list, or the
RCODE. -/
def processPrereq (apex : Name) (z : Contents) (qclass : Nat) (l : List (Name × Nat × List Bytes)) (r : Rec) :
    Except Nat (List (Name × Nat × List Bytes)) :=
  if r.ttl ≠ 0 then .error formerr
  else if ¬ inZone apex r.owner then .error notzone
  else if r.cls = classAny then
    if r.data ≠ [] then .error formerr
    else if r.type = typeAny then
      if nodeRRsets apex z r.owner = [] then .error nxdomain else .ok l
    else if (nodeRR apex z r.owner r.type).isSome then .ok l else .error nxrrset
  else if r.cls = classNone then
    if r.data ≠ [] then .error formerr
    else if r.type = typeAny then
      if nodeRRsets apex z r.owner = [] then .ok l else .error yxdomain
    else if (nodeRR apex z r.owner r.type).isSome then .error yxrrset else .ok l
  else if r.cls = qclass then .ok (addToList l r)
  else .error formerr

/-- ddns_process_prereqs(), src/knot/updates/ddns.c:632-659, from a record on. -/
def prereqsFrom (apex : Name) (z : Contents) (qclass : Nat) :
    List (Name × Nat × List Bytes) → List Rec → Res Nat
  | l, [] => checkStored apex z l
  | l, r :: rs =>
    match processPrereq apex z qclass l r with
    | .error c => .ok c
    | .ok l => prereqsFrom apex z qclass l rs

/-- ddns_process_prereqs(): 0 or the RCODE. -/
def processPrereqs (apex : Name) (z : Contents) (qclass : Nat) (rs : List Rec) : Res Nat :=
  prereqsFrom apex z qclass [] rs

/-! ## Checking the update section -/

/-- knot_rrtype_is_metatype(), src/libknot/descriptor.c:330-340. -/
def isMeta (t : Nat) : Bool :=
  decide (t = 24 ∨ t = 41 ∨ t = 128 ∨ t = 249 ∨ t = 250 ∨ t = 251 ∨ t = 252 ∨ t = 255)

/-- check_update(), src/knot/updates/ddns.c:555-604: 0 or the RCODE. -/
def checkUpdate (apex : Name) (z : Contents) (qclass : Nat) (r : Rec) : Nat :=
  if ¬ inZone apex r.owner then notzone
  else if r.type = nsec3param ∧ r.owner ≠ apex then refused
  else if r.type = nsec3param ∧ (lookup z ⟨false, apex, nsec3param⟩).isSome then refused
  else if r.cls = qclass then (if isMeta r.type then formerr else 0)
  else if r.cls = classAny then
    (if r.data ≠ [] ∨ (isMeta r.type ∧ r.type ≠ typeAny) then formerr else 0)
  else if r.cls = classNone then (if r.ttl ≠ 0 ∨ isMeta r.type then formerr else 0)
  else formerr

/-- ddns_precheck_update(), src/knot/updates/ddns.c:661-680. -/
def precheck (apex : Name) (z : Contents) (qclass : Nat) : List Rec → Nat
  | [] => 0
  | r :: rs => if checkUpdate apex z qclass r ≠ 0 then checkUpdate apex z qclass r else precheck apex z qclass rs

/-! ## The update section -/

/-- A DNAME at a proper ancestor in the ordinary tree, the last loop of adding_to_cname(),
src/knot/updates/ddns.c:296-302. -/
def dnameAbove (apex : Name) (z : Contents) : Name → Bool
  | [] => false
  | l :: o => if l :: o = apex then false else (lookup z ⟨false, o, dname⟩).isSome || dnameAbove apex z o

/-- A DNAME at the closest ancestor with a node or above it, adding_to_cname() for a name without a
node, src/knot/updates/ddns.c:274-287. All nodes above one of the NSEC3 tree are of that tree, except
the apex; they have no DNAME. -/
def dnameUp (apex : Name) (z : Contents) : Name → Bool
  | [] => false
  | l :: o =>
    if l :: o = apex then false
    else if hasNode apex z o then (lookup z ⟨false, o, dname⟩).isSome || dnameAbove apex z o
    else if hasNsec3 z o then (lookup z ⟨false, apex, dname⟩).isSome
    else dnameUp apex z o

/-- adding_to_cname(), src/knot/updates/ddns.c:267-305. -/
def addingToCname (apex : Name) (z : Contents) (o : Name) : Bool :=
  if ¬ isNode apex z o then dnameUp apex z o
  else if (nodeRR apex z o cname).isSome then true
  else if hasNode apex z o then dnameAbove apex z o
  else (lookup z ⟨false, apex, dname⟩).isSome

/-- skip_soa(), src/knot/updates/ddns.c:307-317. -/
def skipSoa (serialOf : Bytes → Nat) (sn : Nat) (r : Rec) : Res Bool :=
  if r.type ≠ soa then .ok false
  else if r.cls = classNone ∨ r.cls = classAny then .ok true
  else do
    let c ← Serial.serialCompare (serialOf r.data) sn
    .ok (decide (c ≠ .greater))

/-- zone_update_remove_rrset(), src/knot/updates/zone-update.c:568-585. -/
def removeRrset (u : Update) (o : Name) (type : Nat) : Res Update :=
  if ¬ isNode u.apex u.zone o then .err .enonode
  else
    match nodeRR u.apex u.zone o type with
    | none => .err .enoent
    | some d => zuRemove u (⟨treeOf u.apex u.zone o, o, type⟩, d)

/-- add_rr_to_changeset() with singleton_replaced() and should_replace(), src/knot/updates/ddns.c:
246-252, 319-337. -/
def addRec (u : Update) (r : Rec) : Res Update :=
  if r.type = cname ∨ r.type = dname ∨ r.type = nsec3param then
    match removeRrset u r.owner r.type with
    | .ok u' => .ok u'
    | .err _ => zuAdd u r.rr
    | .ub => .ub
  else zuAdd u r.rr

/-- subtree_empty(), src/knot/updates/ddns.c:339-351. -/
def subtreeEmpty (apex : Name) (z : Contents) (o : Name) : Bool :=
  !isNode apex z o || z.all (fun rr => rr.1.nsec3 || decide (rr.1.owner = o) || !o.isSuffixOf rr.1.owner)

/-- process_add_cname(), src/knot/updates/ddns.c:353-391. -/
def processAddCname (u : Update) (r : Rec) : Res Update :=
  match nodeRR u.apex u.zone r.owner r.type with
  | some d =>
    if d.ttl = r.ttl ∧ d.data = [r.data] then .ok u
    else do
      let u ← zuRemove u (⟨treeOf u.apex u.zone r.owner, r.owner, r.type⟩, d)
      addRec u r
  | none =>
    if r.type = cname ∧ nodeRRsets u.apex u.zone r.owner ≠ [] then .ok u
    else if r.type = dname ∧ ¬ subtreeEmpty u.apex u.zone r.owner then .ok u
    else if r.type = dname ∧ (nodeRR u.apex u.zone r.owner cname).isSome then .ok u
    else if r.type = cname ∧ addingToCname u.apex u.zone r.owner then .ok u
    else addRec u r

/-- process_add_soa(), src/knot/updates/ddns.c:393-413. -/
def processAddSoa (u : Update) (r : Rec) : Res Update :=
  match nodeRR u.apex u.zone r.owner soa with
  | none => .ok u
  | some d => if d.ttl = r.ttl ∧ d.data = [r.data] then .ok u else addRec u r

/-- node_contains_rr(), src/knot/updates/ddns.c:254-265. -/
def nodeHas (apex : Name) (z : Contents) (r : Rec) : Bool :=
  match nodeRR apex z r.owner r.type with
  | some d => decide (r.data ∈ d.data)
  | none => false

/-- process_add_normal(), src/knot/updates/ddns.c:415-431. -/
def processAddNormal (u : Update) (r : Rec) : Res Update :=
  if addingToCname u.apex u.zone r.owner then .ok u
  else if nodeHas u.apex u.zone r then .ok u
  else addRec u r

/-- process_add(), src/knot/updates/ddns.c:433-447. -/
def processAdd (u : Update) (r : Rec) : Res Update :=
  if r.type = cname ∨ r.type = dname then processAddCname u r
  else if r.type = soa then processAddSoa u r
  else processAddNormal u r

/-- The node has an SOA. -/
def isApex (u : Update) (o : Name) : Bool := (nodeRR u.apex u.zone o soa).isSome

/-- process_rem_rr(), src/knot/updates/ddns.c:449-490. -/
def processRemRr (u : Update) (r : Rec) : Res Update :=
  match nodeRR u.apex u.zone r.owner r.type with
  | none => .ok u
  | some d =>
    if isApex u r.owner ∧ r.type = ns ∧ d.data.length = 1 then .ok u
    else if r.data ∈ d.data then
      zuRemove u (⟨nsec3rel r.type r.data, r.owner, r.type⟩, ⟨d.ttl, [r.data]⟩)
    else .ok u

/-- process_rem_rrset(), src/knot/updates/ddns.c:492-516. -/
def processRemRrset (u : Update) (o : Name) (type : Nat) : Res Update :=
  if isApex u o ∧ type = ns then .ok u
  else
    match nodeRR u.apex u.zone o type with
    | none => .ok u
    | some d => zuRemove u (⟨treeOf u.apex u.zone o, o, type⟩, d)

/-- The loop of process_rem_node(), src/knot/updates/ddns.c:526-534. The node stays the one found at
the beginning, although it may be deleted with its last RRset. -/
def remTypes (tree : Bool) (o : Name) : Update → List Nat → Res Update
  | u, [] => .ok u
  | u, t :: ts =>
    if (lookup u.zone ⟨tree, o, soa⟩).isSome ∧ t = ns then remTypes tree o u ts
    else
      match lookup u.zone ⟨tree, o, t⟩ with
      | none => remTypes tree o u ts
      | some d => do
        let u ← zuRemove u (⟨tree, o, t⟩, d)
        remTypes tree o u ts

/-- process_rem_node(), src/knot/updates/ddns.c:518-537; the RRsets are taken from the last one. -/
def processRemNode (u : Update) (o : Name) : Res Update :=
  remTypes (treeOf u.apex u.zone o) o u ((nodeRRsets u.apex u.zone o).map (·.1.type)).reverse

/-- process_rr() and process_remove(), src/knot/updates/ddns.c:606-618, 539-553. -/
def processRr (u : Update) (r : Rec) : Res Update :=
  if r.cls = classIn then processAdd u r
  else if r.cls = classNone then processRemRr u r
  else if r.cls = classAny then
    if r.type ≠ typeAny then processRemRrset u r.owner r.type else processRemNode u r.owner
  else .err .emalf

/-- ddns_process_update(), src/knot/updates/ddns.c:682-712. `sn` is the serial of the zone before the
update. -/
def processUpdate (serialOf : Bytes → Nat) (sn : Nat) : Update → List Rec → Res Update
  | u, [] => .ok u
  | u, r :: rs => do
    let skip ← skipSoa serialOf sn r
    let u ← (if skip then .ok u else processRr u r)
    processUpdate serialOf sn u rs

/-- A message. -/
structure Msg where
  qclass : Nat
  prereqs : List Rec
  updates : List Rec

/-- process_bulk(), src/knot/events/handlers/update.c:84-168: the update and the RCODEs. -/
def processBulk (serialOf : Bytes → Nat) (sn : Nat) : Update → List Msg → Res (Update × List Nat)
  | u, [] => .ok (u, [])
  | u, m :: ms => do
    let c ← processPrereqs u.apex u.zone m.qclass m.prereqs
    let c := if c ≠ 0 then c else precheck u.apex u.zone m.qclass m.updates
    if c ≠ 0 then
      let (u, cs) ← processBulk serialOf sn u ms
      .ok (u, c :: cs)
    else
      let u ← processUpdate serialOf sn u m.updates
      let (u, cs) ← processBulk serialOf sn u ms
      .ok (u, 0 :: cs)

end Knot.Ddns
