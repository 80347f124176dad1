import Verif.Catalog.Model
/-!
# Model of the interpretation of catalog zones (src/knot/catalog/interpret.c)

A zone, or one half of a changeset, is the list of its nodes in the order of iteration, each with its PTR and TXT records; other
records are left out, names are lists of labels. Only the modes with trees of their own are modelled (a new zone, and a
changeset), where the counterparts of nodes have no records; for the third one, over two versions of the same nodes, see DESIGN.md.
The calls of catalog_update_add() are collected and made afterwards. They are for owners in the zone, so they return no error.
-/
namespace Knot.Catint
open Dname (Name)
open Catalog (Db Upd UType updateAdd delAll)

abbrev Bytes := List UInt8

/-- A node, src/knot/zone/node.h:32-54: the targets of PTR records and the data of TXT records. -/
structure Node where
  owner : Name
  ptr : List Name
  txt : List Bytes
  deriving DecidableEq, Repr

abbrev Zone := List Node

/-- A call of catalog_update_add(), src/knot/catalog/catalog_update.h:92-95, for the catalog zone. -/
structure Call where
  member : Name
  owner : Name
  type : UType
  group : Bytes
  deriving DecidableEq, Repr

/-- zone_contents_find_node(), src/knot/zone/contents.c:246-253; an empty node stands for none. -/
def find (z : Zone) (n : Name) : Node := (z.find? fun x => x.owner = n).getD ⟨n, [], []⟩

/-- CATALOG_ZONES_LABEL, CATALOG_GROUP_LABEL and "version", src/knot/catalog/catalog_db.h, interpret.c:50. -/
def zonesLabel : Bytes := [122, 111, 110, 101, 115]
def groupLabel : Bytes := [103, 114, 111, 117, 112]
def versionLabel : Bytes := [118, 101, 114, 115, 105, 111, 110]

/-- check_zone_version(), src/knot/catalog/interpret.c:44-65; CATALOG_ZONE_VERSION is "2". -/
def checkVersion (z : Zone) (apex : Name) : Bool :=
  (find z (versionLabel :: apex)).txt.any fun r => r.length = 2 ∧ r[1]? = some 50

/-- property_get_member(), src/knot/catalog/interpret.c:100-121: the member and its owner. -/
def propMember (tree complete : Zone) (n : Node) : Option (Name × Name) :=
  let p := n.owner.tail
  let ptr := if (find tree p).ptr = [] then (find complete p).ptr else (find tree p).ptr
  match ptr with
  | [m] => some (m, p)
  | _ => none

/-- cat_update_add_memb(), src/knot/catalog/interpret.c:123-147: the calls, or the error. -/
def addMemb (remove : Bool) (n : Node) : Res (List Call) :=
  match n.ptr with
  | [] => .ok []
  | [m] => .ok [⟨m, n.owner, if remove then .rem else .add, []⟩]
  | _ => .err .error

/-- cat_update_add_grp(), src/knot/catalog/interpret.c:149-191. -/
def addGrp (tree complete : Zone) (remove : Bool) (n : Node) : Res (List Call) :=
  if n.owner.head? ≠ some groupLabel then .ok []
  else match propMember tree complete n with
    | none => .ok []
    | some (m, o) =>
      match n.txt with
      | [] => .ok []
      | r :: _ =>
        if remove then .ok [⟨m, o, .prop, []⟩]
        else match r with
          | [] => .ub
          | l :: g => if r.length ≠ l.toNat + 1 then .err .emalf else .ok [⟨m, o, .prop, g.take l.toNat⟩]

/-- interpret_node(), src/knot/catalog/interpret.c:67-83, with its assertion. -/
def interpretNode (member property : Node → Res (List Call)) (apex : Name) (n : Node) : Res (List Call) :=
  if n.owner.length < apex.length + 2 then .ub
  else if n.owner.length = apex.length + 2 then member n
  else if n.owner.length = apex.length + 3 then property n
  else .ok []

/-- zone_tree_sub_apply() in interpret_zone(): the calls made before the first error, and the error. -/
def loop (f : Node → Res (List Call)) : Zone → Res (List Call × Option Err)
  | [] => .ok ([], none)
  | n :: rest =>
    match f n with
    | .ub => .ub
    | .err e => .ok ([], some e)
    | .ok c => do
      let r ← loop f rest
      .ok (c ++ r.1, r.2)

/-- interpret_zone(), src/knot/catalog/interpret.c:85-98. -/
def interpretZone (member property : Node → Res (List Call)) (tree : Zone) (apex : Name) : Res (List Call × Option Err) :=
  if tree.all fun n => n.owner ≠ zonesLabel :: apex then .ok ([], none)
  else loop (interpretNode member property apex) (tree.filter fun n => zonesLabel :: apex <:+ n.owner ∧ n.owner ≠ zonesLabel :: apex)

/-- catalog_update_from_zone(), src/knot/catalog/interpret.c:193-225, without `zone_diff`: what is called. -/
def fromZone (tree complete : Zone) (apex : Name) (remove : Bool) : Res (List Call × Option Err) :=
  interpretZone (addMemb remove) (addGrp tree complete remove) tree apex

/-- member_verify() and prop_verify(), src/knot/catalog/interpret.c:233-241. -/
def memberVerify (n : Node) : Res (List Call) := if n.ptr.length > 1 then .err .eisrecord else .ok []
def propVerify (_ : Node) : Res (List Call) := .ok []

/-- catalog_zone_verify(), src/knot/catalog/interpret.c:243-256: none is KNOT_EOK. -/
def verify (z : Zone) (apex : Name) : Res (Option Err) :=
  if !checkVersion z apex then .ok (some .ezoneInval)
  else do
    let r ← interpretZone memberVerify propVerify z apex
    .ok r.2

/-- Making the calls. -/
def exec (apex : Name) (check : Option Db) : List Call → Upd → Res Upd
  | [], u => .ok u
  | c :: cs, u => do
    let u ← updateAdd u c.member c.owner apex c.type c.group check
    exec apex check cs u

/-- How a zone changes: a new zone, or a changeset. -/
inductive Change where
  | full
  | incremental (rem add : Zone)

/-- The main part of update_catalog(), src/knot/updates/zone-update.c:748-773. -/
def process (u : Upd) (db : Db) (apex : Name) (new : Zone) : Change → Res (Upd × Option Err)
  | .full => do
    let u ← delAll u apex db
    let r ← fromZone new new apex false
    let u ← exec apex none r.1 u
    .ok (u, r.2)
  | .incremental rem add => do
    let r ← fromZone rem new apex true
    let u ← exec apex (some db) r.1 u
    if r.2 ≠ none then .ok (u, r.2)
    else do
      let s ← fromZone add new apex false
      let u ← exec apex none s.1 u
      .ok (u, s.2)

/-- update_catalog(), src/knot/updates/zone-update.c:735-789: the pending update afterwards, and the error. -/
def updateCatalog (u : Upd) (db : Db) (apex : Name) (new : Zone) (ch : Change) : Res (Upd × Option Err) := do
  let v ← verify new apex
  if v ≠ none then .ok (u, v)
  else do
    let r ← process u db apex new ch
    if r.2 ≠ none then do
      let u ← delAll r.1 apex db
      .ok (u, r.2)
    else .ok r

end Knot.Catint
