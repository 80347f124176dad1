import Verif.Dname.LemmasText
/-!
# Model of updates of the catalog (src/knot/catalog/catalog_update.c, catalog_db.c)

Names are label lists: the operations on names used here (equality, bailiwick, counting labels,
lookup format) are those of C04 and C05 on wire format. The pending update is the list of entries
of its trie, the catalog database is the list of its records (C12 and C41 justify both as maps);
the order of the entries is the order of iteration. Database transactions succeed.
-/
namespace Knot.Catalog
open Dname

/-- A record of the catalog database, src/knot/catalog/catalog_db.c:187-188: the owner of the PTR
record, the catalog zone and the group. -/
structure Rec where
  owner : Name
  catz : Name
  group : List UInt8
  deriving DecidableEq, Repr

/-- The records by member. -/
abbrev Db := List (Name × Rec)

/-- catalog_add(), src/knot/catalog/catalog_db.c:174-193: an existing record is overwritten. -/
def dbAdd (db : Db) (m : Name) (r : Rec) : Db := (m, r) :: db.filter (fun p => p.1 ≠ m)

/-- catalog_del(), src/knot/catalog/catalog_db.c:195-204. -/
def dbDel (db : Db) (m : Name) : Db := db.filter (fun p => p.1 ≠ m)

/-- catalog_has_member(), src/knot/catalog/catalog_db.c:243-251. -/
def hasMember (db : Db) (m : Name) : Bool := (db.lookup m).isSome

/-- catalog_contains_exact(), src/knot/catalog/catalog_db.c:253-266. -/
def containsExact (db : Db) (m owner catz : Name) : Bool :=
  match db.lookup m with
  | some r => decide (owner = r.owner ∧ catz = r.catz)
  | none => false

/-- `catalog_upd_type_t`, src/knot/catalog/catalog_update.h:25-33. -/
inductive UType where
  | invalid | add | rem | minor | uniq | prop
  deriving DecidableEq, Repr

/-- `catalog_upd_val_t`, src/knot/catalog/catalog_update.h:35-45; the owner and the catalog zone to
be removed or added are set together, `none` is NULL. -/
structure Val where
  member : Name
  type : UType
  rem : Option (Name × Name)
  add : Option (Name × Name)
  newGroup : Option (List UInt8)
  deriving DecidableEq, Repr

/-- The entries of the trie `upd`, src/knot/catalog/catalog_update.h:47-51. -/
abbrev Upd := List (List UInt8 × Val)

/-- Replacing the value of a key. -/
def Upd.put (u : Upd) (k : List UInt8) (v : Val) : Upd := u.map (fun p => if p.1 = k then (k, v) else p)

/-- Removing a key. -/
def Upd.del (u : Upd) (k : List UInt8) : Upd := u.filter (fun p => p.1 ≠ k)

/-- The key of a member: knot_dname_lf() without its length octet, see `Dname.lf_wire`. -/
def key (m : Name) : List UInt8 := lfBody m

/-- A C string: the group ends at a zero octet (strndup()). -/
def cstr (g : List UInt8) : List UInt8 := g.takeWhile (fun c => c ≠ 0)

/-- upd_val_new(), src/knot/catalog/catalog_update.c:89-120. -/
def valNew (member owner catz : Name) (type : UType) : Val :=
  if type = .rem then ⟨member, type, some (owner, catz), none, none⟩
  else ⟨member, type, none, some (owner, catz), none⟩

/-- upd_val_equal(), src/knot/catalog/catalog_update.c:123-127; a NULL name equals none. -/
def valEqual (v : Val) (catz owner : Name) : Bool := decide (v.add = some (owner, catz))

/-- get_uniq(), src/knot/catalog/catalog_update.c:129-136, the label it points to. -/
def getUniq (owner catz : Name) : Res Label :=
  if owner.length < catz.length + 2 then .ub
  else match owner[owner.length - catz.length - 2]? with
    | some l => .ok l
    | none => .ub

/-- same_uniq(), src/knot/catalog/catalog_update.c:138-146. -/
def sameUniq (owner1 catz1 owner2 catz2 : Name) : Res Bool := do
  let u1 ← getUniq owner1 catz1
  let u2 ← getUniq owner2 catz2
  .ok (decide (u1 = u2))

/-- upd_val_set_prop(), src/knot/catalog/catalog_update.c:148-164. -/
def setProp (v : Val) (check : Option (Name × Name)) (group : List UInt8) : Val :=
  match check with
  | some (ow, cz) =>
    if v.type = .rem ∨ v.add ≠ some (ow, cz) then v
    else { v with newGroup := some (cstr group) }
  | none => { v with newGroup := some (cstr group) }

/-- The part of catalog_update_add() for a member that is already in the update,
src/knot/catalog/catalog_update.c:184-221. -/
def updateFound (u : Upd) (val : Val) (member owner catz : Name) (type : UType) (group : List UInt8) :
    Res Upd :=
  if val.member ≠ member then .ub
  else if type = .rem then
    if val.type = .rem then .ok u
    else if ¬ valEqual val catz owner then .ok u
    else if val.type = .add then .ok (u.del (key member))
    else .ok (u.put (key member) { val with type := .rem })
  else if type = .prop then .ok (u.put (key member) (setProp val (some (owner, catz)) group))
  else if val.type ≠ .rem then .ok u
  else match val.rem with
    | none => .ub
    | some (ro, rc) => do
      let same ← sameUniq ro rc owner catz
      .ok (u.put (key member) { val with add := some (owner, catz), type := if same then .minor else .uniq })

/-- The part for a member that is not in the update, src/knot/catalog/catalog_update.c:223-252. -/
def updateNew (u : Upd) (member owner catz : Name) (type : UType) (group : List UInt8)
    (check : Option Db) : Res Upd :=
  if (type = .rem ∨ type = .prop) ∧ check.any (fun db => !containsExact db member owner catz) then .ok u
  else if type = .add ∧ check.any (fun db => hasMember db member) then .ok u
  else
    let val := valNew member owner catz type
    let val := if group.length > 0 then setProp val none group else val
    .ok ((key member, val) :: u)

/-- catalog_update_add(), src/knot/catalog/catalog_update.c:166-253; catalog_bailiwick_shift(),
src/knot/catalog/catalog_db.c:40-50, succeeds if the owner is in the catalog zone. -/
def updateAdd (u : Upd) (member owner catz : Name) (type : UType) (group : List UInt8)
    (check : Option Db) : Res Upd :=
  if type ≠ .rem ∧ type ≠ .prop ∧ type ≠ .add then .ub
  else if ¬ catz <:+ owner then .err .eoutofzone
  else match u.lookup (key member) with
    | some val => updateFound u val member owner catz type group
    | none => updateNew u member owner catz type group check

/-- check_member(), src/knot/catalog/catalog_update.c:264-284; `conf` are the configured zones. -/
def checkMember (v : Val) (conf : Name → Bool) (db : Db) : Res Bool :=
  if v.type = .rem ∨ v.type = .invalid ∨ v.type = .prop then .ok true
  else match v.add with
    | none => .ub
    | some (_, catz) =>
      if ¬ conf catz then .ok false
      else if conf v.member then .ok false
      else if v.type = .add ∧ hasMember db v.member then .ok false
      else .ok true

/-- The first loop of catalog_update_finalize(), src/knot/catalog/catalog_update.c:304-312. -/
def checkAll (conf : Name → Bool) (db : Db) : Upd → Res Upd
  | [] => .ok []
  | (k, v) :: u => do
    let ok ← checkMember v conf db
    let r ← checkAll conf db u
    .ok ((k, if ok then v else { v with type := if v.type = .add then .invalid else .rem }) :: r)

/-- The second loop, src/knot/catalog/catalog_update.c:314-319, with rem_conf_conflict(),
lines 291-300. -/
def remConf (conf : Name → Bool) (u : Upd) : Db → Res Upd
  | [] => .ok u
  | (m, r) :: db =>
    if conf m then do
      let u ← updateAdd u m r.owner r.catz .rem [] none
      remConf conf u db
    else remConf conf u db

/-- catalog_update_finalize(), src/knot/catalog/catalog_update.c:302-320 (the database is open). -/
def finalize (u : Upd) (db : Db) (conf : Name → Bool) : Res Upd := do
  let u ← checkAll conf db u
  remConf conf u db

/-- One round of the loop of catalog_update_commit(), src/knot/catalog/catalog_update.c:331-349. -/
def commitOne (db : Db) (v : Val) : Res Db :=
  match v.type with
  | .add | .minor | .uniq | .prop =>
    match v.add with
    | none => .ub
    | some (owner, catz) =>
      if catz <:+ owner then .ok (dbAdd db v.member ⟨owner, catz, v.newGroup.getD []⟩)
      else .err .eoutofzone
  | .rem => .ok (dbDel db v.member)
  | .invalid => .ok db

/-- catalog_update_commit(), src/knot/catalog/catalog_update.c:322-358; the transaction is aborted
on error. -/
def commit (db : Db) : Upd → Res Db
  | [] => .ok db
  | (_, v) :: u => do
    let db ← commitOne db v
    commit db u

/-- catalog_update_del_all(), src/knot/catalog/catalog_update.c:377-386, with del_all_cb(), lines
365-375. -/
def delAll (u : Upd) (zone : Name) : Db → Res Upd
  | [] => .ok u
  | (m, r) :: db =>
    if r.catz = zone then do
      let u ← updateAdd u m r.owner r.catz .rem [] none
      delAll u zone db
    else delAll u zone db

end Knot.Catalog
