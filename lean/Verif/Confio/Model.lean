import Verif.Prelude
/-!
# Dynamic configuration of zones: transactions, change tracking, reload

Model of the configuration transactions of the control interface, of the
tracking of changed zones, of the check before the commit, and of the reload of
the zone database after it.

Source: src/knot/conf/confio.c (conf_io_begin, conf_io_commit, conf_io_abort,
conf_io_set, conf_io_unset, upd_changes, conf_io_check, conf_io_diff),
src/knot/ctl/commands.c (ctl_conf_txn, ctl_conf_modify),
src/knot/server/server.c (server_reload), src/knot/zone/zonedb-load.c
(zonedb_reload, mark_changed_zones, create_zonedb, remove_old_zonedb).

Simplifications. The configuration database is a map from zone names to their
own settings (sections other than `zone` only count through the flags their
items carry). A setting is a list of values. Catalog updates in progress are
not modelled: member zones are a fixed set of names of the zone database. The
contents of zones and their events are not modelled, only the zone objects: an
object is identified by its name and by the number of the reload that created
it. Memory exhaustion is not modelled.
-/
namespace Knot.Confio

/-- A zone name. -/
abbrev Name := Nat
/-- An item of the zone section (`file`, `master`, …). -/
abbrev Item := Nat
/-- A value of an item. -/
abbrev Val := Nat
/-- The settings of one zone; no value: not set. -/
abbrev ZCfg := Item → List Val

/-- The flags of the items of the zone section.
Source: src/knot/conf/schema.c:464-524 — `rld`: CONF_IO_FRLD_ZONE (a change needs
a reload of the zone), `rldAll`: CONF_IO_FRLD_ZONES (… of all zones), `multi`:
YP_FMULTI (more values). -/
structure Schema where
  rld : Item → Bool
  rldAll : Item → Bool
  multi : Item → Bool

/-- The zone section of a configuration database: the identifiers present and
the settings of each (of no meaning for other names). -/
structure Conf where
  names : List Name
  cfg : Name → ZCfg

/-- No settings. -/
def noCfg : ZCfg := fun _ => []

/-- The settings of a configured zone.
Source: src/knot/conf/confdb.c:625-716 (conf_db_get) -/
def Conf.get (c : Conf) (z : Name) : Option ZCfg :=
  if z ∈ c.names then some (c.cfg z) else none

/-- What happened to a zone in the transaction.
Source: src/knot/conf/confio.h:22-28 (conf_io_type_t: TSET, TUNSET, TCHANGE, TRELOAD) -/
structure Typ where
  set : Bool := false
  unset : Bool := false
  change : Bool := false
  reload : Bool := false
  deriving DecidableEq, Repr

/-- Flags of the transaction.
Source: src/knot/conf/conf.h:25-37 (CONF_IO_FRLD_ZONE, CONF_IO_FRLD_ZONES,
CONF_IO_FCHECK_ZONES, CONF_IO_FDIFF_ZONES; the flags that only concern the
server, the log and global modules are left out) -/
structure Flags where
  rldZone : Bool := false
  rldZones : Bool := false
  check : Bool := false
  diff : Bool := false
  deriving DecidableEq, Repr

/-- The changed zones (a trie in the source). -/
abbrev Trie := List (Name × Typ)

/-- trie_get_try. Source: src/contrib/qp-trie/trie.c (used at confio.c:933) -/
def Trie.get (t : Trie) (z : Name) : Option Typ := (t.find? (fun p => p.1 == z)).map (·.2)

/-- trie_del. Source: used at src/knot/conf/confio.c:951 -/
def Trie.del (t : Trie) (z : Name) : Trie := t.filter (fun p => p.1 != z)

/-- trie_get_ins and the store through the returned pointer.
Source: used at src/knot/conf/confio.c:933-963 -/
def Trie.put (t : Trie) (z : Name) (v : Typ) : Trie := (z, v) :: t.del z

/-- The open transaction: the state of the database in it, the flags and the
changed zones. -/
structure Txn where
  conf : Conf
  flags : Flags
  trie : Trie

/-- One unit of a `conf-set` or `conf-unset` command.
Source: src/knot/ctl/commands.c:2300-2315 -/
inductive Op where
  /-- `conf-set zone[z]` -/
  | addZone (z : Name)
  /-- `conf-unset zone[z]` -/
  | delZone (z : Name)
  /-- `conf-set zone[z].i v` -/
  | setItem (z : Name) (i : Item) (v : Val)
  /-- `conf-unset zone[z].i [v]` -/
  | unsetItem (z : Name) (i : Item) (v : Option Val)
  /-- `conf-unset zone` -/
  | delZones
  /-- `conf-set zone.i v` (every zone) -/
  | setAll (i : Item) (v : Val)
  /-- `conf-unset zone.i [v]` (every zone) -/
  | unsetAll (i : Item) (v : Option Val)
  /-- `conf-set include file`, `conf-set clear pattern`: the section is then as given -/
  | bulk (c : Conf)
  /-- a change of another section that needs no reload of zones -/
  | plain
  /-- … that needs a reload of all zones -/
  | zones
  /-- … that needs also a check of all zones: a module; a removed reference -/
  | refs
  /-- a unit that is refused (unknown item, bad data, failed callback, …) -/
  | bad

/-- Outcome of a unit: done, refused, or a failed assertion. -/
inductive Out (α : Type) where
  | ok (a : α)
  | refused
  | abort

/-- The values of an item after one more was set.
Source: src/knot/conf/confdb.c:298-363 (db_set) -/
def setVal (multi : Bool) (l : List Val) (v : Val) : List Val :=
  if multi then (if v ∈ l then l else l ++ [v]) else [v]

/-- The values of an item after one (or all) was unset; `none`: it is not there.
Source: src/knot/conf/confdb.c:456-530 (db_unset) -/
def unsetVal (l : List Val) (v : Option Val) : Option (List Val) :=
  match v with
  | none => if l = [] then none else some []
  | some x => if x ∈ l then some (l.erase x) else none

/-- One item of the settings replaced. -/
def ZCfg.upd (g : ZCfg) (i : Item) (l : List Val) : ZCfg := fun j => if j = i then l else g j

/-- The settings of one zone replaced. -/
def Conf.upd (c : Conf) (z : Name) (g : ZCfg) : Conf :=
  { c with cfg := fun y => if y = z then g else c.cfg y }

/-- One item of every zone changed. -/
def Conf.all (c : Conf) (i : Item) (f : List Val → List Val) : Conf :=
  { c with cfg := fun z => (c.cfg z).upd i (f (c.cfg z i)) }

/-- Change tracking for one zone, the tail of `upd_changes`.
Source: src/knot/conf/confio.c:922-968 (the assertion is at 943) -/
def track (t : Trie) (z : Name) (kind : Typ) (rld : Bool) : Out Trie :=
  let cur := (t.get z).getD {}
  if kind.set then
    if cur.unset then .ok (t.put z { cur with unset := false })
    else if cur = {} then .ok (t.put z { set := true })
    else .abort
  else if kind.unset then
    if cur.set then .ok (t.del z) else .ok (t.put z { cur with unset := true })
  else .ok (t.put z { cur with change := true, reload := cur.reload || rld })

/-- `upd_changes` for a change of one zone: flags, then tracking.
Source: src/knot/conf/confio.c:881-968 -/
def updOne (s : Txn) (c : Conf) (z : Name) (kind : Typ) (rld rldAll : Bool) : Out Txn :=
  match track s.trie z kind rld with
  | .ok t =>
    .ok { conf := c, trie := t,
          flags := { s.flags with
            rldZone := s.flags.rldZone || rld, rldZones := s.flags.rldZones || rldAll } }
  | .refused => .refused
  | .abort => .abort

/-- `upd_changes` for a change of every zone (`any_id`).
Source: src/knot/conf/confio.c:887-920 -/
def updAny (s : Txn) (c : Conf) (rld rldAll : Bool) : Txn :=
  { conf := c, trie := s.trie
    flags := { rldZone := s.flags.rldZone || rld
               rldZones := s.flags.rldZones || rldAll || rld
               check := true, diff := true } }

/-- One unit of a modifying command. In `unsetAll` an item that is not there is
no error; without any zone the commands for every zone do nothing.
Source: src/knot/conf/confio.c:1009-1137 (conf_io_set), 1139-1391 (conf_io_unset),
src/knot/conf/confdb.c:365-454 (conf_db_set), 532-623 (conf_db_unset) -/
def step (S : Schema) (s : Txn) : Op → Out Txn
  | .addZone z =>
    if z ∈ s.conf.names then .refused
    else updOne s { names := z :: s.conf.names, cfg := (s.conf.upd z noCfg).cfg } z
           { set := true } true false
  | .delZone z =>
    if z ∈ s.conf.names then
      updOne s { names := s.conf.names.filter (· != z), cfg := (s.conf.upd z noCfg).cfg } z
        { unset := true } true false
    else .refused
  | .setItem z i v =>
    if z ∈ s.conf.names then
      updOne s (s.conf.upd z ((s.conf.cfg z).upd i (setVal (S.multi i) (s.conf.cfg z i) v))) z
        { change := true } (S.rld i) (S.rldAll i)
    else .refused
  | .unsetItem z i v =>
    if z ∈ s.conf.names then
      match unsetVal (s.conf.cfg z i) v with
      | none => .refused
      | some l =>
        updOne s (s.conf.upd z ((s.conf.cfg z).upd i l)) z
          { change := true } (S.rld i) (S.rldAll i)
    else .refused
  | .delZones =>
    if s.conf.names = [] then .ok s
    else .ok (updAny s { names := [], cfg := fun _ => noCfg } true false)
  | .setAll i v =>
    if s.conf.names = [] then .ok s
    else .ok (updAny s (s.conf.all i (fun l => setVal (S.multi i) l v)) (S.rld i) (S.rldAll i))
  | .unsetAll i v =>
    if s.conf.names = [] then .ok s
    else .ok (updAny s (s.conf.all i (fun l => (unsetVal l v).getD l)) (S.rld i) (S.rldAll i))
  | .bulk c =>
    .ok { conf := c, trie := s.trie, flags := { s.flags with diff := true, rldZones := true } }
  | .plain => .ok s
  | .zones => .ok { s with flags := { s.flags with rldZones := true } }
  | .refs => .ok { s with flags := { s.flags with check := true, rldZones := true } }
  | .bad => .refused

/-- The units of one command up to the first refused one; the flag says whether
all were done, `none` is a failed assertion. Source: src/knot/ctl/commands.c:2300-2328 -/
def units (S : Schema) (s : Txn) : List Op → Option (Txn × Bool)
  | [] => some (s, true)
  | o :: os =>
    match step S s o with
    | .ok s' => units S s' os
    | .refused => some (s, false)
    | .abort => none

/-- A `conf-set` or `conf-unset` command: a child transaction, committed if all
units were done and aborted otherwise; an abort restores the database, not the
flags and the changed zones.
Source: src/knot/ctl/commands.c:2291-2342 (ctl_conf_modify),
src/knot/conf/confio.c:100-143 (conf_io_commit, conf_io_abort) -/
def command (S : Schema) (s : Txn) (os : List Op) : Option Txn :=
  match units S s os with
  | some (s', true) => some s'
  | some (s', false) => some { s' with conf := s.conf }
  | none => none

/-- The commands of a transaction; `none`: the server stopped on a failed assertion. -/
def commands (S : Schema) (s : Txn) : List (List Op) → Option Txn
  | [] => some s
  | os :: rest =>
    match command S s os with
    | some s' => commands S s' rest
    | none => none

/-- A zone object of the server. -/
structure Obj where
  /-- the reload that created it -/
  gen : Nat
  /-- the settings at that time -/
  cfg : ZCfg
  /-- `change_type` -/
  change : Typ

/-- The server: the committed database, the zone database (configured zones and
the names of catalog member zones), the number of reloads done, and the zone
objects freed so far. -/
structure Srv where
  conf : Conf
  db : List (Name × Obj)
  members : List Name
  gen : Nat
  freed : List (Name × Nat)

/-- knot_zonedb_find (exact match). Source: src/knot/zone/zonedb.c:102-115 -/
def lookup (db : List (Name × Obj)) (z : Name) : Option Obj :=
  (db.find? (fun p => p.1 == z)).map (·.2)

/-- `conf-begin`. Source: src/knot/conf/confio.c:59-98 -/
def begin' (v : Srv) : Txn := { conf := v.conf, flags := {}, trie := [] }

/-- The zones that the check of the zone section visits, before a commit.
Source: src/knot/conf/confio.c:1482-1554 (check_iter_section, check_zone_section),
1589-1601 -/
def checkZones (s : Txn) : List Name :=
  if s.flags.check then s.conf.names
  else (s.trie.filter (fun p => p.2 != { unset := true })).map (·.1)

/-- The check before a commit; `okZone` is the semantic check of one zone (any
function of the database), `okRest` that of the other sections. A zone that is
not in the database is an error.
Source: src/knot/conf/confio.c:1393-1480 (check_section), 1556-1612 (conf_io_check) -/
def check (okRest : Conf → Bool) (okZone : Conf → Name → Bool) (s : Txn) : Bool :=
  okRest s.conf && (checkZones s).all (fun z => decide (z ∈ s.conf.names) && okZone s.conf z)

/-- The zones that `conf-diff` looks at (without arguments).
Source: src/knot/conf/confio.c:453-561 (diff_iter_section, diff_zone_section), 637-655 -/
def diffZones (v : Srv) (s : Txn) : List Name :=
  if s.flags.diff then v.conf.names ++ s.conf.names.filter (fun z => decide (z ∉ v.conf.names))
  else s.trie.map (·.1)

/-- A zone object created by the present reload.
Source: src/knot/zone/zonedb-load.c:208-228 (create_zone) -/
def fresh (v : Srv) (c : Conf) (z : Name) : Obj := { gen := v.gen, cfg := c.cfg z, change := {} }

/-- `change_type` of the objects from the changed zones.
Source: src/knot/zone/zonedb-load.c:230-249 (mark_changed_zones) -/
def mark (t : Trie) (p : Name × Obj) : Name × Obj :=
  match t.get p.1 with
  | some y => (p.1, { p.2 with change := y })
  | none => p

/-- The object for a configured zone in the new database: reused unless a reload
is wanted. Source: src/knot/zone/zonedb-load.c:424-448 -/
def newObj (v : Srv) (c : Conf) (old : List (Name × Obj)) (z : Name) : Obj :=
  match lookup old z with
  | some o => if o.change.reload then fresh v c z else o
  | none => fresh v c z

/-- The reload after a commit when the changed zones are processed one by one
(RELOAD_COMMIT). Source: src/knot/zone/zonedb-load.c:414-448 (create_zonedb), 536-580
(remove_old_zonedb); the assertions are at 244 and 565 -/
def reloadChanged (v : Srv) (s : Txn) : Option Srv :=
  if s.trie.any (fun p => p.2.set && ((lookup v.db p.1).isSome || decide (p.1 ∈ v.members))) then none
  else
    let old := v.db.map (mark s.trie)
    let new := s.conf.names.map (fun z => (z, newObj v s.conf old z))
    if old.any (fun p => p.2.change.reload && (lookup new p.1).isNone) then none
    else some { v with
      conf := s.conf, db := new, gen := v.gen + 1
      freed := v.freed ++
        (old.filter (fun p => p.2.change.reload || p.2.change.unset)).map (fun p => (p.1, p.2.gen)) }

/-- The reload of all zones (RELOAD_ZONES).
Source: src/knot/zone/zonedb-load.c:424-448, 536-600 (all old objects are freed) -/
def reloadAll (v : Srv) (s : Txn) : Srv :=
  { v with
    conf := s.conf, gen := v.gen + 1
    db := s.conf.names.map (fun z => (z, fresh v s.conf z))
    freed := v.freed ++ v.db.map (fun p => (p.1, p.2.gen)) }

/-- The reload after a commit; `none`: a failed assertion.
Source: src/knot/server/server.c:1290-1372 (server_reload), src/knot/zone/zonedb-load.c:604-611 -/
def reload (v : Srv) (s : Txn) : Option Srv :=
  if s.flags.rldZones then some (reloadAll v s)
  else if s.flags.rldZone then reloadChanged v s
  else some { v with conf := s.conf }

/-- What came of a transaction. -/
inductive Result where
  /-- committed, with the server after the reload -/
  | done (v : Srv)
  /-- the check before the commit failed; the transaction stays open -/
  | rejected (s : Txn)
  /-- the server stopped on a failed assertion -/
  | crashed

/-- A whole transaction: begin, commands, commit.
Source: src/knot/ctl/commands.c:2133-2182 (ctl_conf_txn), 2291-2342 -/
def transact (S : Schema) (okRest : Conf → Bool) (okZone : Conf → Name → Bool) (v : Srv)
    (cmds : List (List Op)) : Result :=
  match commands S (begin' v) cmds with
  | some s =>
    if check okRest okZone s then
      match reload v s with
      | some v' => .done v'
      | none => .crashed
    else .rejected s
  | none => .crashed

end Knot.Confio
