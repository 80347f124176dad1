import Verif.Serial.Model
import Mathlib.Data.Finset.SDiff
import Mathlib.Data.Finset.Lattice.Basic
/-! # Loading of a zone: model of src/knot/events/handlers/load.c, with the parts of
zone-load.c, zone-update.c, zone-diff.c, zone.c and of the journal that it uses

DNSSEC signing, ZONEMD, reverse generation and generated catalogs are off. TTLs are not
modelled. The journal has room for everything (its limits, merging and flushing marks are
those of C12 and C13), so it is the list of the stored changes in their order, with the zone
in front of them if it was stored. Databases and files answer. -/
namespace Knot.Zload
open Knot Knot.Serial

/-- A record other than the SOA: `key` is the owner and the type together, `data` the rdata. -/
structure Rec where
  key : Nat
  data : Nat
  deriving DecidableEq, Repr

/-- zone_contents_t, src/knot/zone/contents.h: the serial of the SOA, the remaining fields of the
SOA (as one number) and the other records. -/
structure Cont where
  serial : UInt32
  soa : Nat
  recs : Finset Rec
  deriving DecidableEq

/-- changeset_t, src/knot/updates/changesets.h, as stored in the journal: both SOA records, the
removed and the added records. -/
structure Ch where
  fr : UInt32
  soaFr : Nat
  til : UInt32
  soaTo : Nat
  rem : Finset Rec
  add : Finset Rec
  deriving DecidableEq

/-- The journal of the zone: the stored zone, if any, and the changes. -/
structure Jour where
  zij : Option Cont := none
  chain : List Ch := []
  deriving DecidableEq

/-- Error codes. `parse` is any failure of reading the zone file, `apply` one of applying the
journal. -/
inductive Err where
  | noent | range | semcheck | busy | soainval | parse | apply
  deriving DecidableEq, Repr

/-- The result of reading a zone with the journal. `odd` is a zone with two SOA records. -/
inductive Out where
  | ok (c : Cont) | err (e : Err) | odd
  deriving DecidableEq

/-- serial_compare(a, b) == SERIAL_LOWER, src/knot/zone/serial.c:29-35. -/
def lower (a b : UInt32) : Bool :=
  decide (serialCompare a.toNat b.toNat = .ok .lower)

/-- serial_compare(a, b) == SERIAL_EQUAL, src/knot/zone/serial.c:29-35. -/
def equal (a b : UInt32) : Bool :=
  decide (serialCompare a.toNat b.toNat = .ok .equal)

/-- One change of the journal applied to a zone: apply_one_cb(), src/knot/zone/zone-load.c:67-83,
called for every RRset by journal_read_rrsets(), src/knot/journal/journal_read.c:197-212, with
remove_rr(), src/knot/zone/contents.c:132-165, and node_remove_rrset(), src/knot/zone/node.c:366-389:
the removal of an RRset fails if the zone has none of the owner and type, and otherwise removes the
records that are there. If the SOA record to be removed is not the one of the zone, it stays and the
new one is added to it. -/
def applyCh (ch : Ch) (c : Cont) : Out :=
  if ∃ x ∈ ch.rem, ∀ y ∈ c.recs, y.key ≠ x.key then .err .apply
  else if c.serial = ch.fr ∧ c.soa = ch.soaFr then
    .ok ⟨ch.til, ch.soaTo, (c.recs \ ch.rem) ∪ ch.add⟩
  else .odd

/-- The loop of journal_read_rrsets(), src/knot/journal/journal_read.c:197-212: all the changes. -/
def applyAll : List Ch → Cont → Out
  | [], c => .ok c
  | ch :: l, c =>
    match applyCh ch c with
    | .ok c' => applyAll l c'
    | .err e => .err e
    | .odd => .odd

/-- The changes from a serial on: journal_read_begin() and go_next_changeset(),
src/knot/journal/journal_read.c:56-118. The changes are stored under their first serial and each
starts where the previous one ends. -/
def suffix (s : UInt32) (l : List Ch) : List Ch :=
  l.dropWhile (fun ch => decide (ch.fr ≠ s))

/-- zone_load_journal(), src/knot/zone/zone-load.c:85-118. -/
def loadFile (j : Jour) (c : Cont) : Out :=
  applyAll (suffix c.serial j.chain) c

/-- zone_load_from_journal(), src/knot/zone/zone-load.c:120-163. -/
def loadZone (j : Jour) : Out :=
  match j.zij with
  | none => .err .noent
  | some z => applyAll (suffix z.serial j.chain) z

/-- md.serial_to, if valid, src/knot/journal/journal_metadata.c: where the journal ends. -/
def serialTo (j : Jour) : Option UInt32 :=
  match j.chain.getLast? with
  | some ch => some ch.til
  | none => j.zij.map (·.serial)

/-- Removal of a discontinuity in journal_insert(), src/knot/journal/journal_write.c:312-320:
a journal that does not end where the change starts is dropped, or the change is refused if the zone
is stored in it. -/
def contiguous (j : Jour) (ch : Ch) : Except Err Jour :=
  match serialTo j with
  | none => .ok j
  | some s =>
    if s ≠ ch.fr then
      if j.zij.isSome then .error .semcheck else .ok {}
    else .ok j

/-- Avoidance of a cycle in journal_insert(), src/knot/journal/journal_write.c:322-325: if a change
starts where the new one ends, the changes are merged into the stored zone, or the journal asks for
a flush if there is none. Simplification: the flush and the second attempt (zone.c:376-396) are not
repeated here, the change is refused. -/
def acyclic (j : Jour) (ch : Ch) : Except Err Jour :=
  if j.chain.any (fun x => decide (x.fr = ch.til)) then
    match j.zij with
    | none => .error .busy
    | some _ =>
      match loadZone j with
      | .ok c => .ok { zij := some c, chain := [] }
      | _ => .error .semcheck
  else .ok j

/-- journal_insert(), src/knot/journal/journal_write.c:268-347, without the extra changeset. -/
def insert (j : Jour) (ch : Ch) : Except Err Jour :=
  if lower ch.fr ch.til = false then .error .semcheck
  else do
    let j ← contiguous j ch
    let j ← acyclic j ch
    return { j with chain := j.chain ++ [ch] }

/-- journal_insert_zone(), src/knot/journal/journal_write.c:238-266. -/
def insertZone (c : Cont) : Jour := { zij := some c, chain := [] }

/-- JOURNAL_CONTENT_*, src/knot/conf/schema.h:245-249. -/
inductive Content where
  | none | changes | all
  deriving DecidableEq, Repr

/-- ZONEFILE_LOAD_*, src/knot/conf/schema.h:256-261. -/
inductive Load where
  | none | diff | whole | difse
  deriving DecidableEq, Repr

/-- journal-content and zonefile-load of the zone. -/
structure Cfg where
  content : Content
  load : Load
  deriving DecidableEq, Repr

/-- UPDATE_INCREMENTAL, UPDATE_HYBRID, UPDATE_FULL, src/knot/updates/zone-update.h:49-56. -/
inductive Flag where
  | incremental | hybrid | full
  deriving DecidableEq, Repr

/-- zone_update_t, src/knot/updates/zone-update.h:34-46: the kind, the SOA the change starts from,
the new contents, and the change: the new SOA, if any, removed and added records. -/
structure Upd where
  flag : Flag
  fr : UInt32 × Nat
  cont : Cont
  soaTo : Option (UInt32 × Nat)
  rem : Finset Rec
  add : Finset Rec

/-- zone_update_from_contents(), src/knot/updates/zone-update.c:228-279. -/
def fromContents (flag : Flag) (c : Cont) : Upd :=
  ⟨flag, (c.serial, c.soa), c, none, ∅, ∅⟩

/-- zone_update_init() for UPDATE_INCREMENTAL, src/knot/updates/zone-update.c:39-78, 165-168. -/
def initIncremental (c : Cont) : Upd :=
  ⟨.incremental, (c.serial, c.soa), c, none, ∅, ∅⟩

/-- The part of zone_contents_diff(), src/knot/zone/zone-diff.c:360-393, about the SOA: load_soas(),
lines 44-90. Nothing for the same serial, an error for one that is not newer. -/
def diffSoa (old new : Cont) : Except Err (Option (UInt32 × Nat)) :=
  if equal old.serial new.serial then .ok none
  else if lower old.serial new.serial = false then .error .range
  else .ok (some (new.serial, new.soa))

/-- The contents with the SOA of a change, if it has one: zone_update_add() of a SOA,
src/knot/updates/zone-update.c:462-520. -/
def withSoa (c : Cont) : Option (UInt32 × Nat) → Cont
  | none => c
  | some (s, p) => { c with serial := s, soa := p }

/-- zone_update_from_differences(), src/knot/updates/zone-update.c:170-226: the differences of the
two zones are applied to the old one. The codes KNOT_ENODIFF and KNOT_ESEMCHECK of the comparison
(the serial is the same) are not errors here. -/
def fromDifferences (flag : Flag) (old new : Cont) : Except Err Upd := do
  let soaTo ← diffSoa old new
  let rem := old.recs \ new.recs
  let add := new.recs \ old.recs
  return ⟨flag, (old.serial, old.soa),
    withSoa { old with recs := (old.recs \ rem) ∪ add } soaTo, soaTo, rem, add⟩

/-- zone_update_no_change(), src/knot/updates/zone-update.c:1026-1043, with changeset_empty(),
src/knot/updates/changesets.c:156-174. -/
def noChange (u : Upd) : Bool :=
  decide (u.flag ≠ .full ∧ u.rem = ∅ ∧ u.add = ∅ ∧ (u.soaTo = none ∨ u.soaTo = some u.fr))

/-- zone_update_increment_soa(), src/knot/updates/zone-update.c:636-670. `next` is serial_next(),
src/knot/zone/serial.c:88-106, with the policy and the clock of the moment. -/
def incrementSoa (next : UInt32 → UInt32) (u : Upd) : Except Err Upd :=
  let s := next u.cont.serial
  if lower u.cont.serial s = false then .error .soainval
  else .ok { u with cont := { u.cont with serial := s }, soaTo := some (s, u.cont.soa) }

/-- changeset_differs_just_serial(), src/knot/updates/changesets.c:360-397. -/
def justSerial (u : Upd) : Bool :=
  match u.soaTo with
  | none => false
  | some (_, p) => decide (p = u.fr.2 ∧ u.rem = ∅ ∧ u.add = ∅)

/-- zone_update_apply_changeset_reverse(), src/knot/updates/zone-update.c:626-634, of the change of
the update itself. -/
def reverse (u : Upd) : Upd :=
  { u with
    cont := ⟨u.fr.1, u.fr.2, (u.cont.recs \ u.add) ∪ u.rem⟩, soaTo := some u.fr, rem := ∅, add := ∅ }

/-- The zone: its file (nothing if it is missing or cannot be read), its journal and the contents
in the memory, if the zone is loaded. -/
structure World where
  file : Option Cont := none
  jour : Jour := {}
  mem : Option Cont := none
  deriving DecidableEq

/-- commit_incremental(), src/knot/updates/zone-update.c:706-719. -/
def commitIncremental (next : UInt32 → UInt32) (u : Upd) : Except Err Upd :=
  if u.soaTo = none ∧ noChange u = false then incrementSoa next u else .ok u

/-- The change of an update as it is stored, changeset_t in zone_update_t. -/
def changeOf (u : Upd) : Ch :=
  let t := u.soaTo.getD u.fr
  ⟨u.fr.1, u.fr.2, t.1, t.2, u.rem, u.add⟩

/-- commit_journal(), src/knot/updates/zone-update.c:679-704. -/
def commitJournal (cfg : Cfg) (j : Jour) (u : Upd) : Except Err Jour :=
  if u.flag = .full then
    if cfg.content = .all then .ok (insertZone u.cont)
    else if cfg.content ≠ .none then .ok {}
    else .ok j
  else if cfg.content ≠ .none ∧ noChange u = false then insert j (changeOf u)
  else .ok j

/-- The serial of the update is set if needed: lines 916-920 of zone_update_commit(). -/
def commitSoa (next : UInt32 → UInt32) (u : Upd) : Except Err Upd :=
  if u.flag = .full then .ok u else commitIncremental next u

/-- zone_update_commit(), src/knot/updates/zone-update.c:898-1024. Validation, the size limit and
the catalog are not modelled. -/
def commit (cfg : Cfg) (next : UInt32 → UInt32) (w : World) (u : Upd) : World × Option Err :=
  if u.flag = .incremental ∧ noChange u then (w, none)
  else
    match commitSoa next u with
    | .error e => (w, some e)
    | .ok u =>
      match commitJournal cfg w.jour u with
      | .error e => (w, some e)
      | .ok j => ({ w with jour := j, mem := some u.cont }, none)

/-- The result of an operation: the zone and the error, if any, or the load of a zone with two SOA
records. -/
inductive Ret where
  | done (w : World) (e : Option Err)
  | odd
  deriving DecidableEq

/-- The contents from the journal, event_load(), src/knot/events/handlers/load.c:81-94. -/
def journalConts (cfg : Cfg) (w : World) : Out ⊕ Unit :=
  if w.mem = none ∧ cfg.content = .all ∧ cfg.load ≠ .whole then
    match loadZone w.jour with
    | .err .noent => .inr ()
    | o => .inl o
  else .inr ()

/-- The file with the serial of the server: lines 161-170. -/
def fixSerial (cfg : Cfg) (next : UInt32 → UInt32) (relevant : Option Cont) (f : Cont) : Cont :=
  match relevant with
  | none => f
  | some r => if cfg.load = .difse then { f with serial := next r.serial } else f

/-- The contents of the file with the changes of the journal, lines 176-185. -/
def fileConts (cfg : Cfg) (j : Jour) (f : Cont) : Out :=
  if cfg.content ≠ .none then loadFile j f else .ok f

/-- A zone that is configured to be in the journal and is not there is stored, lines 198-208. -/
def storeZone (cfg : Cfg) (w : World) (exists_ : Bool) (zf : Option Cont) : World :=
  if cfg.content = .all ∧ exists_ = false then
    match w.mem with
    | some c => { w with jour := insertZone c }
    | none =>
      match zf with
      | some c => { w with jour := insertZone c }
      | none => w
  else w

/-- Flag of an update from the file alone, lines 229-231 and 264-266. -/
def fileFlag (cfg : Cfg) : Flag := if cfg.content = .none then .full else .hybrid

/-- The update of a zone that is loaded, lines 213-239. -/
def updateLoaded (cfg : Cfg) (c : Cont) : Option Cont → Except Err Upd
  | none => .ok (initIncremental c)
  | some zf =>
    if cfg.load = .whole then .ok (fromContents (fileFlag cfg) zf)
    else fromDifferences .incremental c zf

/-- A file with an unupdated or decreased serial is ignored, lines 250-259. -/
def ignoreFile (j : Cont) : Except Err Upd → Except Err Upd
  | .ok u => .ok u
  | .error e => if e = .semcheck ∨ e = .range then .ok (fromContents .hybrid j) else .error e

/-- The update of a zone that is not loaded, lines 240-271. -/
def updateStart (cfg : Cfg) (jc zf : Option Cont) : Except Err Upd :=
  match jc, zf with
  | some j, none => .ok (fromContents .hybrid j)
  | some j, some f => ignoreFile j (fromDifferences .hybrid j f)
  | none, none => .error .noent
  | none, some f => .ok (fromContents (fileFlag cfg) f)

/-- The update according to the current state, lines 212-271. -/
def update (cfg : Cfg) (w : World) (jc zf : Option Cont) : Except Err Upd :=
  match w.mem with
  | some c => updateLoaded cfg c zf
  | none => updateStart cfg jc zf

/-- A change of the serial only, made by the server, is taken back: lines 343-375. -/
def revert (cfg : Cfg) (u : Upd) : Upd :=
  if cfg.load = .difse ∧ u.flag ≠ .full ∧ justSerial u then reverse u else u

/-- The update is committed, or the load ends with its error: lines 273-394. -/
def finish (cfg : Cfg) (next : UInt32 → UInt32) (w : World) : Except Err Upd → World × Option Err
  | .error e => (w, some e)
  | .ok u => commit cfg next w (revert cfg u)

/-- The second half of event_load(), from line 197 on. -/
def loadFinish (cfg : Cfg) (next : UInt32 → UInt32) (w : World) (jc zf : Option Cont) : World × Option Err :=
  let exists_ := jc.isSome || w.jour.zij.isSome
  let w := storeZone cfg w exists_ zf
  finish cfg next w (update cfg w jc zf)

/-- The result of an operation that loads no zone with two SOA records. -/
def Ret.of (r : World × Option Err) : Ret := .done r.1 r.2

/-- The load goes on with the contents of the file, or without them if the journal could not be
applied to them. -/
def loadOut (cfg : Cfg) (next : UInt32 → UInt32) (w : World) (jc : Option Cont) : Out → Ret
  | .odd => .odd
  | .err _ => .of (loadFinish cfg next w jc none)
  | .ok zf => .of (loadFinish cfg next w jc (some zf))

/-- The zone file part of event_load(), lines 104-186. -/
def loadWith (cfg : Cfg) (next : UInt32 → UInt32) (w : World) (jc : Option Cont) : Ret :=
  if cfg.load = .none then .of (loadFinish cfg next w jc none)
  else
    match w.file with
    | none => .done w (some .parse)
    | some f => loadOut cfg next w jc (fileConts cfg w.jour (fixSerial cfg next (w.mem <|> jc) f))

/-- event_load(), src/knot/events/handlers/load.c:57-420. -/
def eventLoad (cfg : Cfg) (next : UInt32 → UInt32) (w : World) : Ret :=
  match journalConts cfg w with
  | .inl .odd => .odd
  | .inl (.err e) => .done w (some e)
  | .inl (.ok c) => loadWith cfg next w (some c)
  | .inr () => loadWith cfg next w none

/-- A change of the loaded zone by a dynamic update, an incremental transfer or a control
transaction: an UPDATE_INCREMENTAL with the new contents, committed. -/
def change (cfg : Cfg) (next : UInt32 → UInt32) (w : World) (c' : Cont) : World × Option Err :=
  match w.mem with
  | none => (w, some .noent)
  | some c =>
    commit cfg next w ⟨.incremental, (c.serial, c.soa), c', some (c'.serial, c'.soa),
      c.recs \ c'.recs, c'.recs \ c.recs⟩

/-- A whole transfer of the zone: an UPDATE_FULL, committed. -/
def replace (cfg : Cfg) (next : UInt32 → UInt32) (w : World) (c' : Cont) : World × Option Err :=
  commit cfg next w (fromContents .full c')

/-- flush_journal(), src/knot/zone/zone.c:63-160: the contents are written to the file. -/
def flush (w : World) : World :=
  match w.mem with
  | none => w
  | some c => { w with file := some c }

end Knot.Zload
