import Verif.Serial.Model
/-!
# The zone journal

src/knot/journal/journal_write.c, journal_read.c and journal_metadata.c, for one zone. The records of
the database are taken as whole changesets: the chunks of a changeset (C36) are one entry, found by
the serial the changeset starts from. What a changeset does to a zone, and what merging two of them
gives, are parameters (C14). The space LMDB occupies and the sizes of changesets are arbitrary. Every
function that writes runs in one transaction, so that the database is either the old one or the new
one. Failures of LMDB itself and of allocation are not modelled.
-/
namespace Knot.Journal

/-- A stored changeset: the serial it leads to, its size in the database, its contents. -/
structure Entry (D : Type) where
  to : Nat
  size : Nat
  body : D
  deriving DecidableEq, Repr

/-- A whole zone stored in the journal. -/
structure Zij (Z : Type) where
  to : Nat
  size : Nat
  body : Z
  deriving DecidableEq, Repr

/-- journal_metadata_t, src/knot/journal/journal_metadata.h:26-35; the flags are
JOURNAL_SERIAL_TO_VALID and JOURNAL_MERGED_SERIAL_VALID, lines 23-24. JOURNAL_LAST_FLUSHED_VALID only
matters for databases of an older version. The number of changesets does not overflow here. -/
structure Md where
  first : Nat := 0
  serialTo : Nat := 0
  flushed : Nat := 0
  merged : Nat := 0
  count : Nat := 0
  serialToValid : Bool := false
  mergedValid : Bool := false
  deriving DecidableEq, Repr

/-- What the database has of the zone. -/
structure Db (Z D : Type) where
  md : Md := {}
  zij : Option (Zij Z) := none
  chs : List (Nat × Entry D) := []
  deriving DecidableEq, Repr

/-- The configuration, and the meaning of changesets: `act` applies one, `comp` merges two, `zsize` and
`dsize` are the sizes in the database, `dlen` is changeset_serialized_size(). -/
structure Cfg (Z D : Type) where
  flush : Bool
  maxUsage : Nat
  maxDepth : Nat
  act : D → Z → Z
  comp : D → D → D
  zsize : Z → Nat
  dsize : D → Nat
  dlen : D → Nat
  zlen : Z → Nat

variable {Z D : Type}

/-- Looking a changeset up, journal_serial_to() and journal_contains(), src/knot/journal/
journal_basic.c:74-84 and journal_basic.h:125-128. -/
def get (chs : List (Nat × Entry D)) (k : Nat) : Option (Entry D) :=
  match chs with
  | [] => none
  | (j, e) :: l => if j = k then some e else get l k

/-- delete_one(), src/knot/journal/journal_write.c:89-104: what is left. -/
def erase (chs : List (Nat × Entry D)) (k : Nat) : List (Nat × Entry D) :=
  chs.filter (fun p => decide (p.1 ≠ k))

/-- journal_write_serialize(), src/knot/journal/journal_write.c:27-53. Chunks an older changeset with
the same serial has in addition would be left; they are dropped here. -/
def put (chs : List (Nat × Entry D)) (k : Nat) (e : Entry D) : List (Nat × Entry D) :=
  (k, e) :: erase chs k

/-! ## Reading -/

/-- go_next_changeset() again and again, src/knot/journal/journal_read.c:61-83: the changesets from
`next` on with the serials they start from, where `n` may be read still. -/
def readFrom (chs : List (Nat × Entry D)) : Nat → Nat → Except Err (List (Nat × Entry D))
  | n, next =>
    match get chs next with
    | none => .ok []
    | some e =>
      if e.to = next then .error .eloop
      else
        match n with
        | 0 => .error .eloop
        | n + 1 =>
          match readFrom chs n e.to with
          | .ok l => .ok ((next, e) :: l)
          | .error c => .error c

/-- The number of changesets that may be read, journal_read_begin(), src/knot/journal/
journal_read.c:102-107. -/
def total (db : Db Z D) (zone : Bool) (serial : Nat) : Nat :=
  db.md.count + (if zone ∨ (db.md.mergedValid ∧ serial = db.md.merged) then 1 else 0)

/-- journal_read_begin() for a serial and reading all that follows, src/knot/journal/journal_read.c:
85-116, 197-212. If already the first changeset cannot be read, the code is ENOENT. -/
def readSerial (db : Db Z D) (serial : Nat) : Except Err (List (Nat × Entry D)) :=
  if ¬ db.md.serialToValid then .error .enoent
  else
    match get db.chs serial with
    | none => .error .enoent
    | some e =>
      if e.to = serial ∨ total db false serial = 0 then .error .enoent
      else readFrom db.chs (total db false serial) serial

/-- The same for the zone in the journal and what follows. -/
def readZone (db : Db Z D) : Except Err (Zij Z × List (Nat × Entry D)) :=
  if ¬ db.md.serialToValid then .error .enoent
  else
    match db.zij with
    | none => .error .enoent
    | some z =>
      match readFrom db.chs (total db true 0 - 1) z.to with
      | .ok l => .ok (z, l)
      | .error c => .error c

/-- zone_load_journal(), src/knot/zone/zone-load.c:85-119: the zone in the file with the changes that
follow. -/
def loadFile (cfg : Cfg Z D) (db : Db Z D) (serial : Nat) (z : Z) : Except Err Z :=
  match readSerial db serial with
  | .error .enoent => .ok z
  | .error c => .error c
  | .ok l => .ok (l.foldl (fun z p => cfg.act p.2.body z) z)

/-- zone_load_from_journal(), src/knot/zone/zone-load.c:121-164. -/
def loadZone (cfg : Cfg Z D) (db : Db Z D) : Except Err Z :=
  match readZone db with
  | .error c => .error c
  | .ok (z, l) => .ok (l.foldl (fun z p => cfg.act p.2.body z) z.body)

/-- journal_walk(), src/knot/journal/journal_read.c:319-366: the special changeset and the others. -/
def walk (db : Db Z D) : Except Err (Option (Zij Z ⊕ Entry D) × List (Nat × Entry D)) :=
  let rest : Bool → Except Err (List (Nat × Entry D)) := fun zone =>
    if ¬ db.md.serialToValid then .ok []
    else
      match readSerial db db.md.first with
      | .ok l => .ok l
      | .error c => if c = .enoent ∧ zone then .ok [] else .error c
  match db.zij with
  | some z =>
    if ¬ db.md.serialToValid then .error .enoent
    else
      match rest true with
      | .ok l => .ok (some (.inl z), l)
      | .error c => .error c
  | none =>
    if db.md.mergedValid then
      if ¬ db.md.serialToValid then .error .enoent
      else
        match get db.chs db.md.merged with
        | none => .error .enoent
        | some e =>
          if e.to = db.md.merged then .error .enoent
          else
            match rest false with
            | .ok l => .ok (some (.inr e), l)
            | .error c => .error c
    else
      match rest false with
      | .ok l => .ok (none, l)
      | .error c => .error c

/-! ## Metadata -/

/-- journal_metadata_after_delete(), src/knot/journal/journal_metadata.c:239-253. -/
def afterDelete (md : Md) (upto count : Nat) : Res Md :=
  if count = 0 then .ok md
  else if ¬ md.serialToValid then .ub
  else if upto = md.serialTo ∧ (md.flushed ≠ md.serialTo ∨ md.count ≠ count) then .ub
  else .ok { md with
    serialToValid := decide (upto ≠ md.serialTo)
    first := upto
    count := md.count - count }

/-- journal_metadata_after_merge(), src/knot/journal/journal_metadata.c:255-268. -/
def afterMerge (md : Md) (zone : Bool) (serial serialTo orig : Nat) : Res Md :=
  let md := { md with flushed := serialTo }
  if md.mergedValid then
    if zone ∨ serial ≠ md.merged then .ub else .ok md
  else if zone then .ok md
  else if serial ≠ md.first then .ub
  else afterDelete { md with merged := serial, mergedValid := true } orig 1

/-- journal_metadata_after_insert(), src/knot/journal/journal_metadata.c:270-279. -/
def afterInsert (md : Md) (serial serialTo : Nat) : Md :=
  let md := if md.first = md.serialTo then { md with first := serial, flushed := serial } else md
  { md with serialTo := serialTo, serialToValid := true, count := md.count + 1 }

/-- journal_metadata_after_extra(), src/knot/journal/journal_metadata.c:281-287. -/
def afterExtra (md : Md) (serial serialTo : Nat) : Res Md :=
  if md.mergedValid then .ub
  else .ok { md with merged := serial, flushed := serialTo, mergedValid := true }

/-! ## Writing -/

/-- The state of a transaction: it goes on, it has failed, or it was committed early with the code
EBUSY. -/
inductive Txn (Z D : Type) where
  | run (db : Db Z D)
  | fail (e : Err)
  | busy (db : Db Z D)
  deriving DecidableEq, Repr

/-- The serial and contents of several changesets merged, merge_cb() and journal_merge(),
src/knot/journal/journal_write.c:106-127. -/
def mergeAll (cfg : Cfg Z D) (e : Entry D) (l : List (Nat × Entry D)) : Nat × D :=
  l.foldl (fun a p => (p.2.to, cfg.comp a.2 p.2.body)) (e.to, e.body)

/-- journal_merge() of the zone in the journal, src/knot/journal/journal_write.c:114-141. The
changesets are read from the database as it was before the transaction (`old`). -/
def mergeZone (cfg : Cfg Z D) (old db : Db Z D) : Except Err (Db Z D) :=
  match readZone old with
  | .error c => .error c
  | .ok (z, l) =>
    let body := l.foldl (fun z p => cfg.act p.2.body z) z.body
    let to := l.foldl (fun _ p => p.2.to) z.to
    .ok { db with zij := some ⟨to, cfg.zsize body, body⟩ }

/-- journal_merge() of a changeset: also the serial it led to before. -/
def mergeSerial (cfg : Cfg Z D) (old db : Db Z D) (serial : Nat) : Res (Except Err (Nat × Db Z D)) :=
  match readSerial old serial with
  | .error c => .ok (.error c)
  | .ok [] => .ub
  | .ok ((_, e) :: l) =>
    match get db.chs serial with
    | none => .ub
    | some e' =>
      if e'.to ≠ e.to then .ub
      else
        let m := mergeAll cfg e l
        .ok (.ok (e.to, { db with chs := put db.chs serial ⟨m.1, cfg.dsize m.2, m.2⟩ }))

/-- Dropping the merged changeset, src/knot/journal/journal_write.c:188-194. -/
def dropMerged (db : Db Z D) : Db Z D :=
  if db.md.mergedValid then
    { db with md := { db.md with mergedValid := false }, chs := erase db.chs db.md.merged }
  else db

/-- journal_try_flush(), src/knot/journal/journal_write.c:172-203. -/
def tryFlush (cfg : Cfg Z D) (old db : Db Z D) : Res (Txn Z D) :=
  if db.zij.isSome then
    match mergeZone cfg old db with
    | .error c => .ok (.fail c)
    | .ok db =>
      if cfg.flush then .ok (.busy (dropMerged db))
      else do
        let md ← afterMerge db.md true 0 db.md.serialTo 0
        .ok (.run { db with md := md })
  else if cfg.flush then .ok (.busy (dropMerged db))
  else
    let serial := if db.md.mergedValid then db.md.merged else db.md.first
    do
      let r ← mergeSerial cfg old db serial
      match r with
      | .error c => .ok (.fail c)
      | .ok (orig, db) =>
        let md ← afterMerge db.md false serial db.md.serialTo orig
        .ok (.run { db with md := md })

/-- journal_delete(), src/knot/journal/journal_write.c:155-170: the changesets left, the size and
number of the deleted ones, the serial reached. Every step deletes an entry, so that `fuel` may be the
number of entries. -/
def deleteRun (tofree todel stop : Nat) : Nat → List (Nat × Entry D) → Nat → Nat → Nat →
    List (Nat × Entry D) × Nat × Nat × Nat
  | 0, chs, fs, fc, from_ => (chs, fs, fc, from_)
  | fuel + 1, chs, fs, fc, from_ =>
    if from_ ≠ stop ∧ (fs < tofree ∨ fc < todel) then
      match get chs from_ with
      | none => (chs, fs, fc, from_)
      | some e =>
        if e.size = 0 then (chs, fs, fc, from_)
        else deleteRun tofree todel stop fuel (erase chs from_) (fs + e.size) (fc + 1) e.to
    else (chs, fs, fc, from_)

/-- Up to which serial changesets may be deleted, src/knot/journal/journal_write.c:217-218. -/
def upto (db : Db Z D) : Nat :=
  match db.zij with
  | some z => z.to
  | none => db.md.flushed

/-- The loop of journal_fix_occupation(), src/knot/journal/journal_write.c:215-235. -/
def fixLoop (cfg : Cfg Z D) (old : Db Z D) : Nat → Nat → Nat → Db Z D → Res (Txn Z D)
  | 0, _, _, _ => .ub
  | fuel + 1, tofree, todel, db =>
    if tofree = 0 ∧ todel = 0 then .ok (.run db)
    else
      let r := deleteRun tofree todel (upto db) db.chs.length db.chs 0 0 db.md.first
      if r.2.1 = 0 then
        if upto db ≠ db.md.serialTo then do
          let t ← tryFlush cfg old db
          match t with
          | .run db => fixLoop cfg old fuel tofree todel db
          | t => .ok t
        else .ok (.fail .espace)
      else do
        let md ← afterDelete db.md r.2.2.2 r.2.2.1
        fixLoop cfg old fuel (tofree - r.2.1) (todel - r.2.2.1) { db with md := md, chs := r.1 }

/-- journal_fix_occupation(), src/knot/journal/journal_write.c:207-236. -/
def fixOccupation (cfg : Cfg Z D) (old db : Db Z D) (tofree maxCount : Nat) : Res (Txn Z D) :=
  fixLoop cfg old (db.chs.length + 5) tofree (db.md.count - maxCount) db

/-- A changeset to be inserted. -/
structure Ch (D : Type) where
  from_ : Nat
  to : Nat
  body : D
  deriving DecidableEq, Repr

/-- The check of the serials in journal_insert(), src/knot/journal/journal_write.c:287-290. -/
def serialsOk (ch : Ch D) : Res Bool := do
  let c ← Serial.serialCompare ch.from_ ch.to
  .ok (decide (c = .lower))

/-- What has to be freed: U_MINUS() on the occupied space and the limit, the latter computed with
wrap-around, src/knot/journal/journal_write.c:205-213, 308-315. -/
def needFree (cfg : Cfg Z D) (occupied size : Nat) : Nat :=
  occupied - (cfg.maxUsage + 18446744073709551616 - size) % 18446744073709551616

/-- journal_insert() from its transaction on, without an extra changeset, src/knot/journal/
journal_write.c:295-346. The size is that of the changeset. -/
def insertTxn (cfg : Cfg Z D) (occupied : Nat) (old : Db Z D) (ch : Ch D) : Res (Txn Z D) := do
  let t ← fixOccupation cfg old old (needFree cfg occupied (cfg.dlen ch.body)) (cfg.maxDepth - 1)
  match t with
  | .run db =>
    if db.md.serialToValid ∧ db.md.serialTo ≠ ch.from_ ∧ db.zij.isSome then .ok (.fail .esemcheck)
    else
      let db : Db Z D := if db.md.serialToValid ∧ db.md.serialTo ≠ ch.from_ then {} else db
      let t ← (if (get db.chs ch.to).isSome then fixOccupation cfg old db 0 1 else .ok (.run db))
      match t with
      | .run db => .ok (.run { db with
          md := afterInsert db.md ch.from_ ch.to
          chs := put db.chs ch.from_ ⟨ch.to, cfg.dsize ch.body, ch.body⟩ })
      | t => .ok t
  | t => .ok t

/-- The end of a transaction: the database and the return code. -/
def finish (old : Db Z D) : Txn Z D → Db Z D × Option Err
  | .run db => (db, none)
  | .fail e => (old, some e)
  | .busy db => (db, some .ebusy)

/-- journal_insert() without an extra changeset, src/knot/journal/journal_write.c:268-347. -/
def insert (cfg : Cfg Z D) (occupied : Nat) (old : Db Z D) (ch : Ch D) : Res (Db Z D × Option Err) :=
  if cfg.dlen ch.body ≥ cfg.maxUsage then .ok (old, some .espace)
  else do
    let o ← serialsOk ch
    if ¬ o then .ok (old, some .esemcheck)
    else
      let t ← insertTxn cfg occupied old ch
      .ok (finish old t)

/-- journal_insert() with an extra changeset, which replaces the merged one. -/
def insertExtra (cfg : Cfg Z D) (occupied : Nat) (old : Db Z D) (ch extra : Ch D) :
    Res (Db Z D × Option Err) :=
  if cfg.dlen ch.body ≥ cfg.maxUsage then .ok (old, some .espace)
  else if extra.to ≠ ch.to ∨ extra.from_ = ch.from_ then .ok (old, some .einval)
  else do
    let o ← serialsOk ch
    let o' ← serialsOk extra
    if ¬ o ∨ ¬ o' then .ok (old, some .esemcheck)
    else if old.zij.isSome then .ok (old, some .esemcheck)
    else
      let freed := if old.md.mergedValid then ((get old.chs old.md.merged).map (·.size)).getD 0 else 0
      let db : Db Z D := { old with
        md := { old.md with
          merged := if old.md.mergedValid then 0 else old.md.merged
          mergedValid := false
          flushed := old.md.serialTo }
        chs := if old.md.mergedValid then erase old.chs old.md.merged else old.chs }
      let size := (cfg.dlen ch.body + cfg.dlen extra.body + 18446744073709551616 - freed) % 18446744073709551616
      let t ← fixOccupation cfg old db (needFree cfg occupied size) (cfg.maxDepth - 1)
      match t with
      | .run db =>
        let db : Db Z D := if db.md.serialToValid ∧ db.md.serialTo ≠ ch.from_ then {} else db
        let t ← (if (get db.chs ch.to).isSome then fixOccupation cfg old db 0 1 else .ok (.run db))
        match t with
        | .run db =>
          let md ← afterExtra (afterInsert db.md ch.from_ ch.to) extra.from_ extra.to
          let chs := put (put db.chs ch.from_ ⟨ch.to, cfg.dsize ch.body, ch.body⟩) extra.from_
            ⟨extra.to, cfg.dsize extra.body, extra.body⟩
          .ok ({ db with md := md, chs := chs }, none)
        | t => .ok (finish old t)
      | t => .ok (finish old t)

/-- journal_insert_zone(), src/knot/journal/journal_write.c:238-266. -/
def insertZone (cfg : Cfg Z D) (old : Db Z D) (serial : Nat) (z : Z) : Db Z D × Option Err :=
  if cfg.zlen z ≥ cfg.maxUsage then (old, some .espace)
  else ({ md := { first := serial, serialTo := serial, serialToValid := true },
          zij := some ⟨serial, cfg.zsize z, z⟩, chs := [] }, none)

/-- journal_set_flushed(), src/knot/journal/journal_metadata.c:332-344. -/
def setFlushed (db : Db Z D) : Db Z D := { db with md := { db.md with flushed := db.md.serialTo } }

/-- journal_scrape_with_md(), src/knot/journal/journal_metadata.c:297-310. -/
def scrape (_ : Db Z D) : Db Z D := {}

end Knot.Journal
