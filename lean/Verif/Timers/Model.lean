import Verif.Lmdb.Model
/-!
# Model of the database of zone timers (src/knot/zone/timers.c)

`time_t` and `uint64_t` values are their 64-bit patterns. The timer database is a map from keys
to values: the semantics of LMDB transactions (all or nothing) is assumed.
-/
namespace Knot.Timers
open WireCtx Lmdb

/-- `struct zone_timers`, src/knot/zone/timers.h:30-43; the address of the last master is the
memory of the structure sockaddr_in6 (28 octets). -/
structure Timers where
  soaExpire : Nat := 0
  lastFlush : Nat := 0
  lastRefresh : Nat := 0
  nextRefresh : Nat := 0
  lastRefreshOk : Bool := false
  lastNotifiedSerial : Nat := 0
  nextDsCheck : Nat := 0
  nextDsPush : Nat := 0
  catalogMember : Nat := 0
  nextExpire : Nat := 0
  lastMaster : Bytes := List.replicate 28 0
  masterPinHit : Nat := 0
  deriving DecidableEq, Repr

/-- The switch over identifiers, src/knot/zone/timers.c:89-102: `soa_expire` is 32 bits wide,
`last_refresh_ok` is a `bool`. -/
def setTimer (t : Timers) (id value : Nat) : Timers :=
  if id = 0x80 then { t with soaExpire := value % 4294967296 }
  else if id = 0x81 then { t with lastFlush := value }
  else if id = 0x82 then { t with lastRefresh := value }
  else if id = 0x83 then { t with nextRefresh := value }
  else if id = 0x89 then { t with lastRefreshOk := decide (value ≠ 0) }
  else if id = 0x88 then { t with lastNotifiedSerial := value }
  else if id = 0x85 then { t with nextDsCheck := value }
  else if id = 0x86 then { t with nextDsPush := value }
  else if id = 0x87 then { t with catalogMember := value }
  else if id = 0x8a then { t with nextExpire := value }
  else if id = 0x8c then { t with masterPinHit := value }
  else t

/-- The loop of deserialize_timers(), src/knot/zone/timers.c:82-103. Each round takes one unit of
fuel; `none` means that the fuel ran out. -/
def loop : (fuel : Nat) → Ctx → Timers → Option (Res (Ctx × Timers))
  | 0, _, _ => none
  | fuel + 1, c, t =>
    if available c ≥ 9 then
      match readU c 1 with
      | .ok (id, c) =>
        if id = 0x8b then
          match read c 28 with
          | .ok (d, c) => loop fuel c { t with lastMaster := d }
          | .err e => some (.err e)
          | .ub => some .ub
        else
          match readU c 8 with
          | .ok (v, c) => loop fuel c (setTimer t id v)
          | .err e => some (.err e)
          | .ub => some .ub
      | .err e => some (.err e)
      | .ub => some .ub
    else some (.ok (c, t))

/-- The end of deserialize_timers(), src/knot/zone/timers.c:105-113. -/
def finish (c : Ctx) (t : Timers) : Res Timers :=
  if available c ≠ 0 then .err .emalf
  else if c.error ≠ none then .ub
  else .ok t

/-- deserialize_timers(), src/knot/zone/timers.c:73-114. -/
def deserialize (fuel : Nat) (data : Bytes) : Option (Res Timers) :=
  match loop fuel (initConst data data.length) {} with
  | some (.ok (c, t)) => some (finish c t)
  | some (.err e) => some (.err e)
  | some .ub => some .ub
  | none => none

/-- `sin6_family` of the address (host byte order, little-endian host). -/
def family (m : Bytes) : Nat := ((m[0]?).getD 0).toNat + 256 * ((m[1]?).getD 0).toNat

/-- The value composed by txn_write_timers(), src/knot/zone/timers.c:119-135; AF_INET = 2,
AF_INET6 = 10. -/
def serialize (t : Timers) : Res Bytes :=
  let base : List Arg :=
    [.b 0x81, .l t.lastFlush, .b 0x83, .l t.nextRefresh, .b 0x89, .l (if t.lastRefreshOk then 1 else 0),
     .b 0x88, .l t.lastNotifiedSerial, .b 0x85, .l t.nextDsCheck, .b 0x86, .l t.nextDsPush,
     .b 0x87, .l t.catalogMember, .b 0x8a, .l t.nextExpire]
  if family t.lastMaster = 2 ∨ family t.lastMaster = 10 then
    makeKey (base ++ [.b 0x8b, .d t.lastMaster, .b 0x8c, .l t.masterPinHit])
  else makeKey base

/-- The database. -/
abbrev Db := Bytes → Option Bytes

/-- knot_lmdb_insert() of one record, src/knot/journal/knot_lmdb.c:497-519. -/
def Db.put (db : Db) (k v : Bytes) : Db := fun x => if x = k then some v else db x

/-- txn_write_timers(), src/knot/zone/timers.c:116-138. -/
def writeTimers (db : Db) (zone : Bytes) (t : Timers) : Res Db := do
  let n ← Dname.size zone
  let k ← fetch zone n
  let v ← serialize t
  .ok (db.put k v)

/-- zone_timers_write_all(), src/knot/zone/timers.c:208-219, over the zones of the database in
any order. -/
def writeAll (db : Db) : List (Bytes × Timers) → Res Db
  | [] => .ok db
  | (z, t) :: zs => do
    let db ← writeTimers db z t
    writeAll db zs

/-- The compatibility adjustment of zone_timers_read(), src/knot/zone/timers.c:181-185: `time_t` is
signed. -/
def compat (t : Timers) : Timers :=
  if t.nextExpire = 0 ∧ 0 < t.lastRefresh ∧ t.lastRefresh < 2 ^ 63 then
    { t with nextExpire := (t.lastRefresh + t.soaExpire) % 2 ^ 64 }
  else t

/-- zone_timers_read(), src/knot/zone/timers.c:163-188, given the previous contents of `timers`:
a malformed value leaves them as they were. The outcome is the new contents and whether the
record was found. -/
def readTimers (fuel : Nat) (db : Db) (zone : Bytes) (old : Timers) : Option (Res (Timers × Bool)) :=
  match Dname.size zone with
  | .ok n =>
    match fetch zone n with
    | .ok k =>
      match db k with
      | none => some (.ok (compat old, false))
      | some v =>
        match deserialize fuel v with
        | some (.ok t) => some (.ok (compat t, true))
        | some (.err _) => some (.ok (compat old, true))
        | some .ub => some .ub
        | none => none
    | .err e => some (.err e)
    | .ub => some .ub
  | .err e => some (.err e)
  | .ub => some .ub

/-- zone_timers_sweep(), src/knot/zone/timers.c:221-239. -/
def sweep (db : Db) (keep : Bytes → Bool) : Db := fun k => if keep k then db k else none

/-- zone_timers_serial_notified(), src/knot/zone/timers.c:241-245. -/
def serialNotified (t : Timers) (serial : Nat) : Bool :=
  decide (t.lastNotifiedSerial / 4294967296 % 2 = 1 ∧ t.lastNotifiedSerial % 4294967296 = serial)

end Knot.Timers
