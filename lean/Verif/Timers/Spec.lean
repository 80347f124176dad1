import Verif.Timers.Model
import Verif.Lmdb.Spec
/-!
# Specification of the timer records
-/
namespace Knot.Timers
open Lmdb

/-- An item of a timer record: an identifier with a 64-bit number, or the address of the last
master (identifier 0x8b). -/
inductive TItem where
  | timer (id v : Nat)
  | master (addr : List UInt8)

def TItem.Legal : TItem → Prop
  | .timer id v => id < 256 ∧ id ≠ 0x8b ∧ v < 2 ^ 64
  | .master a => a.length = 28

def TItem.stored : TItem → List UInt8
  | .timer id v => UInt8.ofNat id :: bigEndian 8 v
  | .master a => 0x8b :: a

/-- The meaning of one item. -/
def TItem.apply (t : Timers) : TItem → Timers
  | .master a => { t with lastMaster := a }
  | .timer 0x80 v => { t with soaExpire := v % 2 ^ 32 }
  | .timer 0x81 v => { t with lastFlush := v }
  | .timer 0x82 v => { t with lastRefresh := v }
  | .timer 0x83 v => { t with nextRefresh := v }
  | .timer 0x85 v => { t with nextDsCheck := v }
  | .timer 0x86 v => { t with nextDsPush := v }
  | .timer 0x87 v => { t with catalogMember := v }
  | .timer 0x88 v => { t with lastNotifiedSerial := v }
  | .timer 0x89 v => { t with lastRefreshOk := decide (v ≠ 0) }
  | .timer 0x8a v => { t with nextExpire := v }
  | .timer 0x8c v => { t with masterPinHit := v }
  | .timer _ _ => t

/-- All values are in the range of their types. -/
def Timers.Legal (t : Timers) : Prop :=
  t.soaExpire < 2 ^ 32 ∧ t.lastFlush < 2 ^ 64 ∧ t.lastRefresh < 2 ^ 64 ∧ t.nextRefresh < 2 ^ 64 ∧
  t.lastNotifiedSerial < 2 ^ 64 ∧ t.nextDsCheck < 2 ^ 64 ∧ t.nextDsPush < 2 ^ 64 ∧
  t.catalogMember < 2 ^ 64 ∧ t.nextExpire < 2 ^ 64 ∧ t.lastMaster.length = 28 ∧ t.masterPinHit < 2 ^ 64

/-- What survives a restart: everything but the two deprecated timers; the pinned master and
its timer only if the address is an IPv4 or IPv6 one. -/
def Timers.persistent (t : Timers) : Timers :=
  if family t.lastMaster = 2 ∨ family t.lastMaster = 10 then { t with soaExpire := 0, lastRefresh := 0 }
  else { t with soaExpire := 0, lastRefresh := 0, lastMaster := List.replicate 28 0, masterPinHit := 0 }

end Knot.Timers
