import Verif.Prelude
/-!
# Model of key states and automatic key rollovers

src/knot/dnssec/kasp/keystate.c, src/knot/dnssec/key-events.c and the key roles in src/knot/dnssec/zone-keys.c.

Times are natural numbers (knot_time_t is uint64_t; overflow of a time is not modelled), 0 is "never". Keys are identified
by their position in the list of the zone. Generating a key succeeds, KSKs are not shared between zones
(`policy->ksk_shared` is off), writing to the KASP database, logging and D-Bus are left out.
-/
namespace Knot.Keyroll

/-- knot_kasp_key_timing_t, src/knot/dnssec/kasp/policy.h:28-39. -/
structure Timing where
  created : Nat := 0
  preActive : Nat := 0
  publish : Nat := 0
  ready : Nat := 0
  active : Nat := 0
  retireActive : Nat := 0
  retire : Nat := 0
  postActive : Nat := 0
  revoke : Nat := 0
  remove : Nat := 0
  deriving DecidableEq, Repr

/-- knot_kasp_key_t, src/knot/dnssec/kasp/policy.h:58-65. -/
structure Key where
  t : Timing
  ksk : Bool
  zsk : Bool
  pubOnly : Bool
  alg : Nat
  deriving DecidableEq, Repr

/-- What is used of knot_kasp_policy_t, src/knot/dnssec/kasp/policy.h:90-136, and `ctx->keep_deleted_keys`. -/
structure Policy where
  manual : Bool
  alg : Nat
  sts : Bool
  zskLife : Nat
  kskLife : Nat
  delDelay : Nat
  propagation : Nat
  maxTtl : Nat
  keyTtl : Nat
  sbmTimeout : Nat
  keepDeleted : Bool
  deriving DecidableEq, Repr

/-- zone_sign_roll_flags_t, src/knot/dnssec/zone-events.h:31-41. -/
structure Flags where
  allowKsk : Bool := true
  forceKsk : Bool := false
  allowZsk : Bool := true
  forceZsk : Bool := false
  preserve : Bool := false
  deriving DecidableEq, Repr

/-- knot_time_cmp(), src/contrib/time.h:87-90. -/
def tcmp (a b : Nat) : Int :=
  (if a = b then 0 else 1) * (if a ≠ 0 ∧ b ≠ 0 then 1 else -1) * (if a < b then -1 else 1)

/-- knot_time_min(), src/contrib/time.h:100-107. -/
def tmin (a b : Nat) : Nat := if a ≠ 0 ∧ b ≠ 0 then (if a < b then a else b) else a + b

/-- knot_time_add(), src/contrib/time.h:126-129, without overflow. -/
def tadd (since howlong : Nat) : Nat := if since ≠ 0 then since + howlong else since

/-- knot_time_plus(), src/contrib/time.h:131-134, without overflow. -/
def tplus (a b : Nat) : Nat := if a ≠ 0 ∧ b ≠ 0 then a + b else 0

/-- Addition of two uint32_t. -/
def u32 (a b : Nat) : Nat := (a + b) % 2 ^ 32

/-- key_state_t, src/knot/dnssec/kasp/keystate.h:22-33. -/
inductive KState where
  | invalid | preActive | published | ready | active | retireActive | retired | postActive | revoked | removed
  deriving DecidableEq, Repr

/-- `knot_time_cmp(x, moment) <= 0`. -/
abbrev past (x moment : Nat) : Prop := tcmp x moment ≤ 0

/-- get_key_state(), src/knot/dnssec/kasp/keystate.c:19-73. -/
def keyState (k : Key) (moment : Nat) : KState :=
  if moment = 0 then .invalid
  else if past k.t.remove moment then .removed
  else if past k.t.revoke moment then .revoked
  else if past k.t.postActive moment then (if past k.t.retire moment then .invalid else .postActive)
  else if past k.t.retire moment then .retired
  else if past k.t.retireActive moment then .retireActive
  else if past k.t.active moment then .active
  else if past k.t.ready moment then .ready
  else if past k.t.publish moment then .published
  else if past k.t.preActive moment then .preActive
  else .invalid

/-! ## Questions about the keys -/

/-- key_present(), src/knot/dnssec/key-events.c:27-39. -/
def keyPresent (keys : List Key) (now : Nat) (ksk zsk : Bool) : Bool :=
  keys.any fun k => k.ksk == ksk && k.zsk == zsk && !k.pubOnly && keyState k now != .removed

/-- algorithm_present(), src/knot/dnssec/key-events.c:56-71. -/
def algorithmPresent (keys : List Key) (now alg : Nat) : Nat :=
  keys.countP fun k =>
    decide (past (tmin (tmin k.t.preActive k.t.ready) k.t.active) now) && keyState k now != .removed && k.alg == alg && !k.pubOnly

/-- signing_scheme_present(), src/knot/dnssec/key-events.c:73-80. -/
def schemePresent (p : Policy) (keys : List Key) (now : Nat) : Bool :=
  if p.sts then !keyPresent keys now true false || !keyPresent keys now false true || keyPresent keys now true true
  else keyPresent keys now true false && keyPresent keys now false true

/-- The count in running_rollover() for one key, src/knot/dnssec/key-events.c:249-277: is it in a rollover, is it a ready or
active KSK, is it an active ZSK. -/
def rolling (k : Key) (now : Nat) : Bool × Nat × Nat :=
  if k.pubOnly then (false, 0, 0)
  else
    match keyState k now with
    | .preActive => (true, 0, 0)
    | .published => (true, 0, 0)
    | .ready => (false, if k.ksk then 1 else 0, 0)
    | .active => (false, if k.ksk then 1 else 0, if k.zsk then 1 else 0)
    | .retireActive => (true, 0, 0)
    | .postActive => (true, 0, 0)
    | _ => (false, 0, 0)

/-- running_rollover(), src/knot/dnssec/key-events.c:244-282. -/
def running (keys : List Key) (now : Nat) : Bool :=
  keys.any (fun k => (rolling k now).1) ||
  decide ((keys.map fun k => (rolling k now).2.1).sum > 1) || decide ((keys.map fun k => (rolling k now).2.2).sum > 1)

/-! ## Generating keys -/

/-- generate_key(), src/knot/dnssec/key-events.c:128-147, with kdnssec_generate_key(), src/knot/dnssec/zone-keys.c:150-197. -/
def generateKey (p : Policy) (now : Nat) (keys : List Key) (ksk zsk : Bool) (whenActive : Nat) (pre : Bool) : List Key :=
  keys ++ [{ t := { created := now, active := if ksk then 0 else whenActive, ready := if ksk then whenActive else 0,
                    publish := if pre then 0 else now, preActive := if pre then now else 0 },
             ksk := ksk, zsk := zsk, pubOnly := false, alg := p.alg }]

/-- generate_ksk() with GEN_KSK_FLAGS, src/knot/dnssec/key-events.c:233-242. -/
def generateKsk (p : Policy) (now : Nat) (keys : List Key) (whenActive : Nat) (pre : Bool) : List Key :=
  generateKey p now keys true p.sts whenActive pre

/-- DNSKEY_GENERATE_ZSK only, src/knot/dnssec/key-events.c:746, 771, 783, 795, 817. -/
def generateZsk (p : Policy) (now : Nat) (keys : List Key) (whenActive : Nat) (pre : Bool) : List Key :=
  generateKey p now keys false true whenActive pre

/-! ## The next action -/

/-- clear_future_timer(), src/knot/dnssec/key-events.c:95-102. -/
def clearTimer (timer now : Nat) : Nat := if timer > now then 0 else timer

/-- clear_future_timers(), src/knot/dnssec/key-events.c:105-126. -/
def clearFuture (now : Nat) (k : Key) : Key :=
  let t := { k.t with
    preActive := clearTimer k.t.preActive now, publish := clearTimer k.t.publish now, ready := clearTimer k.t.ready now,
    active := clearTimer k.t.active now, retireActive := clearTimer k.t.retireActive now }
  if t.retireActive = 0 then
    { k with t := { t with retire := clearTimer t.retire now, remove := clearTimer t.remove now } }
  else { k with t }

/-- roll_action_type_t, src/knot/dnssec/key-events.c:284-293. -/
inductive Act where
  | invalid | generate | publish | submit | replace | retire | remove | reallyRemove
  deriving DecidableEq, Repr

/-- roll_action_t, src/knot/dnssec/key-events.c:295-303: the time, the action, the position and the type of the key. -/
structure Next where
  time : Nat := 0
  act : Act := .invalid
  idx : Nat := 0
  ksk : Bool := false
  deriving DecidableEq, Repr

/-- zsk_rollover_time(), ksk_rollover_time() and ksk_sbm_max_time(), src/knot/dnssec/key-events.c:320-326, 344-350, 360-366. -/
def lifeTime (t life : Nat) : Nat := if t = 0 ∨ life = 0 then 0 else tplus t life

/-- zsk_active_time(), ksk_ready_time(), ksk_retire_time() and alg_remove_time(), src/knot/dnssec/key-events.c:328-334,
352-358, 368-375, 415-418. -/
def afterKeyTtl (p : Policy) (t : Nat) : Nat := if t = 0 then 0 else tadd t (u32 p.propagation p.keyTtl)

/-- zsk_remove_time() and alg_publish_time(), src/knot/dnssec/key-events.c:336-342, 407-413. -/
def afterMaxTtl (p : Policy) (t : Nat) : Nat := if t = 0 then 0 else tadd t (u32 p.propagation p.maxTtl)

/-- ksk_remove_time(), src/knot/dnssec/key-events.c:377-387. The addition is done in 64 bits. -/
def kskRemoveTime (p : Policy) (t : Nat) (csk : Bool) : Nat :=
  if t = 0 then 0 else tadd t (p.propagation + if csk then p.maxTtl else p.keyTtl)

/-- The times of REALLY_REMOVE: zsk_really_remove_time(), ksk_really_remove_time(), src/knot/dnssec/key-events.c:389-403, and
the test in next_action(), src/knot/dnssec/key-events.c:483-486, 520-523. -/
def reallyTime (p : Policy) (now remove : Nat) : Nat :=
  let t := if p.keepDeleted then 0 else tadd remove p.delDelay
  if tcmp t now > 0 then 0 else t

/-- The choice for a KSK in next_action(), src/knot/dnssec/key-events.c:437-490. -/
def kskAction (p : Policy) (now : Nat) (run : Bool) (k : Key) : Option (Nat × Act) :=
  match keyState k now with
  | .preActive => some (afterMaxTtl p k.t.preActive, .publish)
  | .published => some (afterKeyTtl p k.t.publish, .submit)
  | .ready => some (lifeTime k.t.ready p.sbmTimeout, .replace)
  | .active =>
    if !run && k.alg == p.alg then some (lifeTime (if k.t.created = 0 then k.t.active else k.t.created) p.kskLife, .generate)
    else some (0, .invalid)
  | .retireActive =>
    if k.t.retire = 0 ∧ k.t.postActive = 0 ∧ k.t.remove = 0 then some (afterKeyTtl p k.t.retireActive, .retire)
    else some (0, .invalid)
  | .postActive => some (afterKeyTtl p k.t.postActive, .remove)
  | .retired => some (kskRemoveTime p (tmin k.t.retire k.t.remove) k.zsk, .remove)
  | .removed => some (reallyTime p now k.t.remove, .reallyRemove)
  | _ => none

/-- The choice for a ZSK in next_action(), src/knot/dnssec/key-events.c:492-528. -/
def zskAction (p : Policy) (now : Nat) (run : Bool) (k : Key) : Option (Nat × Act) :=
  match keyState k now with
  | .preActive => some (afterMaxTtl p k.t.preActive, .publish)
  | .published => some (afterKeyTtl p k.t.publish, .replace)
  | .active =>
    if !run && k.alg == p.alg then some (lifeTime k.t.active p.zskLife, .generate) else some (0, .invalid)
  | .retireActive => some (0, .invalid)
  | .postActive => some (afterKeyTtl p k.t.postActive, .remove)
  | .retired => some (afterMaxTtl p (tmin k.t.retire k.t.remove), .remove)
  | .removed => some (reallyTime p now k.t.remove, .reallyRemove)
  | _ => none

/-- Is the key left out in next_action(), src/knot/dnssec/key-events.c:428-432. -/
def skipped (f : Flags) (k : Key) : Bool := k.pubOnly || (k.ksk && !f.allowKsk) || (k.zsk && !f.allowZsk)

/-- The loop in next_action(), src/knot/dnssec/key-events.c:424-536, over `n` keys from position `i` on. -/
def nextLoop (p : Policy) (f : Flags) (now : Nat) : Nat → Nat → List Key → Next → List Key × Next
  | 0, _, keys, res => (keys, res)
  | n + 1, i, keys, res =>
    match keys[i]? with
    | none => (keys, res)
    | some k =>
      if skipped f k then nextLoop p f now n (i + 1) keys res
      else
        let k := if f.preserve then k else clearFuture now k
        let keys := keys.set i k
        match (if k.ksk then kskAction p now (running keys now) k else zskAction p now (running keys now) k) with
        | none => nextLoop p f now n (i + 1) keys res
        | some (t, a) =>
          nextLoop p f now n (i + 1) keys (if tcmp t res.time < 0 then ⟨t, a, i, k.ksk⟩ else res)

/-- next_action(), src/knot/dnssec/key-events.c:420-539. -/
def nextAction (p : Policy) (f : Flags) (now : Nat) (keys : List Key) : List Key × Next :=
  nextLoop p f now keys.length 0 keys {}

/-! ## The actions -/

/-- Change of the timers of the key at a position. -/
def setT (keys : List Key) (i : Nat) (g : Timing → Timing) : List Key :=
  match keys[i]? with
  | some k => keys.set i { k with t := g k.t }
  | none => keys

/-- submit_key(), src/knot/dnssec/key-events.c:541-557. -/
def submitKey (now : Nat) (keys : List Key) (i : Nat) : Res (List Key) :=
  match keys[i]? with
  | none => .ub
  | some k =>
    if keyState k now = .published ∧ k.ksk = true then
      .ok (setT (keys.map fun k =>
        if k.ksk && !k.pubOnly && keyState k now == .ready then { k with t := { k.t with active := now } } else k)
        i fun t => { t with ready := now })
    else .ub

/-- knot_dnssec_key2retire(), src/knot/dnssec/key-events.c:559-570: the position. -/
def key2retire (now : Nat) (keys : List Key) (new : Key) : Option Nat :=
  keys.findIdx? fun k => ((new.ksk && k.ksk) || (!new.ksk && !k.ksk)) && keyState k now == .active

/-- zsk2retire(), src/knot/dnssec/key-events.c:572-588: the position. -/
def zsk2retire (now : Nat) (keys : List Key) (new : Key) : Option Nat :=
  keys.findIdx? fun k => k.zsk && !k.ksk && (k.alg != new.alg || new.zsk) &&
    (keyState k now == .active || keyState k now == .retireActive)

/-- What happens to the old key, src/knot/dnssec/key-events.c:599-612. -/
def retireOld (now delay : Nat) (algdiff : Bool) (old : Key) (t : Timing) : Timing :=
  if algdiff then
    if old.ksk then { t with retireActive := now, postActive := now + delay } else { t with retireActive := now }
  else if old.ksk then
    if old.zsk then { t with retireActive := now, retire := now + delay } else { t with retireActive := now, remove := now + delay }
  else { t with retire := now }

/-- What happens to the old ZSK, src/knot/dnssec/key-events.c:614-620. -/
def retireZsk (now delay : Nat) (algdiff : Bool) (t : Timing) : Timing :=
  if algdiff then { t with postActive := now + delay } else { t with retire := now }

/-- The old keys in exec_new_signatures(), src/knot/dnssec/key-events.c:594-621. -/
def retireBoth (now delay : Nat) (keys : List Key) (new : Key) : List Key :=
  match key2retire now keys new with
  | none => keys
  | some j =>
    match keys[j]? with
    | none => keys
    | some old =>
      let algdiff := old.alg != new.alg
      let keys := setT keys j (retireOld now delay algdiff old)
      if new.ksk then
        match zsk2retire now keys new with
        | none => keys
        | some z => setT keys z (retireZsk now delay algdiff)
      else keys

/-- exec_new_signatures(), src/knot/dnssec/key-events.c:590-634. -/
def newSignatures (now delay : Nat) (keys : List Key) (i : Nat) : Res (List Key) :=
  match keys[i]? with
  | none => .ub
  | some new =>
    let keys := retireBoth now delay keys new
    match keys[i]? with
    | none => .ub
    | some k =>
      if keyState k now = (if new.ksk then .ready else .published) then
        .ok (setT keys i fun t => { t with active := tmin now t.active })
      else .ub

/-- exec_publish(), src/knot/dnssec/key-events.c:636-642. -/
def execPublish (now : Nat) (keys : List Key) (i : Nat) : Res (List Key) :=
  match keys[i]? with
  | none => .ub
  | some k => if keyState k now = .preActive then .ok (setT keys i fun t => { t with publish := now }) else .ub

/-- The loop in exec_ksk_retire(), src/knot/dnssec/key-events.c:649-657: the position of the last key that matches. -/
def rolloverFriend (now : Nat) (all : List Key) : Nat → List Key → Option Nat → Option Nat
  | _, [], r => r
  | i, k :: l, r =>
    let magic := if k.ksk && k.zsk then 2 else 3
    rolloverFriend now all (i + 1) l
      (if k.zsk && keyState k now == .retireActive && decide (algorithmPresent all now k.alg < magic) then some i else r)

/-- exec_ksk_retire(), src/knot/dnssec/key-events.c:644-669. -/
def kskRetire (now : Nat) (keys : List Key) (i : Nat) : Res (List Key) :=
  match keys[i]? with
  | none => .ub
  | some k =>
    if keyState k now = .retireActive then
      match rolloverFriend now keys 0 keys none with
      | some j => .ok (setT (setT keys i fun t => { t with postActive := now }) j fun t => { t with postActive := now })
      | none => .ok (setT keys i fun t => { t with retire := now })
    else .ub

/-- exec_remove_old_key(), src/knot/dnssec/key-events.c:671-678. -/
def removeOld (now : Nat) (keys : List Key) (i : Nat) : Res (List Key) :=
  match keys[i]? with
  | none => .ub
  | some k =>
    if keyState k now = .retired ∨ keyState k now = .postActive ∨ keyState k now = .removed then
      .ok (setT keys i fun t => { t with remove := now })
    else .ub

/-- exec_really_remove(), src/knot/dnssec/key-events.c:680-685, with kdnssec_delete_key(), src/knot/dnssec/zone-keys.c:225-256. -/
def reallyRemove (p : Policy) (now : Nat) (keys : List Key) (i : Nat) : Res (List Key) :=
  match keys[i]? with
  | none => .ub
  | some k => if keyState k now = .removed ∧ p.keepDeleted = false then .ok (keys.eraseIdx i) else .ub

/-- The switch in knot_dnssec_key_rollover(), src/knot/dnssec/key-events.c:812-855. -/
def execAction (p : Policy) (now : Nat) (keys : List Key) (n : Next) : Res (List Key) :=
  match n.act with
  | .generate => .ok (if n.ksk then generateKsk p now keys 0 false else generateZsk p now keys 0 false)
  | .publish => execPublish now keys n.idx
  | .submit => submitKey now keys n.idx
  | .replace => newSignatures now 0 keys n.idx
  | .retire => kskRetire now keys n.idx
  | .remove => removeOld now keys n.idx
  | .reallyRemove => reallyRemove p now keys n.idx
  | .invalid => .err .einval

/-! ## The rollover -/

/-- Initial keys, src/knot/dnssec/key-events.c:726-749. -/
def initialKeys (p : Policy) (f : Flags) (now : Nat) (keys : List Key) : List Key :=
  if (!keyPresent keys now true false && !keyPresent keys now true true) ||
     ((!f.allowKsk && f.allowZsk) && !keyPresent keys now false true && !keyPresent keys now true true) then
    let keys := if f.allowKsk then generateKsk p now keys now false else keys
    if f.allowZsk && !p.sts && !keyPresent keys now false true then generateZsk p now keys now false else keys
  else keys

/-- Forced KSK rollover, src/knot/dnssec/key-events.c:750-763. -/
def forcedKsk (p : Policy) (f : Flags) (now : Nat) (keys : List Key) : List Key :=
  if f.forceKsk && f.allowKsk && !running keys now then generateKsk p now keys 0 false else keys

/-- Forced ZSK rollover, src/knot/dnssec/key-events.c:764-777. -/
def forcedZsk (p : Policy) (f : Flags) (now : Nat) (keys : List Key) : List Key :=
  if f.forceZsk && f.allowZsk && !running keys now then generateZsk p now keys 0 false else keys

/-- Algorithm rollover, src/knot/dnssec/key-events.c:778-789. -/
def algorithmRoll (p : Policy) (f : Flags) (now : Nat) (keys : List Key) : List Key :=
  if algorithmPresent keys now p.alg = 0 ∧ running keys now = false ∧ f.allowKsk = true ∧ f.allowZsk = true then
    let keys := generateKsk p now keys 0 true
    if p.sts then keys else generateZsk p now keys 0 true
  else keys

/-- Rollover to another scheme, src/knot/dnssec/key-events.c:790-801. -/
def schemeRoll (p : Policy) (f : Flags) (now : Nat) (keys : List Key) : List Key :=
  if schemePresent p keys now = false ∧ f.allowKsk = true ∧ f.allowZsk = true ∧ running keys now = false then
    let keys := generateKsk p now keys 0 false
    if p.sts then keys else generateZsk p now keys 0 false
  else keys

/-- The generating part of knot_dnssec_key_rollover(), src/knot/dnssec/key-events.c:726-801. -/
def generating (p : Policy) (f : Flags) (now : Nat) (keys : List Key) : List Key :=
  schemeRoll p f now (algorithmRoll p f now (forcedZsk p f now (forcedKsk p f now (initialKeys p f now keys))))

/-- knot_dnssec_key_rollover(), src/knot/dnssec/key-events.c:709-902: the keys; none when the fuel is used up. The forcing
flags are cleared before the recursive call. -/
def rollover (p : Policy) (now : Nat) : Nat → Flags → List Key → Res (Option (List Key))
  | 0, _, _ => .ok none
  | fuel + 1, f, keys =>
    if p.manual then .ok (some keys)
    else do
      let (keys, n) := nextAction p f now (generating p f now keys)
      if past n.time now then do
        let keys ← execAction p now keys n
        let (keys, n) := nextAction p f now keys
        if past n.time now then rollover p now fuel { f with forceKsk := false, forceZsk := false } keys
        else .ok (some keys)
      else .ok (some keys)

/-- knot_dnssec_ksk_sbm_confirm(), src/knot/dnssec/key-events.c:904-918; none is KNOT_NO_READY_KEY. -/
def confirm (now delay : Nat) (keys : List Key) : Res (Option (List Key)) :=
  match keys.findIdx? fun k => k.ksk && !k.pubOnly && keyState k now == .ready with
  | none => .ok none
  | some i => do
    let keys ← newSignatures now delay keys i
    .ok (some keys)

/-! ## What the keys do in the zone -/

/-- is_published(), src/knot/dnssec/zone-keys.c:258-263. -/
def isPublished (t : Timing) (now : Nat) : Bool := decide (past t.publish now ∧ ¬past t.postActive now ∧ ¬past t.remove now)

/-- is_ready(), src/knot/dnssec/zone-keys.c:265-269. -/
def isReady (t : Timing) (now : Nat) : Bool := decide (past t.ready now ∧ ¬past t.active now)

/-- is_active(), src/knot/dnssec/zone-keys.c:271-277. -/
def isActive (t : Timing) (now : Nat) : Bool :=
  decide (past t.active now ∧ ¬past t.retire now ∧ ¬past t.retireActive now ∧ ¬past t.remove now)

/-- alg_has_active_zsk(), src/knot/dnssec/zone-keys.c:279-289. -/
def algHasActiveZsk (keys : List Key) (now alg : Nat) : Bool := keys.any fun k => k.alg == alg && k.zsk && isActive k.t now

/-- What is used of zone_key_t, src/knot/dnssec/zone-keys.h:29-47. -/
structure ZKey where
  ksk : Bool
  zsk : Bool
  alg : Nat
  isPublic : Bool
  ready : Bool
  active : Bool
  kskPlus : Bool
  zskPlus : Bool
  revoked : Bool
  pubOnly : Bool
  deriving DecidableEq, Repr

/-- set_key(), src/knot/dnssec/zone-keys.c:302-385, in its order; without the time of the next event. -/
def setKey (k : Key) (now : Nat) (sameAlg : Bool) : ZKey :=
  let t := k.t
  let z : ZKey := { ksk := k.ksk, zsk := k.zsk, alg := k.alg, isPublic := isPublished t now, ready := k.ksk && isReady t now,
                    active := isActive t now, kskPlus := false, zskPlus := false, revoked := false, pubOnly := false }
  let z := { z with kskPlus := z.isPublic && z.ksk && !z.active, zskPlus := z.ready && !sameAlg }
  let z := if past t.preActive now ∧ ¬past t.ready now ∧ ¬past t.active now ∧ ¬past t.remove now then
    { z with zskPlus := z.zsk } else z
  let z := if past t.retire now ∧ ¬past t.remove now then { z with kskPlus := false, isPublic := z.zsk } else z
  let z := if past t.retireActive now ∧ ¬past t.retire now ∧ ¬past t.remove now then
    { z with kskPlus := z.ksk, zskPlus := !sameAlg } else z
  let z := if past t.postActive now ∧ ¬past t.remove now then { z with kskPlus := false, zskPlus := z.zsk } else z
  let z := if z.ksk ∧ past t.revoke now ∧ ¬past t.remove now then
    { z with ready := false, active := false, kskPlus := true, isPublic := true, revoked := true } else z
  if k.pubOnly then { z with active := false, kskPlus := false, zskPlus := false, pubOnly := true } else z

/-- The loop of load_zone_keys(), src/knot/dnssec/zone-keys.c:546-551. -/
def zoneKeys (keys : List Key) (now : Nat) : List ZKey := keys.map fun k => setKey k now (algHasActiveZsk keys now k.alg)

/-- The four bits of `alg_usage` in walk_algorithms(), src/knot/dnssec/zone-keys.c:426-429. -/
def usage (keys : List ZKey) (alg : Nat) : Bool × Bool × Bool × Bool :=
  (keys.any fun k => !k.pubOnly && k.alg == alg && k.ksk && k.isPublic,
   keys.any fun k => !k.pubOnly && k.alg == alg && k.zsk && k.isPublic,
   keys.any fun k => !k.pubOnly && k.alg == alg && k.ksk && (k.active || k.kskPlus),
   keys.any fun k => !k.pubOnly && k.alg == alg && k.zsk && (k.active || k.zskPlus))

/-- The second loop in walk_algorithms(), src/knot/dnssec/zone-keys.c:432-451, without `offline-ksk`. -/
def walkLoop (keys : List ZKey) (have' : Bool) : List Nat → Option Err
  | [] => if have' then none else some .enokey
  | a :: l =>
    let (kp, zp, ks, zs) := usage keys a
    if !kp && !zp then walkLoop keys have' l
    else if kp && zp && ks && zs then walkLoop keys true l
    else some .ezoneInval

/-- walk_algorithms(), src/knot/dnssec/zone-keys.c:400-459, without `unsafe-operation: no-check-keyset` and with algorithms
allowed with NSEC3: none is success, ezoneInval stands for KNOT_DNSSEC_EMISSINGKEYTYPE. -/
def walkAlgorithms (keys : List ZKey) : Option Err := walkLoop keys false (List.range 256)

/-- load_zone_keys(), src/knot/dnssec/zone-keys.c:526-587, up to loading the private keys. -/
def loadZoneKeys (keys : List Key) (now : Nat) : Option Err :=
  if keys.length < 1 then some .enokey else walkAlgorithms (zoneKeys keys now)

end Knot.Keyroll
