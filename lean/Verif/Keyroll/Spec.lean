import Verif.Keyroll.Model
/-!
# What keys and rollovers are supposed to do
-/
namespace Knot.Keyroll.Spec

/-- A timer has come: it is set and not later than the moment. -/
def Come (x moment : Nat) : Prop := x ≠ 0 ∧ x ≤ moment

instance (x m : Nat) : Decidable (Come x m) := inferInstanceAs (Decidable (_ ∧ _))

/-- The order of the states in the documentation; a key ends signing either by `retired` (normal rollover) or by `postActive`
(algorithm rollover). -/
def rank : KState → Nat
  | .invalid => 0 | .preActive => 1 | .published => 2 | .ready => 3 | .active => 4 | .retireActive => 5
  | .retired => 6 | .postActive => 6 | .revoked => 7 | .removed => 8

/-- The timers in the order of the states, the latest first. -/
def stages (t : Timing) : List (Nat × KState) :=
  [(t.remove, .removed), (t.revoke, .revoked), (t.postActive, .postActive), (t.retire, .retired),
   (t.retireActive, .retireActive), (t.active, .active), (t.ready, .ready), (t.publish, .published), (t.preActive, .preActive)]

/-- The state is given by the first timer in that order that has come. -/
def stateOf (t : Timing) (moment : Nat) : KState :=
  match (stages t).find? fun s => decide (Come s.1 moment) with
  | some s => s.2
  | none => .invalid

/-- What a validating resolver needs of the keys of one algorithm: a published key-signing key and a published zone-signing
key, the DNSKEY set signed by a key-signing key, and the zone signed by a zone-signing key. -/
structure Complete (zs : List ZKey) (a : Nat) : Prop where
  kskPublic : ∃ z ∈ zs, z.alg = a ∧ z.ksk = true ∧ z.isPublic = true ∧ z.pubOnly = false
  zskPublic : ∃ z ∈ zs, z.alg = a ∧ z.zsk = true ∧ z.isPublic = true ∧ z.pubOnly = false
  keysSigned : ∃ z ∈ zs, z.alg = a ∧ z.ksk = true ∧ (z.active = true ∨ z.kskPlus = true) ∧ z.pubOnly = false
  zoneSigned : ∃ z ∈ zs, z.alg = a ∧ z.zsk = true ∧ (z.active = true ∨ z.zskPlus = true) ∧ z.pubOnly = false

/-- The zone can be signed: some algorithm is in use, every algorithm with a published key is complete. -/
def Signable (zs : List ZKey) : Prop :=
  (∃ a, a < 256 ∧ Complete zs a) ∧
  ∀ z ∈ zs, z.alg < 256 → z.pubOnly = false → z.isPublic = true → (z.ksk = true ∨ z.zsk = true) → Complete zs z.alg

/-- The stages a key has passed are in the order of its life: it was published before it was submitted or used, and used before
it was to be replaced or removed; it is not revoked. -/
structure InOrder (t : Timing) (now : Nat) : Prop where
  ready : Come t.ready now → Come t.publish now
  active : Come t.active now → Come t.publish now
  retireActive : Come t.retireActive now → Come t.active now
  retire : Come t.retire now → Come t.active now
  postActive : Come t.postActive now → Come t.active now ∧ Come t.retireActive now
  remove : Come t.remove now → Come t.active now
  revoke : ¬Come t.revoke now
  once : ¬(Come t.retire now ∧ Come t.postActive now)

/-- What a key of a state does: whether its DNSKEY record is published, whether it is used as normal, whether it signs the DNSKEY
set beyond that, whether it signs the zone beyond that. `first` says whether the key began by signing only (a new algorithm),
`other` whether another key of its algorithm signs the zone. -/
def role (ksk zsk first other : Bool) : KState → Bool × Bool × Bool × Bool
  | .invalid | .removed => (false, false, false, false)
  | .preActive => (false, false, false, zsk)
  | .published => (true, false, ksk, first && zsk)
  | .ready => (true, false, ksk, ksk && !other)
  | .active => (true, true, false, false)
  | .retireActive => (true, false, ksk, !other)
  | .retired => (zsk, false, false, false)
  | .postActive => (false, false, false, zsk)
  | .revoked => (true, false, true, false)

/-! ## How the timers of a key may change in one run -/

/-- The timer is as it was, or it was planned for the future and the plan was dropped. -/
def Kept (now old new : Nat) : Prop := new = old ∨ new = 0 ∧ now < old

/-- The timer is set to the present, having not come before. -/
def SetNow (now old new : Nat) : Prop := new = now ∧ ¬Come old now

/-- `since` is set and the given time has passed since then. -/
def Waited (now since d : Nat) : Prop := since ≠ 0 ∧ since + d ≤ now

/-- The sum of two delays; the code keeps it in 32 bits. -/
def sum32 (a b : Nat) : Nat := (a + b) % 4294967296

/-- The steps of a key in one run of the rollover, for all the timers; each step only when its waiting time is over. -/
structure Evolved (p : Policy) (now : Nat) (k k' : Key) : Prop where
  same : k'.ksk = k.ksk ∧ k'.zsk = k.zsk ∧ k'.pubOnly = k.pubOnly ∧ k'.alg = k.alg ∧ k'.t.created = k.t.created ∧
    k'.t.revoke = k.t.revoke
  preActive : Kept now k.t.preActive k'.t.preActive
  /-- published: the zone with signatures of the new algorithm has reached all caches -/
  publish : Kept now k.t.publish k'.t.publish ∨
    SetNow now k.t.publish k'.t.publish ∧ Waited now k'.t.preActive (sum32 p.propagation p.maxTtl)
  /-- submitted to the parent: a KSK, its DNSKEY record has reached all caches -/
  ready : Kept now k.t.ready k'.t.ready ∨
    SetNow now k.t.ready k'.t.ready ∧ k.ksk = true ∧ Waited now k'.t.publish (sum32 p.propagation p.keyTtl)
  /-- used for signing: a KSK that was submitted, or a ZSK whose DNSKEY record has reached all caches -/
  active : Kept now k.t.active k'.t.active ∨
    SetNow now k.t.active k'.t.active ∧
      (k.ksk = true ∧ Come k'.t.ready now ∨ k.ksk = false ∧ Waited now k'.t.publish (sum32 p.propagation p.keyTtl))
  /-- to be retired: an active key -/
  retireActive : Kept now k.t.retireActive k'.t.retireActive ∨
    SetNow now k.t.retireActive k'.t.retireActive ∧ Come k'.t.active now
  /-- retired: an active key or one to be retired -/
  retire : Kept now k.t.retire k'.t.retire ∨
    SetNow now k.t.retire k'.t.retire ∧ (Come k'.t.active now ∨ Come k'.t.retireActive now)
  postActive : Kept now k.t.postActive k'.t.postActive ∨
    SetNow now k.t.postActive k'.t.postActive ∧ (Come k'.t.active now ∨ Come k'.t.retireActive now)
  /-- removed: an active KSK (its DS record is gone), or a key whose signatures or DNSKEY record have left all caches -/
  remove : Kept now k.t.remove k'.t.remove ∨
    SetNow now k.t.remove k'.t.remove ∧
      (k.ksk = true ∧ k.zsk = false ∧ Come k'.t.active now ∧ Come k'.t.retireActive now ∨
       Waited now k'.t.postActive (sum32 p.propagation p.keyTtl) ∨
       k.ksk = false ∧ Waited now k'.t.retire (sum32 p.propagation p.maxTtl) ∨
       k.ksk = true ∧ Waited now k'.t.retire (p.propagation + if k.zsk then p.maxTtl else p.keyTtl))

/-- A key made in this run. -/
def Fresh (p : Policy) (now : Nat) (k : Key) : Prop :=
  k.pubOnly = false ∧ k.alg = p.alg ∧ k.t.created = now ∧ (k.ksk = true ∧ k.zsk = p.sts ∨ k.ksk = false ∧ k.zsk = true) ∧
  k.t.retireActive = 0 ∧ k.t.retire = 0 ∧ k.t.postActive = 0 ∧ k.t.revoke = 0 ∧ k.t.remove = 0 ∧
  (k.t.preActive = 0 ∧ k.t.publish = now ∨ k.t.preActive = now ∧ k.t.publish = 0 ∧ k.t.active = 0 ∧ k.t.ready = 0) ∧
  (k.t.active = 0 ∨ k.ksk = false ∧ k.t.active = now) ∧ (k.t.ready = 0 ∨ k.ksk = true ∧ k.t.ready = now)

/-- What one run does to the list of keys: keys make steps, new keys are made at the end, keys may be deleted when they have
been removed for the time set. -/
inductive Run (p : Policy) (now : Nat) : List Key → List Key → Prop
  | nil : Run p now [] []
  | keep {k k' l l'} : Evolved p now k k' → Run p now l l' → Run p now (k :: l) (k' :: l')
  | delete {k k' l l'} : Evolved p now k k' → p.keepDeleted = false → Waited now k'.t.remove p.delDelay → Run p now l l' →
      Run p now (k :: l) l'
  | make {k l'} : Fresh p now k → Run p now [k] l' → Run p now [] l'

/-- What the confirmation of a submitted key does to a key that it replaces: `d` is the delay asked for, `algdiff` whether the
replaced KSK has another algorithm. -/
inductive Replaced (now d : Nat) (algdiff : Bool) (k : Key) : Key → Prop
  | ksk : k.ksk = true → k.zsk = false → algdiff = false →
      Replaced now d algdiff k { k with t := { k.t with retireActive := now, remove := now + d } }
  | csk : k.ksk = true → k.zsk = true → algdiff = false →
      Replaced now d algdiff k { k with t := { k.t with retireActive := now, retire := now + d } }
  | kskAlg : k.ksk = true → algdiff = true →
      Replaced now d algdiff k { k with t := { k.t with retireActive := now, postActive := now + d } }
  | zsk : k.ksk = false → k.zsk = true → algdiff = false → Replaced now d algdiff k { k with t := { k.t with retire := now } }
  | zskAlg : k.ksk = false → k.zsk = true → algdiff = true →
      Replaced now d algdiff k { k with t := { k.t with postActive := now + d } }

/-! ## What is due -/

/-- A rollover is under way: some key is on its way in or out, or two keys do the same job. -/
def Busy (l : List Key) (now : Nat) : Prop :=
  (∃ k ∈ l, k.pubOnly = false ∧ keyState k now ∈ [.preActive, .published, .retireActive, .postActive]) ∨
  1 < (l.filter fun k => !k.pubOnly && k.ksk && (keyState k now == .ready || keyState k now == .active)).length ∨
  1 < (l.filter fun k => !k.pubOnly && k.zsk && keyState k now == .active).length

/-- The next step of the key is due. -/
def Due (p : Policy) (now : Nat) (busy : Prop) (k : Key) : Prop :=
  match keyState k now with
  | .preActive => Waited now k.t.preActive (sum32 p.propagation p.maxTtl)
  | .published => Waited now k.t.publish (sum32 p.propagation p.keyTtl)
  | .ready => k.ksk = true ∧ p.sbmTimeout ≠ 0 ∧ Waited now k.t.ready p.sbmTimeout
  | .active => ¬busy ∧ k.alg = p.alg ∧
      (k.ksk = true ∧ p.kskLife ≠ 0 ∧ Waited now (if k.t.created = 0 then k.t.active else k.t.created) p.kskLife ∨
       k.ksk = false ∧ p.zskLife ≠ 0 ∧ Waited now k.t.active p.zskLife)
  | .retireActive => k.ksk = true ∧ k.t.retire = 0 ∧ k.t.postActive = 0 ∧ k.t.remove = 0 ∧
      Waited now k.t.retireActive (sum32 p.propagation p.keyTtl)
  | .postActive => Waited now k.t.postActive (sum32 p.propagation p.keyTtl)
  | .retired => k.ksk = true ∧ Waited now k.t.retire (p.propagation + if k.zsk then p.maxTtl else p.keyTtl) ∨
      k.ksk = false ∧ Waited now k.t.retire (sum32 p.propagation p.maxTtl)
  | .removed => p.keepDeleted = false ∧ Waited now k.t.remove p.delDelay
  | _ => False

/-- The run may touch the key. -/
def Permitted (f : Flags) (k : Key) : Prop :=
  k.pubOnly = false ∧ (k.ksk = true → f.allowKsk = true) ∧ (k.zsk = true → f.allowZsk = true)

/-- The step that a key of a state makes next. -/
def stepOf (ksk : Bool) : KState → Act
  | .preActive => .publish
  | .published => if ksk then .submit else .replace
  | .ready => .replace
  | .active => .generate
  | .retireActive => .retire
  | .postActive => .remove
  | .retired => .remove
  | .removed => .reallyRemove
  | .invalid => .invalid
  | .revoked => .invalid

/-- There is a key of the kind that is not removed. -/
def Has (l : List Key) (now : Nat) (ksk zsk : Bool) : Prop :=
  ∃ k ∈ l, k.ksk = ksk ∧ k.zsk = zsk ∧ k.pubOnly = false ∧ ¬Come k.t.remove now

/-- A key of the algorithm signs, or did so, and is not removed. -/
def Uses (l : List Key) (now alg : Nat) : Prop :=
  ∃ k ∈ l, k.alg = alg ∧ k.pubOnly = false ∧ ¬Come k.t.remove now ∧
    (Come k.t.preActive now ∨ Come k.t.ready now ∨ Come k.t.active now)

/-- The keys are of the scheme of the policy: one CSK, or KSK and ZSK. -/
def OfScheme (p : Policy) (l : List Key) (now : Nat) : Prop :=
  if p.sts then (Has l now true false ∧ Has l now false true → Has l now true true)
  else Has l now true false ∧ Has l now false true

/-- The reasons to make keys before any step: the zone has no KSK and no CSK; only ZSKs are managed and there is none; a rollover
is forced; the algorithm or the scheme of the policy is another one. But for the first two, no rollover may be under way. -/
inductive Reason (p : Policy) (f : Flags) (now : Nat) (l : List Key) : Prop
  | first : f.allowKsk = true → ¬Has l now true false → ¬Has l now true true → Reason p f now l
  | firstZsk : f.allowKsk = false → f.allowZsk = true → p.sts = false → ¬Has l now false true → ¬Has l now true true →
      Reason p f now l
  | forcedKsk : f.forceKsk = true → f.allowKsk = true → ¬Busy l now → Reason p f now l
  | forcedZsk : f.forceZsk = true → f.allowZsk = true → ¬Busy l now → Reason p f now l
  | algorithm : f.allowKsk = true → f.allowZsk = true → ¬Busy l now → ¬Uses l now p.alg → Reason p f now l
  | scheme : f.allowKsk = true → f.allowZsk = true → ¬Busy l now → ¬OfScheme p l now → Reason p f now l

/-! ## Histories -/

/-- The keys a zone can have at a time: it starts without keys, time passes, the rollover runs with a policy that has the given
algorithm and scheme (everything else may change from run to run, rollovers may be forced), submissions are confirmed. The
first run is allowed to make both kinds of keys. -/
inductive Reach (a : Nat) (s : Bool) : Nat → List Key → Prop
  | start {t} : t ≠ 0 → Reach a s t []
  | wait {t t' l} : Reach a s t l → t ≤ t' → Reach a s t' l
  | run {t l l'} (p : Policy) (f : Flags) (fuel : Nat) : Reach a s t l → p.alg = a → p.sts = s →
      (l = [] → f.allowKsk = true ∧ f.allowZsk = true) → rollover p t fuel f l = .ok (some l') → Reach a s t l'
  | confirm {t l l'} (d : Nat) : Reach a s t l → confirm t d l = .ok (some l') → Reach a s t l'

end Knot.Keyroll.Spec
