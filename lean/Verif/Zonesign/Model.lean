import Verif.Serial.Model
import Verif.Dname.Spec
/-!
# Model of the signing of zone contents and of the validation of signatures
(src/knot/dnssec/zone-sign.c, rrset-sign.c, zone-events.c; src/contrib/time.h)

Signatures are records with the fields of RRSIG RDATA (C47 relates octets and fields). A set of RRSIG
records is a list without order (any order of the records is considered); adding an existing record
changes nothing, as in `knot_rdataset_add` (C09). Computing and verifying signatures are parameters.
-/
namespace Knot.Zonesign
open Knot
open Knot.Dname (Name)

/-- Fields of RRSIG RDATA. Source: src/libknot/rrtype/rrsig.h:31-98. -/
structure Sig where
  covered : Nat
  alg : Nat
  labels : Nat
  ttl : Nat
  expiration : Nat
  inception : Nat
  keyTag : Nat
  signer : Name
  signature : List UInt8
  deriving DecidableEq, Repr

/-- An RRset other than RRSIG of a node. -/
structure RRset where
  type : Nat
  ttl : Nat
  rdata : List (List UInt8)
  deriving DecidableEq, Repr

/-- `zone_key_t` (signing) or `knot_kasp_key_t` (validation); `id` is the key itself.
Source: src/knot/dnssec/zone-keys.h:29-47; src/knot/dnssec/kasp/kasp_zone.h. -/
structure Key where
  id : Nat
  tag : Nat
  alg : Nat
  isKsk : Bool
  isZsk : Bool
  active : Bool
  kskPlus : Bool
  zskPlus : Bool
  deriving DecidableEq, Repr

/-- The parts of `zone_node_t` in use: `verified` is `NODE_FLAGS_RRSIGS_VALID`; `touched` says that the node is
in the tree of nodes changed by the update. Source: src/knot/zone/node.h:39-110. -/
structure Node where
  owner : Name
  deleg : Bool
  nonauth : Bool
  verified : Bool
  touched : Bool
  rrsets : List RRset
  sigs : List Sig
  deriving DecidableEq, Repr

/-- Cryptography: computing a signature over the fields of RRSIG (without signature) and the covered records,
which may fail, and verifying it. Source: src/knot/dnssec/rrset-sign.c:181-195; src/libdnssec/sign/sign.c. -/
structure Crypto where
  sign : Key → Name → RRset → Sig → Option (List UInt8)
  verify : Key → Name → RRset → Sig → Bool

/-- `kdnssec_ctx_t` and its policy. Source: src/knot/dnssec/context.h; src/knot/dnssec/kasp/policy.h:106-108. -/
structure Ctx where
  now : Nat
  lifetime : Nat
  refresh : Nat
  prerefresh : Nat
  unsafeExpired : Bool
  dropExisting : Bool
  tagConflict : Bool
  apex : Name
  keys : List Key
  offline : List Sig
  deriving Repr

/-! ## Time -/

/-- `knot_time_from_u32`, for `now` other than 0. Source: src/contrib/time.h:146-161. -/
def timeFromU32 (u now : Nat) : Nat :=
  let lower := now % 4294967296
  let upper := now / 4294967296
  let upper :=
    if lower > u ∧ lower - u > 2147483647 then (upper + 1) % 18446744073709551616
    else if lower < u ∧ u - lower > 2147483647 then (18446744073709551615 + upper) % 18446744073709551616
    else upper
  (upper * 4294967296 % 18446744073709551616 + u) % 18446744073709551616

/-- `knot_time_min`; 0 is never. Source: src/contrib/time.h:100-107. -/
def timeMin (a b : Nat) : Nat :=
  if a = 0 ∨ b = 0 then a + b else if a < b then a else b

/-- `knot_time_add` of a negative difference. Source: src/contrib/time.h:126-129. -/
def timeSub (t d : Nat) : Nat :=
  if t ≠ 0 then (18446744073709551616 + t - d) % 18446744073709551616 else t

/-- `is_expired_signature`. Source: src/knot/dnssec/rrset-sign.c:363-374. -/
def isExpired (s : Sig) (now refresh : Nat) : Bool :=
  decide (now ≥ (18446744073709551616 + timeFromU32 s.expiration now - refresh % 4294967296) % 18446744073709551616 ∨
    now < timeFromU32 s.inception now)

/-- `knot_check_signature`, whether it gives `KNOT_EOK`. Source: src/knot/dnssec/rrset-sign.c:376-428. -/
def checkSig (C : Crypto) (ctx : Ctx) (owner : Name) (cov : RRset) (k : Key) (refresh : Nat) (skip : Bool) (s : Sig) : Bool :=
  if !ctx.unsafeExpired && isExpired s ctx.now refresh then false
  else if skip then true
  else C.verify k owner cov s

/-! ## Signing an RRset -/

/-- The test for algorithm, key tag and covered type in `valid_signature_exists`.
Source: src/knot/dnssec/zone-sign.c:130-140. -/
def matches' (k : Key) (cov : RRset) (s : Sig) : Bool :=
  decide (s.keyTag = k.tag ∧ s.alg = k.alg ∧ s.covered = cov.type)

/-- `valid_signature_exists` without a map: the first valid signature by the key.
Source: src/knot/dnssec/zone-sign.c:111-162. -/
def firstValid (C : Crypto) (ctx : Ctx) (owner : Name) (cov : RRset) (k : Key) (refresh : Nat) (skip : Bool) :
    List Sig → Option Sig
  | [] => none
  | s :: ss =>
    if matches' k cov s && checkSig C ctx owner cov k refresh skip s then some s
    else firstValid C ctx owner cov k refresh skip ss

/-- `knot_zone_sign_use_key`. Source: src/knot/dnssec/zone-sign.c:920-948. -/
def useKey (ctx : Ctx) (owner : Name) (type : Nat) (k : Key) : Bool :=
  let activeKsk := (k.active || k.kskPlus) && k.isKsk
  let activeZsk := (k.active || k.zskPlus) && k.isZsk
  if owner ≠ ctx.apex then activeZsk
  else if type = 48 ∨ type = 59 ∨ type = 60 then activeKsk
  else activeZsk

/-- The number of labels in an RRSIG. Source: src/knot/dnssec/rrset-sign.c:226-229. -/
def sigLabels (owner : Name) : Nat :=
  if owner.head? = some [42] then owner.length - 1 else owner.length

/-- `knot_sign_rrset` with `rrsigs_create_rdata` and `rrsig_write_rdata`: the new RRSIG and its expiration. The
assertion that the header could be written fails if the inception is not before the expiration.
Source: src/knot/dnssec/rrset-sign.c:75-103, 211-289. -/
def signRRset (C : Crypto) (ctx : Ctx) (owner : Name) (cov : RRset) (k : Key) : Res (Sig × Nat) := do
  let incept := (18446744073709551616 + ctx.now - 5400) % 18446744073709551616
  let expire := (ctx.now + ctx.lifetime) % 18446744073709551616
  let c ← Serial.serialCompare (incept % 4294967296) (expire % 4294967296)
  if c ≠ .lower then .ub
  else
    let h : Sig := ⟨cov.type, k.alg, sigLabels owner, cov.ttl, expire % 4294967296, incept % 4294967296, k.tag, ctx.apex, []⟩
    match C.sign k owner cov h with
    | none => .err .error
    | some d => .ok ({ h with signature := d }, expire)

/-- Adding a record to a set. -/
def insertSig (l : List Sig) (s : Sig) : List Sig := if s ∈ l then l else l ++ [s]

/-- The RRSIG records covering a type: `knot_synth_rrsig`. Source: src/knot/dnssec/rrset-sign.c:315-342. -/
def covering (type : Nat) (l : List Sig) : List Sig := l.filter (fun s => s.covered = type)

/-- Removals, additions, and the earliest expiration noted (`stats->expire`). -/
structure Work where
  rem : List Sig
  add : List Sig
  expire : Nat
  deriving DecidableEq, Repr

/-- `refresh`, passed on as 32 bits. Source: src/knot/dnssec/zone-sign.c:253-254; src/knot/dnssec/rrset-sign.c:363-364. -/
def margin (ctx : Ctx) : Nat := (ctx.refresh + ctx.prerefresh) % 4294967296

/-- The loop over the keys in `add_missing_rrsigs`. Source: src/knot/dnssec/zone-sign.c:246-268. -/
def keyLoop (C : Crypto) (ctx : Ctx) (owner : Name) (cov : RRset) (sigs : List Sig) (skip : Bool) : List Key → Work → Res Work
  | [], w => .ok w
  | k :: ks, w =>
    if !useKey ctx owner cov.type k then keyLoop C ctx owner cov sigs skip ks w
    else
      match firstValid C ctx owner cov k (margin ctx) skip sigs with
      | some s =>
        keyLoop C ctx owner cov sigs skip ks
          { w with rem := w.rem.filter (· ≠ s), expire := timeMin (timeFromU32 s.expiration ctx.now) w.expire }
      | none => do
        let (s, e) ← signRRset C ctx owner cov k
        keyLoop C ctx owner cov sigs skip ks { w with add := insertSig w.add s, expire := timeMin w.expire e }

/-- What `add_missing_rrsigs` does before the loop: all RRSIG records of the type are to be removed; those made
offline are kept or added. Source: src/knot/dnssec/zone-sign.c:226-244. -/
def initWork (ctx : Ctx) (owner : Name) (type : Nat) (sigs : List Sig) (expire : Nat) : Work :=
  let rem := covering type sigs
  let off := if owner = ctx.apex then covering type ctx.offline else []
  ⟨rem.filter (fun s => s ∉ off), off.filter (fun s => s ∉ sigs), expire⟩

/-- `add_missing_rrsigs`. Source: src/knot/dnssec/zone-sign.c:215-289. -/
def addMissing (C : Crypto) (ctx : Ctx) (owner : Name) (cov : RRset) (sigs : List Sig) (skip : Bool) (expire : Nat) : Res Work :=
  keyLoop C ctx owner cov sigs skip ctx.keys (initWork ctx owner cov.type sigs expire)

/-! ## Signing a node -/

/-- `knot_zone_sign_rr_should_be_signed`, for an RRset other than RRSIG. Source: src/knot/dnssec/zone-sign.c:1001-1021. -/
def shouldSign (n : Node) (type : Nat) : Bool :=
  if n.nonauth then false
  else if n.deleg then decide (type = 47 ∨ type = 43)
  else true

/-- One RRset in `sign_node_rrsets` when signing, with `remove_rrset_rrsigs`, `force_resign_rrset` and `resign_rrset`.
Source: src/knot/dnssec/zone-sign.c:362-433, 494-504, 521-527. -/
def signOne (C : Crypto) (ctx : Ctx) (n : Node) (skip : Bool) (w : Work) (r : RRset) : Res Work :=
  if !shouldSign n r.type then .ok { w with rem := w.rem ++ covering r.type n.sigs }
  else if ctx.dropExisting then do
    let x ← addMissing C ctx n.owner r [] false w.expire
    .ok ⟨w.rem ++ covering r.type n.sigs ++ x.rem, w.add ++ x.add, x.expire⟩
  else do
    let x ← addMissing C ctx n.owner r n.sigs skip w.expire
    .ok ⟨w.rem ++ x.rem, w.add ++ x.add, x.expire⟩

/-- The loop over the RRsets. Source: src/knot/dnssec/zone-sign.c:490-528. -/
def signAll (C : Crypto) (ctx : Ctx) (n : Node) (skip : Bool) : List RRset → Work → Res Work
  | [], w => .ok w
  | r :: rs, w => do
    let w ← signOne C ctx n skip w r
    signAll C ctx n skip rs w

/-- `remove_standalone_rrsigs`: the RRSIG records of types the node does not have; RRSIG itself is there.
Source: src/knot/dnssec/zone-sign.c:435-465. -/
def standalone (n : Node) : List Sig :=
  n.sigs.filter (fun s => s.covered ∉ n.rrsets.map (·.type) ∧ s.covered ≠ 46)

/-- `sign_node_rrsets` when signing. The RRset of RRSIG records, which is not signed, is taken last.
Source: src/knot/dnssec/zone-sign.c:477-534. -/
def signNode (C : Crypto) (ctx : Ctx) (n : Node) : Res Work := do
  let skip := n.verified && !ctx.tagConflict
  let w ← signAll C ctx n skip n.rrsets ⟨[], [], 0⟩
  .ok { w with rem := w.rem ++ covering 46 n.sigs ++ standalone n }

/-- Applying removals and additions to a node: `zone_update_apply_changeset`; a changed node loses the flag and
belongs to the changed ones. Source: src/knot/dnssec/zone-sign.c:669; src/knot/updates/changesets.c:554-604;
src/knot/zone/node.c:318, 348, 377. -/
def applyWork (n : Node) (w : Work) : Node :=
  if w.rem = [] ∧ w.add = [] then n
  else { n with sigs := w.add.foldl insertSig (n.sigs.filter (fun s => s ∉ w.rem)), verified := false, touched := true }

/-! ## Signing a zone -/

/-- `zone_tree_apply` with `sign_node` in one thread: the work for every node that is its own; the nodes with records
are counted. Source: src/knot/dnssec/zone-sign.c:558-581. -/
def threadRun (C : Crypto) (ctx : Ctx) (num idx : Nat) : Nat → List Node → Res (List (Option Work))
  | _, [] => .ok []
  | c, n :: ns =>
    if n.rrsets = [] ∧ n.sigs = [] then do
      let r ← threadRun C ctx num idx c ns
      .ok (none :: r)
    else if c % num ≠ idx then do
      let r ← threadRun C ctx num idx (c + 1) ns
      .ok (none :: r)
    else do
      let w ← signNode C ctx n
      let r ← threadRun C ctx num idx (c + 1) ns
      .ok (some w :: r)

/-- Applying the changes of one thread. -/
def applyAll : List Node → List (Option Work) → List Node
  | n :: ns, some w :: ws => applyWork n w :: applyAll ns ws
  | n :: ns, none :: ws => n :: applyAll ns ws
  | ns, _ => ns

/-- The earliest expiration noted by one thread. -/
def threadExpire (ws : List (Option Work)) : Nat :=
  ws.foldl (fun e w => match w with | some w => timeMin e w.expire | none => e) 0

/-- The collection of the results in `zone_tree_sign`, thread by thread. All threads have run on the nodes as they were
(`orig`). `stats->expire` is shared under a lock; as it is only lowered, the order does not matter and the minimum is
taken here. Source: src/knot/dnssec/zone-sign.c:661-679. -/
def collect (C : Crypto) (ctx : Ctx) (num : Nat) (orig : List Node) : List Nat → List Node → Nat → Res (List Node × Nat)
  | [], ns, e => .ok (ns, e)
  | i :: is, ns, e => do
    let ws ← threadRun C ctx num i 0 orig
    collect C ctx num orig is (applyAll ns ws) (timeMin e (threadExpire ws))

/-- `zone_tree_sign` when signing. Source: src/knot/dnssec/zone-sign.c:600-679. -/
def signTree (C : Crypto) (ctx : Ctx) (num : Nat) (nodes : List Node) : Res (List Node × Nat) :=
  collect C ctx num nodes (List.range num) nodes 0

/-- `set_signed` on all nodes or on the changed ones. Source: src/knot/dnssec/zone-sign.c:583-587, 730-734. -/
def setSigned (whole : Bool) (ns : List Node) : List Node :=
  ns.map (fun n => if whole || n.touched then { n with verified := true } else n)

/-- `knot_zone_sign`: nodes and NSEC3 nodes. Source: src/knot/dnssec/zone-sign.c:706-737. -/
def signZone (C : Crypto) (ctx : Ctx) (num : Nat) (whole : Bool) (nodes nsec3 : List Node) :
    Res (List Node × List Node × Nat) :=
  if num < 1 then .err .einval
  else do
    let (a, e1) ← signTree C ctx num nodes
    let (b, e2) ← signTree C ctx num nsec3
    .ok (setSigned whole a, setSigned whole b, timeMin e1 e2)

/-- `knot_zone_sign_apex_rr`, for the RRset at the apex. Source: src/knot/dnssec/zone-sign.c:1058-1080, 395-411. -/
def signApexRR (C : Crypto) (ctx : Ctx) (n : Node) (r : RRset) (expire : Nat) : Res (Node × Nat) := do
  let x ← addMissing C ctx n.owner r [] false expire
  .ok (applyWork n ⟨covering r.type n.sigs ++ x.rem, x.add, 0⟩, x.expire)

/-- `schedule_next`: when the zone is to be signed again; `keysExpire` and `keyEvent` come from the offline records and
from the keys. Source: src/knot/dnssec/zone-events.c:35-45. -/
def scheduleNext (ctx : Ctx) (keysExpire keyEvent expire : Nat) : Nat :=
  timeMin (timeMin keysExpire (timeSub expire ctx.refresh)) keyEvent

/-! ## Validation -/

/-- `key_used`. Source: src/knot/dnssec/zone-sign.c:291-305. -/
def keyUsed (ctx : Ctx) (owner : Name) (type : Nat) (k : Key) : Bool :=
  if owner ≠ ctx.apex then k.isZsk
  else if type = 48 ∨ type = 59 ∨ type = 60 then k.isKsk
  else k.isZsk

/-- `valid_signature_exists` with the map of octets, kept beside the signatures; the valid signature given back is the
last one. Source: src/knot/dnssec/zone-sign.c:111-162. -/
def searchMap (C : Crypto) (ctx : Ctx) (owner : Name) (cov : RRset) (k : Key) (skip : Bool) :
    List (Sig × Nat) → Option Sig → List (Sig × Nat) × Option Sig
  | [], f => ([], f)
  | (s, v) :: r, f =>
    if !matches' k cov s then
      let x := searchMap C ctx owner cov k skip r f
      ((s, v) :: x.1, x.2)
    else if checkSig C ctx owner cov k 0 skip s then
      let x := searchMap C ctx owner cov k skip r (some s)
      ((s, if v < 128 then v + 128 else v) :: x.1, x.2)
    else if ((v + 1) % 256) % 128 = 3 then ((s, (v + 1) % 256) :: r, f)
    else
      let x := searchMap C ctx owner cov k skip r f
      ((s, (v + 1) % 256) :: x.1, x.2)

/-- The loop over the keys in `knot_validate_rrsigs`: the map, whether a valid signature was found, `*valid_until`.
Source: src/knot/dnssec/zone-sign.c:321-340. -/
def validLoop (C : Crypto) (ctx : Ctx) (owner : Name) (cov : RRset) (skip : Bool) :
    List Key → List (Sig × Nat) → Bool → Nat → List (Sig × Nat) × Bool × Nat
  | [], m, found, u => (m, found, u)
  | k :: ks, m, found, u =>
    if !keyUsed ctx owner cov.type k then validLoop C ctx owner cov skip ks m found u
    else
      let x := searchMap C ctx owner cov k skip m none
      match x.2 with
      | some s => validLoop C ctx owner cov skip ks x.1 true (timeMin (timeFromU32 s.expiration ctx.now) u)
      | none => validLoop C ctx owner cov skip ks x.1 found u

/-- The loop over the map. Source: src/knot/dnssec/zone-sign.c:342-349. -/
def mapResult : List (Sig × Nat) → Res Unit
  | [] => .ok ()
  | (_, v) :: r =>
    if v > 0 ∧ v < 3 then .err .enosig
    else if v % 128 ≥ 3 then .err .ektLimit
    else mapResult r

/-- `knot_validate_rrsigs`: until when the RRset is valid. Source: src/knot/dnssec/zone-sign.c:307-352. -/
def validateRR (C : Crypto) (ctx : Ctx) (owner : Name) (cov : RRset) (sigs : List Sig) (skip : Bool) : Res Nat := do
  let x := validLoop C ctx owner cov skip ctx.keys (sigs.map (fun s => (s, 0))) false 0
  mapResult x.1
  if x.2.1 then .ok x.2.2 else .err .enosig

/-- The loop over the RRsets in `sign_node_rrsets` when validating; the earliest time is kept.
Source: src/knot/dnssec/zone-sign.c:490-520. -/
def validateAll (C : Crypto) (ctx : Ctx) (n : Node) (skip : Bool) : List RRset → Nat → Res Nat
  | [], u => .ok u
  | r :: rs, u =>
    if !shouldSign n r.type then
      if covering r.type n.sigs ≠ [] then .err .enosig else validateAll C ctx n skip rs u
    else do
      let t ← validateRR C ctx n.owner r n.sigs skip
      validateAll C ctx n skip rs (timeMin u t)

/-- `sign_node_rrsets` when validating, the RRSIG records themselves last: the records `remove_standalone_rrsigs` puts
in the changeset. Source: src/knot/dnssec/zone-sign.c:477-534. -/
def validateNode (C : Crypto) (ctx : Ctx) (n : Node) : Res (List Sig × Nat) := do
  let u ← validateAll C ctx n (n.verified && !ctx.tagConflict) n.rrsets 0
  if covering 46 n.sigs ≠ [] then .err .enosig
  else .ok (standalone n, u)

/-- A thread when validating: its error, whether its changeset has records, the earliest time.
Source: src/knot/dnssec/zone-sign.c:558-581. -/
def threadValidate (C : Crypto) (ctx : Ctx) (num idx : Nat) : Nat → List Node → Bool → Nat → Res (Option Err × Bool × Nat)
  | _, [], ch, u => .ok (none, ch, u)
  | c, n :: ns, ch, u =>
    if n.rrsets = [] ∧ n.sigs = [] then threadValidate C ctx num idx c ns ch u
    else if c % num ≠ idx then threadValidate C ctx num idx (c + 1) ns ch u
    else
      match validateNode C ctx n with
      | .ok (l, t) => threadValidate C ctx num idx (c + 1) ns (ch || l ≠ []) (timeMin u t)
      | .err e => .ok (some e, ch, u)
      | .ub => .ub

/-- The first error is kept. Source: src/knot/dnssec/zone-sign.c:662-666. -/
def firstErr : Option Err → Option Err → Option Err
  | none, x => x
  | some e, _ => some e

/-- The collection of the results when validating, with the assertion that the changesets are empty.
Source: src/knot/dnssec/zone-sign.c:661-679. -/
def collectValidate (C : Crypto) (ctx : Ctx) (num : Nat) (nodes : List Node) : List Nat → Option Err → Nat → Res Nat
  | [], none, u => .ok u
  | [], some e, _ => .err e
  | i :: is, e, u => do
    let x ← threadValidate C ctx num i 0 nodes false 0
    if x.2.1 then .ub
    else collectValidate C ctx num nodes is (firstErr e x.1) (timeMin u x.2.2)

/-- `zone_tree_sign` when validating. Source: src/knot/dnssec/zone-sign.c:600-679. -/
def validateTree (C : Crypto) (ctx : Ctx) (num : Nat) (nodes : List Node) : Res Nat :=
  collectValidate C ctx num nodes (List.range num) none 0

end Knot.Zonesign
