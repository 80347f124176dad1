import Verif.Prelude
import Verif.Dname.Model
import Verif.Dname.Spec
import Verif.Sockaddr.Model
/-!
# Model of access control (src/knot/updates/acl.c)

Configuration lookups (`conf_id_get` and the value iterators) are represented by their results: an
item that is not set is an empty list, groups of remotes are replaced by their members. Names in the
configuration and in the request are valid domain names; the matching functions of the update rules
work on their wire form, key names are compared by labels (`knot_dname_is_equal`, see C05).
-/
namespace Knot.Acl
open Knot.Dname (Name wire memcmp inBailiwick)
open Knot.Sockaddr (Addr netMatch rangeMatch cmp)

abbrev Bytes := List UInt8

/-- `acl_action_t`. Source: src/knot/updates/acl.h:24-29. -/
inductive Action
  | query | notify | transfer | update
  deriving DecidableEq, Repr

/-- `knotd_query_proto_t`; the bits of `acl_protocol_t` correspond one to one.
Source: src/knot/include/module.h, src/knot/updates/acl.h. -/
inductive Proto
  | udp | tcp | tls | quic
  deriving DecidableEq, Repr

/-- `acl_update_owner_match_t`. Source: src/knot/updates/acl.h. -/
inductive OwnerMatch
  | subeq | eq | sub | pattern
  deriving DecidableEq, Repr

/-- `acl_update_owner_t`. Source: src/knot/updates/acl.h. -/
inductive Owner
  | none | key | zone | name
  deriving DecidableEq, Repr

/-- A TSIG key of the configuration. -/
structure Key where
  name : Name
  alg : Nat
  secret : Bytes
  deriving DecidableEq, Repr

/-- An item of `acl.address`: see `conf_addr_range`. Source: src/knot/conf/conf.c:798-849. -/
inductive Range
  /-- an address with a prefix length, `none` is −1 -/
  | net (addr : Addr) (pfx : Option Nat)
  | span (lo hi : Addr)
  deriving DecidableEq, Repr

/-- A name of `acl.update-owner-name`: fully qualified, or relative to the zone (stored without the
final zero octet). Source: src/knot/conf/tools.c:190-202. -/
inductive CName
  | fq (n : Name)
  | rel (n : Name)
  deriving DecidableEq, Repr

/-- The stored bytes. Source: src/knot/conf/tools.c:190-202. -/
def CName.bytes : CName → Bytes
  | .fq n => wire n
  | .rel n => (wire n).dropLast

/-- A remote of the configuration. -/
structure Rmt where
  addrs : List Addr
  key : Option Key
  pins : List Bytes
  quic : Bool
  tls : Bool
  autoAcl : Bool
  deriving DecidableEq, Repr

/-- An ACL rule of the configuration. -/
structure Rule where
  rmts : List Rmt
  deny : Bool
  addrs : List Range
  keys : List Key
  pins : List Bytes
  protos : List Proto
  actions : List Action
  updTypes : List Nat
  updOwner : Owner
  updMatch : OwnerMatch
  updNames : List CName
  deriving DecidableEq, Repr

/-- The request: source address, TSIG name and algorithm, certificate pin of the session (empty if
none), transport, zone, and the records of the update section (`none`: no query packet). `le` is the
byte order of the host. -/
structure Req where
  le : Bool
  addr : Addr
  tsig : Option (Name × Nat)
  pin : Bytes
  proto : Proto
  zone : Name
  updates : Option (List (Nat × Name))
  deriving DecidableEq, Repr

/-- `cert_pin_check`. Source: src/knot/updates/acl.c:22-42. -/
def certPinCheck (session : Bytes) (pins : List Bytes) : Bool :=
  if pins = [] then true
  else if session.length = 0 then false
  else go session pins
where
  /-- The loop. Source: src/knot/updates/acl.c:31-39. -/
  go (session : Bytes) : List Bytes → Bool
    | [] => false
    | p :: ps => if p.length = session.length ∧ p = session then true else go session ps

/-- `match_type`; `none` is NULL. Source: src/knot/updates/acl.c:44-59. -/
def matchType (type : Nat) : Option (List Nat) → Bool
  | none => true
  | some ts => go type ts
where
  /-- The loop. Source: src/knot/updates/acl.c:51-56. -/
  go (type : Nat) : List Nat → Bool
    | [] => false
    | t :: ts => if type = t then true else go type ts

/-- `match_pattern`. Source: src/knot/updates/acl.c:61-83. -/
def matchPattern (owner name : Bytes) : Res Bool :=
  match name, owner with
  | [], _ => .ub
  | _ :: _, [] => .ub
  | nl :: nt, ol :: ot =>
    let skip := if nt.length < nl.toNat ∨ ot.length < ol.toNat then .ub
      else matchPattern (ot.drop ol.toNat) (nt.drop nl.toNat)
    if nl.toNat = 1 ∧ nt.head? = none then .ub
    else if nl.toNat = 1 ∧ nt.head? = some 42 then
      if ol.toNat = 0 then .ok false else skip
    else if nl.toNat ≠ ol.toNat then .ok false
    else if nl.toNat = 0 then .ok true
    else if nt.length < nl.toNat ∨ ot.length < nl.toNat then .ub
    else if memcmp (nt.take nl.toNat) (ot.take nl.toNat) ≠ .eq then .ok false
    else skip
termination_by name.length
decreasing_by simp only [List.length_drop, List.length_cons]; omega

/-- `match_name`; a NULL name is `none`. Source: src/knot/updates/acl.c:85-107. -/
def matchName (owner : Bytes) (name : Option Bytes) (m : OwnerMatch) : Res Bool :=
  match name with
  | none => .ok true
  | some name =>
    if m = .pattern then matchPattern owner name
    else match inBailiwick owner name with
      | .ub => .ub
      | .err _ => .ok false
      | .ok n => match m with
        | .subeq => .ok true
        | .eq => .ok (n == 0)
        | .sub => .ok (decide (n > 0))
        | .pattern => .ok false

/-- `match_names`; a NULL list is `none`. Source: src/knot/updates/acl.c:109-138. -/
def matchNames (owner zone : Bytes) (names : Option (List Bytes)) (m : OwnerMatch) : Res Bool :=
  match names with
  | none => .ok true
  | some ns => go owner zone ns m
where
  /-- The loop; the storage has 255 bytes. Source: src/knot/updates/acl.c:117-135. -/
  go (owner zone : Bytes) (names : List Bytes) (m : OwnerMatch) : Res Bool :=
    match names with
    | [] => .ok false
    | n :: ns =>
      if n = [] then .ub                      -- name[len - 1]
      else if n.getLast? ≠ some 0 ∧ n.length + zone.length > 255 then .ok false
      else do
        let full := if n.getLast? ≠ some 0 then n ++ zone else n
        let r ← matchName owner (some full) m
        if r then .ok true else go owner zone ns m

/-- The owner restriction for one record. Source: src/knot/updates/acl.c:184-203. -/
def ownerCheck (o : Owner) (m : OwnerMatch) (names : Option (List Bytes)) (zone : Bytes) (key : Option Bytes)
    (owner : Bytes) : Res Bool :=
  match o with
  | .name => matchNames owner zone names m
  | .key => matchName owner key m
  | .zone => matchName owner (some zone) m
  | .none => .ok true

/-- `update_match`. Source: src/knot/updates/acl.c:140-207. -/
def updateMatch (r : Rule) (q : Req) : Res Bool :=
  match q.updates with
  | none => .ok true
  | some ups =>
    let types := if r.updTypes.length > 0 then some r.updTypes else none
    if types = none ∧ r.updOwner = .none then .ok true
    else
      let m := if r.updOwner ≠ .none then r.updMatch else .subeq
      let names := if r.updOwner = .name ∧ r.updNames.length > 0 then some (r.updNames.map CName.bytes) else none
      go r.updOwner m types names (wire q.zone) (q.tsig.map (fun t => wire t.1)) ups
where
  /-- The loop over the update section. Source: src/knot/updates/acl.c:178-204. -/
  go (o : Owner) (m : OwnerMatch) (types : Option (List Nat)) (names : Option (List Bytes)) (zone : Bytes)
      (key : Option Bytes) : List (Nat × Name) → Res Bool
    | [] => .ok true
    | (t, n) :: ups =>
      if !matchType t types then .ok false
      else do
        let b ← ownerCheck o m names zone key (wire n)
        if b then go o m types names zone key ups else .ok false

/-- `check_proto_rmt`. Source: src/knot/updates/acl.c:209-222. -/
def checkProtoRmt (p : Proto) (m : Rmt) : Bool :=
  if m.quic then p == .quic
  else if m.tls then p == .tls
  else p == .tcp || p == .udp

/-- `check_proto`. Source: src/knot/updates/acl.c:224-252. -/
def checkProto (p : Proto) : List Proto → Bool
  | [] => false
  | x :: xs => if x = p then true else checkProto p xs

/-- `conf_addr_match`. Source: src/knot/conf/conf.c:778-796. -/
def addrMatch (le : Bool) (a : Addr) : List Addr → Bool
  | [] => false
  | m :: ms => if cmp le m a true = 0 then true else addrMatch le a ms

/-- `conf_addr_range_match`; a prefix of −1 becomes 4294967295. Source: src/knot/conf/conf.c:851-878. -/
def addrRangeMatch (le : Bool) (a : Addr) : List Range → Res Bool
  | [] => .ok false
  | .net b p :: rs => do
    let r ← netMatch a b (p.getD 4294967295)
    if r then .ok true else addrRangeMatch le a rs
  | .span lo hi :: rs => if rangeMatch le a lo hi then .ok true else addrRangeMatch le a rs

/-- State of the key value after the loop of `check_addr_key`: positioned at a key (`KNOT_EOK`), past
the end (`KNOT_EOF`) or not configured (`KNOT_ENOENT`). -/
inductive KeyVal
  | at (k : Key)
  | eof
  | enoent
  deriving DecidableEq, Repr

/-- The key loop. Source: src/knot/updates/acl.c:280-308. -/
def keyLoop (remote : Bool) (tsig : Option (Name × Nat)) : List Key → KeyVal
  | [] => .eof
  | k :: ks =>
    match tsig with
    | none => if remote then .eof else keyLoop remote tsig ks
    | some (n, alg) =>
      if k.name ≠ n then (if remote then .eof else keyLoop remote tsig ks)
      else if k.alg ≠ alg then (if remote then .eof else keyLoop remote tsig ks)
      else .at k

/-- The final switch. Source: src/knot/updates/acl.c:309-320. -/
def keySwitch (v : KeyVal) (tsig : Option (Name × Nat)) (deny forward : Bool) : Option KeyVal :=
  match v with
  | .at k => some (.at k)
  | .enoent => if tsig = none ∨ forward ∨ deny then some .enoent else none
  | .eof => none

/-- The key part of `check_addr_key`. Source: src/knot/updates/acl.c:280-322. -/
def keyCheck (keys : List Key) (remote : Bool) (tsig : Option (Name × Nat)) (deny forward : Bool) : Option KeyVal :=
  keySwitch (if keys = [] then .enoent else keyLoop remote tsig keys) tsig deny forward

/-- `check_addr_key` for a remote. Source: src/knot/updates/acl.c:254-323. -/
def checkRmt (m : Rmt) (q : Req) (deny forward : Bool) : Option KeyVal :=
  if m.addrs ≠ [] ∧ !addrMatch q.le q.addr m.addrs then none
  else if !certPinCheck q.pin m.pins then none
  else keyCheck m.key.toList true q.tsig deny forward

/-- The address check of a rule. Source: src/knot/updates/acl.c:260-271. -/
def addrCheck (r : Rule) (q : Req) : Res Bool :=
  if r.addrs = [] then .ok true else addrRangeMatch q.le q.addr r.addrs

/-- `check_addr_key` for a rule. Source: src/knot/updates/acl.c:254-323. -/
def checkAcl (r : Rule) (q : Req) (forward : Bool) : Res (Option KeyVal) := do
  let a ← addrCheck r q
  if !a then .ok none
  else if !certPinCheck q.pin r.pins then .ok none
  else .ok (keyCheck r.keys false q.tsig r.deny forward)

/-- The loop over the remotes of a rule. Source: src/knot/updates/acl.c:360-372. -/
def rmtLoop (q : Req) (deny forward : Bool) : List Rmt → Option KeyVal
  | [] => none
  | m :: ms =>
    match checkRmt m q deny forward with
    | some k => if checkProtoRmt q.proto m then some k else rmtLoop q deny forward ms
    | none => rmtLoop q deny forward ms

/-- Address, key and protocol of a rule. Source: src/knot/updates/acl.c:350-392. -/
def identity (r : Rule) (q : Req) (forward : Bool) : Res (Option KeyVal) :=
  if r.rmts ≠ [] then .ok (rmtLoop q r.deny forward r.rmts)
  else do
    match ← checkAcl r q forward with
    | none => .ok none
    | some k => if r.protos ≠ [] ∧ !checkProto q.proto r.protos then .ok none else .ok (some k)

/-- The answer: denied, or allowed with the secret to use (`none`: not filled in). -/
inductive Verdict
  | denied
  | allowed (secret : Option Bytes)
  deriving DecidableEq, Repr

/-- The loop over the configured actions. Source: src/knot/updates/acl.c:395-404. -/
def actionLoop (a : Action) : List Action → Bool
  | [] => false
  | x :: xs => if x ≠ a then actionLoop a xs else true

/-- The secret filled in. Source: src/knot/updates/acl.c:426-430. -/
def fill (tsig : Option (Name × Nat)) : KeyVal → Option Bytes
  | .at k => if tsig ≠ none then some k.secret else none
  | _ => none

/-- The update check. Source: src/knot/updates/acl.c:415-419. -/
def updateCheck (action : Action) (r : Rule) (q : Req) : Res Bool :=
  if action = .update then updateMatch r q else .ok true

/-- The loop of `acl_allowed`. Source: src/knot/updates/acl.c:350-436. -/
def aclLoop (action : Action) (q : Req) (forward : Bool) : List Rule → Res Verdict
  | [] => .ok .denied
  | r :: rs => do
    match ← identity r q forward with
    | none => aclLoop action q forward rs
    | some k =>
      if action ≠ .query ∧ r.actions = [] then .ok .denied
      else if action ≠ .query ∧ !actionLoop action r.actions then aclLoop action q forward rs
      else do
        let u ← updateCheck action r q
        if !u then aclLoop action q forward rs
        else if r.deny then .ok .denied
        else .ok (.allowed (fill q.tsig k))

/-- Computation of `forward`. Source: src/knot/updates/acl.c:339-348. -/
def forwardFlag (action : Action) (masters : Bool) (ddnsMaster : Option Bytes) : Bool :=
  decide (action = .update) && masters &&
    (match ddnsMaster with
     | none => true
     | some s => decide (s ≠ []))

/-- `acl_allowed`; `masters` says whether the zone has a master, `ddnsMaster` is its `ddns-master`
item (`none`: not set). Source: src/knot/updates/acl.c:325-437. -/
def aclAllowed (rules : List Rule) (action : Action) (q : Req) (masters : Bool) (ddnsMaster : Option Bytes) :
    Res Verdict :=
  aclLoop action q (forwardFlag action masters ddnsMaster) rules

/-- The key comparison of `rmt_allowed`. Source: src/knot/updates/acl.c:469-489. -/
def autoKeyOk (key : Option Key) (tsig : Option (Name × Nat)) : Bool :=
  match key, tsig with
  | some _, none => false
  | some k, some (n, alg) => decide (k.name = n) && decide (k.alg = alg)
  | none, some _ => false
  | none, none => true

/-- The loop of `rmt_allowed`. Without a configured key the secret of a missing key is read only if
the request has a key, which was excluded before. Source: src/knot/updates/acl.c:451-506. -/
def rmtAllowedLoop (q : Req) : List Rmt → Verdict
  | [] => .denied
  | m :: ms =>
    if !m.autoAcl then rmtAllowedLoop q ms
    else if !checkProtoRmt q.proto m then rmtAllowedLoop q ms
    else if !certPinCheck q.pin m.pins then rmtAllowedLoop q ms
    else if !autoKeyOk m.key q.tsig then rmtAllowedLoop q ms
    else if !addrMatch q.le q.addr m.addrs then rmtAllowedLoop q ms
    else .allowed (if q.tsig ≠ none then m.key.map Key.secret else none)

/-- `rmt_allowed`. Source: src/knot/updates/acl.c:439-509. -/
def rmtAllowed (srvAutoAcl : Bool) (rmts : List Rmt) (q : Req) : Verdict :=
  if !srvAutoAcl then .denied else rmtAllowedLoop q rmts

/-- The zone's part of the configuration used by `process_query_acl_check`. -/
structure ZoneConf where
  srvAutoAcl : Bool
  master : List Rmt
  notify : List Rmt
  acl : List Rule
  ddnsMaster : Option Bytes

/-- `process_query_acl_check` for a request not authenticated before. Logging is left out.
Source: src/knot/nameserver/process_query.c:681-781. -/
def aclCheck (c : ZoneConf) (action : Action) (q : Req) : Res Verdict :=
  let auto := if action ≠ .update
    then rmtAllowed c.srvAutoAcl (if action = .notify then c.master else c.notify) q
    else .denied
  match auto with
  | .allowed s => .ok (.allowed s)
  | .denied => aclAllowed c.acl action q (decide (c.master ≠ [])) c.ddnsMaster

end Knot.Acl
