import Verif.Rdataset.Model
import Verif.Dname.Spec
/-!
# Model of changesets and of changing a zone (src/knot/updates/changesets.c, apply.c, zone-update.c)

Zone contents are a list of RRsets with different keys; the trees of nodes, the two versions of
every node (binodes), flags and indices are left out. The list may be in any order, which stands for
the order of iteration over the trees. An rdataset is the list of its records in canonical order,
what src/libknot/rdataset.c maintains is property C09. Memory never runs out, an RRset has at most
65535 records, owners are in the zone and in lower case.
-/
namespace Knot.Changeset
open Knot.Dname (Name)
open Knot.Rdataset (rdataCmp)

abbrev Bytes := List UInt8

/-- Where an RRset lives: the tree for NSEC3 or the other one (knot_rrset_is_nsec3rel(),
src/libknot/rrset.c:127-137), the owner and the type. -/
structure Key where
  nsec3 : Bool
  owner : Name
  type : Nat
  deriving DecidableEq, Repr

/-- `struct rr_data`, src/knot/zone/node.h:70-75, without the type. -/
structure RRs where
  ttl : Nat
  data : List Bytes
  deriving DecidableEq, Repr

abbrev RRset := Key × RRs
abbrev Contents := List RRset

/-- KNOT_RRTYPE_SOA and KNOT_RRTYPE_RRSIG, src/libknot/descriptor.h:62,95. -/
abbrev soa : Nat := 6
abbrev rrsig : Nat := 46

/-- The RRset of a node, zone_contents_find_node_for_rr() and node_rdataset(),
src/knot/zone/contents.c:268-277, src/knot/zone/node.c:407-420. -/
def lookup : Contents → Key → Option RRs
  | [], _ => none
  | (k', r) :: t, k => if k' = k then some r else lookup t k

/-- Change the RRset of a key: replace, insert or delete it. -/
def put : Contents → Key → Option RRs → Contents
  | [], _, none => []
  | [], k, some r => [(k, r)]
  | (k', r') :: t, k, v =>
    if k' = k then
      match v with
      | none => t
      | some r => (k, r) :: t
    else (k', r') :: put t k v

/-- knot_rdataset_add(), src/libknot/rdataset.c:173-204 (see C09_add). -/
def insertRd (x : Bytes) : List Bytes → List Bytes
  | [] => [x]
  | y :: t =>
    match rdataCmp x y with
    | .lt => x :: y :: t
    | .eq => y :: t
    | .gt => y :: insertRd x t

/-- knot_rdataset_merge(), src/libknot/rdataset.c:268-290 (see C09_merge). -/
def merge (a b : List Bytes) : List Bytes := b.foldl (fun s x => insertRd x s) a

/-- knot_rdataset_subtract(), src/libknot/rdataset.c:345-375 (see C09_subtract). -/
def subtract (a b : List Bytes) : List Bytes := a.filter (fun x => decide (x ∉ b))

/-! ## Nodes -/

/-- ttl_changed(), src/knot/zone/node.c:99-106. -/
def ttlChanged (type : Nat) (d x : RRs) : Bool :=
  decide (type ≠ rrsig ∧ d.data ≠ [] ∧ x.ttl ≠ d.ttl)

/-- node_add_rrset(), src/knot/zone/node.c:312-340; KNOT_ETTL, which every modelled caller ignores,
is not returned. -/
def nodeAdd (type : Nat) (o : Option RRs) (x : RRs) : RRs :=
  match o with
  | none => x
  | some d => ⟨if ttlChanged type d x then x.ttl else d.ttl, merge d.data x.data⟩

/-- node_remove_rrset(), src/knot/zone/node.c:366-389. -/
def nodeRemove (o : Option RRs) (x : RRs) : Res (Option RRs) :=
  match o with
  | none => .err .enoent
  | some d =>
    let s := subtract d.data x.data
    .ok (if s = [] then none else some ⟨d.ttl, s⟩)

/-! ## Applying changes to a zone -/

/-- can_remove(), src/knot/updates/apply.c:91-117. -/
def canRemove (o : Option RRs) (x : RRs) : Bool :=
  match o with
  | none => false
  | some d => x.data.all (fun r => decide (r ∈ d.data))

/-- can_add(), src/knot/updates/apply.c:120-143. -/
def canAdd (o : Option RRs) (x : RRs) : Bool :=
  match o with
  | none => true
  | some d => x.data.all (fun r => decide (r ∉ d.data))

/-- apply_add_rr(), src/knot/updates/apply.c:191-232. -/
def applyAdd (strict : Bool) (c : Contents) (rr : RRset) : Res Contents :=
  if ¬ canAdd (lookup c rr.1) rr.2 then
    if strict then .err .eisrecord else .ok c
  else .ok (put c rr.1 (some (nodeAdd rr.1.type (lookup c rr.1) rr.2)))

/-- apply_remove_rr(), src/knot/updates/apply.c:234-273. -/
def applyRemove (strict : Bool) (c : Contents) (rr : RRset) : Res Contents :=
  if ¬ canRemove (lookup c rr.1) rr.2 then
    if strict then .err .enorecord else .ok c
  else do
    let v ← nodeRemove (lookup c rr.1) rr.2
    .ok (put c rr.1 v)

/-- The key of the SOA record. -/
abbrev soaKey (apex : Name) : Key := ⟨false, apex, soa⟩

/-- apply_replace_soa(), src/knot/updates/apply.c:275-297. Without an SOA the RRset to be removed is
empty and has no owner. -/
def applyReplaceSoa (strict : Bool) (apex : Name) (c : Contents) (rr : RRset) : Res Contents :=
  if rr.1.owner ≠ apex then .err .edenied
  else do
    let c ← (match lookup c (soaKey apex) with
      | some old => applyRemove strict c (soaKey apex, old)
      | none => if strict then .err .enorecord else .ok c)
    if (lookup c (soaKey apex)).isSome then .err .esoainval
    else applyAdd strict c rr

/-! ## Changesets -/

/-- `changeset_t`, src/knot/updates/changesets.h:32-40. -/
structure Ch where
  add : Contents
  rem : Contents
  soaFrom : Option RRset
  soaTo : Option RRset
  deriving Repr

/-- changeset_init(), src/knot/updates/changesets.c:118-134. -/
def Ch.init : Ch := ⟨[], [], none, none⟩

/-- add_rr_to_contents(), src/knot/updates/changesets.c:46-53, with insert_rr(),
src/knot/zone/contents.c:115-130. -/
def insertRR (c : Contents) (rr : RRset) : Contents :=
  put c rr.1 (some (nodeAdd rr.1.type (lookup c rr.1) rr.2))

/-- check_redundancy(), src/knot/updates/changesets.c:81-116: the counterpart and the rest of the
RRset. -/
def checkRedundancy (c : Contents) (rr : RRset) : Contents × RRs :=
  match lookup c rr.1 with
  | none => (c, rr.2)
  | some d =>
    if rr.2.ttl = d.ttl ∨ rr.1.type = rrsig then
      let fixed : RRs := ⟨rr.2.ttl, subtract rr.2.data d.data⟩
      match nodeRemove (some d) rr.2 with
      | .ok v => (put c rr.1 v, fixed)
      | _ => (c, fixed)
    else (c, rr.2)

/-- changeset_add_addition(), src/knot/updates/changesets.c:203-237. -/
def addAddition (ch : Ch) (rr : RRset) (check : Bool) : Ch :=
  if rr.1.type = soa then { ch with soaTo := some rr }
  else
    let (rem, toAdd) := if check then checkRedundancy ch.rem rr else (ch.rem, rr.2)
    { ch with rem := rem, add := if toAdd.data = [] then ch.add else insertRR ch.add (rr.1, toAdd) }

/-- changeset_add_removal(), src/knot/updates/changesets.c:239-273. -/
def addRemoval (ch : Ch) (rr : RRset) (check : Bool) : Ch :=
  if rr.1.type = soa then { ch with soaFrom := some rr }
  else
    let (add, toRem) := if check then checkRedundancy ch.add rr else (ch.add, rr.2)
    { ch with add := add, rem := if toRem.data = [] then ch.rem else insertRR ch.rem (rr.1, toRem) }

/-- changeset_merge(), src/knot/updates/changesets.c:305-348. -/
def chMerge (ch1 ch2 : Ch) : Ch :=
  let a := ch2.rem.foldl (fun ch rr => addRemoval ch rr true) ch1
  let b := ch2.add.foldl (fun ch rr => addAddition ch rr true) a
  if ch2.soaTo = none ∧ ch2.soaFrom = none then b else { b with soaTo := ch2.soaTo }

/-- changeset_empty(), src/knot/updates/changesets.c:156-174; knot_rrset_equal() compares without
the TTL. -/
def Ch.isEmpty (ch : Ch) : Bool :=
  if ch.rem = [] ∧ ch.add = [] then
    match ch.soaFrom, ch.soaTo with
    | _, none => true
    | some a, some b => decide (a.1 = b.1 ∧ a.2.data = b.2.data)
    | none, some _ => false
  else false

/-! ## Updates -/

/-- `zone_update_t`, src/knot/updates/zone-update.h:34-43, with UPDATE_INCREMENTAL, with or without
UPDATE_STRICT. -/
structure Update where
  apex : Name
  strict : Bool
  zone : Contents
  change : Ch

/-- init_incremental(), src/knot/updates/zone-update.c:39-78. -/
def Update.init (apex : Name) (strict : Bool) (c : Contents) : Res Update :=
  match lookup c (soaKey apex) with
  | none => .err .enomem
  | some s => .ok ⟨apex, strict, c, { Ch.init with soaFrom := some (soaKey apex, s) }⟩

/-- zone_update_remove(), src/knot/updates/zone-update.c:519-567. -/
def zuRemove (u : Update) (rr : RRset) : Res Update :=
  if rr.2.data = [] then .ok u
  else if rr.1.type = soa then .ok u
  else do
    let z ← applyRemove u.strict u.zone rr
    .ok { u with zone := z, change := addRemoval u.change rr true }

/-- solve_add_different_ttl(), src/knot/updates/zone-update.c:424-456; `again` is
zone_update_add(). The node is looked for in the ordinary tree. -/
def solveTtl (again : Update → RRset → Res Update) (u : Update) (rr : RRset) : Res Update :=
  if rr.1.type = rrsig ∨ rr.1.type = soa then .ok u
  else
    match lookup u.zone { rr.1 with nsec3 := false } with
    | none => .ok u
    | some e =>
      if e.ttl = rr.2.ttl then .ok u
      else do
        let u ← zuRemove u ({ rr.1 with nsec3 := false }, e)
        again u ({ rr.1 with nsec3 := false }, { e with ttl := rr.2.ttl })

/-- zone_update_add(), src/knot/updates/zone-update.c:458-517. It and solve_add_different_ttl() call
each other; the first argument bounds the depth (`zuAdd_depth`: two is enough). -/
def zuAddN : Nat → Update → RRset → Res Update
  | 0, _, _ => .ub
  | n + 1, u, rr =>
    if rr.2.data = [] then .ok u
    else do
      let z ← (if rr.1.type = soa then applyReplaceSoa u.strict u.apex u.zone rr
               else applyAdd u.strict u.zone rr)
      let u ← solveTtl (zuAddN n) { u with zone := z } rr
      .ok { u with change := addAddition u.change rr true }

def zuAdd (u : Update) (rr : RRset) : Res Update := zuAddN 2 u rr

/-- The calls of an update. -/
inductive Call where
  | add (rr : RRset)
  | remove (rr : RRset)

def Call.exec (u : Update) : Call → Res Update
  | .add rr => zuAdd u rr
  | .remove rr => zuRemove u rr

def Update.run (u : Update) : List Call → Res Update
  | [] => .ok u
  | c :: cs => do
    let u ← c.exec u
    u.run cs

/-- changeset_walk(), src/knot/updates/changesets.c:554-603: the calls in their order. -/
def Ch.walk (ch : Ch) : List Call :=
  ch.rem.map .remove ++ (ch.soaFrom.toList.map .remove) ++ ch.add.map .add ++ (ch.soaTo.toList.map .add)

/-- zone_update_apply_changeset(), src/knot/updates/zone-update.c:620-623. -/
def Update.applyChangeset (u : Update) (ch : Ch) : Res Update := u.run ch.walk

/-- zone_update_apply_changeset_reverse(), src/knot/updates/zone-update.c:625-633. -/
def Update.applyReverse (u : Update) (ch : Ch) : Res Update :=
  u.applyChangeset ⟨ch.rem, ch.add, ch.soaTo, ch.soaFrom⟩

end Knot.Changeset
