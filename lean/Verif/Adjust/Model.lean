/-! # Adjusting of zone contents: model of src/knot/zone/adjust.c, adds_tree.c and measure.c

Flags of nodes, pointers to the previous node, lists of additional nodes with the reverse tree, size and
maximal TTL of the zone. Not modelled: the NSEC3 tree and the pointers to it, threads (the callbacks run in
parallel touch only their own node), memory errors. Both versions of a node (bi-node) have the same
owner, so pointers to nodes are names. -/
namespace Knot.Adjust

/-- A name in the zone relative to the apex: labels from the apex down, `[]` is the apex. Labels are
numbers in the canonical order. -/
abbrev Name := List Nat

/-- The label `*`. -/
def star : Nat := 42

def tNS : Nat := 2
def tMX : Nat := 15
def tSRV : Nat := 33
def tDS : Nat := 43
def tRRSIG : Nat := 46
def tNSEC : Nat := 47
def tNSEC3 : Nat := 50
def tSVCB : Nat := 64
def tHTTPS : Nat := 65

/-- struct rr_data, src/knot/zone/node.h: an RRset of a node with its TTL, its size
(knot_rrset_size()) and, for each rdata, the domain name in it (knot_rdata_name()) if that is in
the zone. -/
structure RR where
  type : Nat
  ttl : Nat
  size : Nat
  refs : List (Option Name)
  deriving DecidableEq, Repr

/-- zone_node_t, src/knot/zone/node.h:47-91, the contents of it. -/
structure Node where
  name : Name
  rrs : List RR
  deriving DecidableEq, Repr

/-- zone_tree_t: the nodes in the canonical order. -/
abbrev Zone := List Node

/-- The names of the nodes. -/
def names (z : Zone) : List Name := z.map (·.name)

/-- NODE_FLAGS_DELEG, _NONAUTH, _SUBTREE_AUTH, _SUBTREE_DATA, src/knot/zone/node.h:93-117. -/
structure Fl where
  deleg : Bool := false
  nonauth : Bool := false
  sauth : Bool := false
  sdata : Bool := false
  deriving DecidableEq, Repr

/-- glue_t, src/knot/zone/node.h:40-44. -/
structure Glue where
  node : Name
  pos : Nat
  optional : Bool
  deriving DecidableEq, Repr

/-- A map changed at one place. -/
def put {α : Type} (f : Name → α) (n : Name) (a : α) : Name → α :=
  fun m => if m = n then a else f m

/-- node_rrtype_exists(), src/knot/zone/node.h. -/
def hasType (nd : Node) (t : Nat) : Bool := nd.rrs.any (fun r => r.type == t)

/-- node_non_dnssec_exists(), src/knot/zone/adjust.c:24-40. -/
def nonDnssec (nd : Node) : Bool :=
  nd.rrs.any (fun r => !(r.type == tNSEC || r.type == tNSEC3 || r.type == tRRSIG))

/-- node_set_flag_hierarch(), src/knot/zone/node.h:308-313, from the ancestor of `n` with `k` labels
up. -/
def setUp (get : Fl → Bool) (set : Fl → Fl) (n : Name) : Nat → (Name → Fl) → (Name → Fl)
  | k, fl =>
    if get (fl (n.take k)) then fl
    else
      match k with
      | 0 => put fl (n.take 0) (set (fl (n.take 0)))
      | k + 1 => setUp get set n k (put fl (n.take (k + 1)) (set (fl (n.take (k + 1)))))

/-- The part of adjust_cb_flags() about the node alone, src/knot/zone/adjust.c:44-63: the flags of the
parent give the first two flags and whether SUBTREE_AUTH is set. -/
def ownFlags (nd : Node) (parent : Option Fl) : Fl × Bool :=
  if parent.any (fun p => p.deleg || p.nonauth) then ({ nonauth := true }, false)
  else if hasType nd tNS && decide (nd.name ≠ []) then ({ deleg := true }, hasType nd tDS)
  else ({}, nonDnssec nd)

/-- adjust_cb_flags(), src/knot/zone/adjust.c:42-76, the flags. -/
def cbFlags (nd : Node) (fl : Name → Fl) : Name → Fl :=
  let parent := if nd.name = [] then none else some (fl nd.name.dropLast)
  let own := ownFlags nd parent
  let fl := put fl nd.name own.1
  let fl := if own.2 then setUp (·.sauth) (fun f => { f with sauth := true }) nd.name nd.name.length fl else fl
  if nonDnssec nd then setUp (·.sdata) (fun f => { f with sdata := true }) nd.name nd.name.length fl else fl

/-- The state of a pass: zone_adjust_arg_t, src/knot/zone/adjust.c:328-343, with the flags and the
pointers to the previous node, and changed_nodes. -/
structure Pass where
  fl : Name → Fl
  prev : Name → Option Name
  first : Option Name := none
  previous : Option Name := none
  changed : List Name := []

/-- adjust_single(), src/knot/zone/adjust.c:345-385, with adjust_cb_flags(). A node whose pointer is not
changed is not put among the changed ones. -/
def single (prevs : Bool) (p : Pass) (nd : Node) : Pass :=
  let first := if p.first.isNone then some nd.name else p.first
  let move := prevs && p.previous.isSome && decide (p.prev nd.name ≠ p.previous)
  let prev := if move then put p.prev nd.name p.previous else p.prev
  let changed := if move then nd.name :: p.changed else p.changed
  let previous := if !(p.fl nd.name).nonauth && decide (nd.rrs ≠ []) then some nd.name else p.previous
  let fl := cbFlags nd p.fl
  let changed := if decide (fl nd.name ≠ p.fl nd.name) then nd.name :: changed else changed
  { fl, prev, first, previous, changed }

/-- zone_adjust_tree() with adjust_cb_flags(), src/knot/zone/adjust.c:387-413. -/
def adjustTree (prevs : Bool) (z : Zone) (fl : Name → Fl) (prev : Name → Option Name) : Pass :=
  let p := z.foldl (single prevs) { fl, prev }
  match prevs, p.first with
  | true, some f => { p with prev := put p.prev f p.previous, changed := f :: p.changed }
  | _, _ => p

/-- knot_rrtype_additional_needed(), src/libknot/descriptor.c:355-362. -/
def needsAdd (t : Nat) : Bool := t == tNS || t == tMX || t == tSRV || t == tSVCB || t == tHTTPS

/-- The closest encloser: the ancestor of `n` with the most labels, at most `k`, that is a node,
zone_contents_find_dname(), src/knot/zone/contents.c:295-344. -/
def encloser (z : Zone) (n : Name) : Nat → Name
  | 0 => []
  | k + 1 => if n.take (k + 1) ∈ names z then n.take (k + 1) else encloser z n k

/-- zone_contents_find_node_or_wildcard(), src/knot/zone/contents.c:436-447. NODE_FLAGS_WILDCARD_CHILD
is set iff the node `*` below is there (zone-tree.c:227-283). -/
def find (z : Zone) (n : Name) : Option Name :=
  if n ∈ names z then some n
  else
    let w := encloser z n n.length ++ [star]
    if w ∈ names z then some w else none

/-- The loop of discover_additionals(), src/knot/zone/adjust.c:184-222, from the rdata number `i`: the
additional nodes. -/
def glues (z : Zone) (fl : Name → Fl) (owner : Name) (t : Nat) : Nat → List (Option Name) → List Glue
  | _, [] => []
  | i, r :: l =>
    match r.bind (find z) with
    | none => glues z fl owner t (i + 1) l
    | some n =>
      let mandatory := ((fl n).deleg || (fl n).nonauth) && t == tNS && decide (owner <+: n)
      ⟨n, i, !mandatory⟩ :: glues z fl owner t (i + 1) l

/-- discover_additionals(), src/knot/zone/adjust.c:184-268: mandatory ones first. -/
def discover (z : Zone) (fl : Name → Fl) (owner : Name) (r : RR) : List Glue :=
  let g := glues z fl owner r.type 0 r.refs
  g.filter (fun x => !x.optional) ++ g.filter (fun x => x.optional)

/-- The lists of additional nodes of RRsets: of a node and a type. -/
abbrev Adds := Name → Nat → List Glue

/-- adjust_cb_additionals(), src/knot/zone/adjust.c:270-283. -/
def cbAdds (z : Zone) (fl : Name → Fl) (a : Adds) (nd : Node) : Adds :=
  nd.rrs.foldl (fun a r =>
    if needsAdd r.type then
      put a nd.name (fun t => if t = r.type then discover z fl nd.name r else a nd.name t)
    else a) a

/-- zone_node_additionals_foreach(), src/knot/zone/adds_tree.c:51-71: the names below the apex. -/
def refsOf (nd : Node) : List Name :=
  (nd.rrs.filter (fun r => needsAdd r.type)).flatMap (fun r => r.refs.filterMap id) |>.filter (fun n => n ≠ [])

/-- The reverse tree: pairs of a name and a node that has it in its rdata, adds_tree.c. -/
abbrev Rev := List (Name × Name)

/-- additionals_tree_update_node(), src/knot/zone/adds_tree.c:126-154, with remove_node_from_a_t() and
add_node_to_a_t(), lines 78-124: `old` and `new` are the two versions of the node `n`. -/
def revUpdate (rev : Rev) (n : Name) (old new : Option Node) : Rev :=
  let gone := (old.map refsOf).getD []
  let come := (new.map refsOf).getD []
  (rev.filter (fun p => !(p.2 == n && gone.contains p.1))) ++ come.map (fun r => (r, n))

/-- additionals_tree_from_zone(), src/knot/zone/adds_tree.c:179-207. -/
def revFrom (z : Zone) : Rev := z.foldl (fun rev nd => revUpdate rev nd.name none (some nd)) []

/-- zone_tree_get(), src/knot/zone/zone-tree.c:124-143. -/
def get? (z : Zone) (n : Name) : Option Node := z.find? (fun nd => nd.name = n)

/-- additionals_tree_update_from_binodes(), src/knot/zone/adds_tree.c:209-224. -/
def revUpdateAll (rev : Rev) (z z' : Zone) (ptrs : List Name) : Rev :=
  ptrs.foldl (fun rev n => revUpdate rev n (get? z n) (get? z' n)) rev

/-- knot_dname_is_wildcard(), src/libknot/dname.h. -/
def isWild (n : Name) : Bool := decide (n.getLast? = some star)

/-- additionals_reverse_apply_multi(), src/knot/zone/adds_tree.c:322-340, for one name, with
additionals_reverse_apply() and reverse_apply_subtree(): the nodes that are adjusted. -/
def reverse (rev : Rev) (p : Name) : List Name :=
  if isWild p then
    (rev.filter (fun x => decide (p.dropLast <+: x.1 ∧ x.1 ≠ p.dropLast))).map (·.2)
  else (rev.filter (fun x => x.1 = p)).map (·.2)

/-- Adjusting of the additional nodes of the nodes of the given names: zone_tree_fix_get() and
adjust_cb_additionals(). -/
def addsAt (z : Zone) (fl : Name → Fl) (a : Adds) (l : List Name) : Adds :=
  l.foldl (fun a n => match get? z n with | some nd => cbAdds z fl a nd | none => a) a

/-- knot_measure_node(), src/knot/zone/measure.c:35-72: the sum of the sizes. -/
def nodeSize (rrs : List RR) : Int := rrs.foldl (fun s r => s + r.size) 0

/-- knot_measure_node(): the maximum of the TTLs and the given one. -/
def nodeTtl (m : Nat) (rrs : List RR) : Nat := rrs.foldl (fun m r => Nat.max m r.ttl) m

/-- MEASURE_SIZE_WHOLE: the size of a zone. -/
def measureSize (z : Zone) : Int := z.foldl (fun s nd => s + nodeSize nd.rrs) 0

/-- MEASURE_TTL_WHOLE: the maximal TTL of a zone. -/
def measureTtl (z : Zone) : Nat := z.foldl (fun m nd => nodeTtl m nd.rrs) 0

/-- The records of a node, none if it is not there. -/
def rrsAt (z : Zone) (n : Name) : List RR := ((get? z n).map (·.rrs)).getD []

/-- MEASURE_SIZE_DIFF over the changed nodes. -/
def diffSize (z z' : Zone) (ptrs : List Name) : Int :=
  ptrs.foldl (fun s n => s + nodeSize (rrsAt z' n) - nodeSize (rrsAt z n)) 0

/-- MEASURE_TTL_DIFF over the changed nodes: one version of them. -/
def ptrsTtl (z : Zone) (ptrs : List Name) : Nat := ptrs.foldl (fun m n => nodeTtl m (rrsAt z n)) 0

/-- re_measure_max_ttl(), src/knot/zone/measure.c:74-93: the loop ends as soon as the limit is reached. -/
def reMeasure (limit : Nat) : Zone → Nat → Nat
  | [], m => m
  | nd :: z, m => if limit ≤ m then m else reMeasure limit z (nodeTtl m nd.rrs)

/-- knot_measure_finish_update(), src/knot/zone/measure.c:108-140, the TTL. -/
def finishTtl (old : Nat) (z z' : Zone) (ptrs : List Name) : Nat :=
  if old ≤ ptrsTtl z' ptrs then ptrsTtl z' ptrs
  else if ptrsTtl z ptrs < old then old
  else reMeasure old z' 0

/-- zone_contents_t with what adjusting computes. -/
structure St where
  z : Zone
  fl : Name → Fl
  prev : Name → Option Name
  adds : Adds
  rev : Rev
  size : Int
  ttl : Nat

/-- zone_adjust_full(), src/knot/zone/adjust.c:511-524, given the flags and the pointers before it. -/
def adjustFull (z : Zone) (fl : Name → Fl) (prev : Name → Option Name) : St :=
  let p := adjustTree true z fl prev
  { z, fl := p.fl, prev := p.prev, adds := addsAt z p.fl (fun _ _ => []) (names z), rev := revFrom z,
    size := measureSize z, ttl := measureTtl z }

/-- A zone read from its file: zonefile_load(), src/knot/zone/zonefile.c:224, and zone_adjust_full() in
zone_update_commit(). -/
def load (z : Zone) : St :=
  let p := adjustTree true z (fun _ => {}) (fun _ => none)
  adjustFull z p.fl p.prev

/-- zone_adjust_incremental_update(), src/knot/zone/adjust.c:540-602, for the new nodes `z'` and the
changed ones, `ptrs` (node_ptrs). A new node has no flags. -/
def adjustUpdate (s : St) (z' : Zone) (ptrs : List Name) (fl : Name → Fl) : St :=
  let p := adjustTree true z' fl s.prev
  let rev := revUpdateAll s.rev s.z z' ptrs
  let adds := addsAt z' p.fl s.adds (ptrs.flatMap (reverse rev))
  { z := z', fl := p.fl, prev := p.prev, adds := addsAt z' p.fl adds ptrs, rev,
    size := s.size + diffSize s.z z' ptrs, ttl := finishTtl s.ttl s.z z' ptrs }

/-- The flags the adjusting starts with: those of the nodes that were there, none of new ones. -/
def carry (s : St) : Name → Fl := fun n => if n ∈ names s.z then s.fl n else {}

/-- A commit of an update without a check before: a dynamic update, a reload of the file with
differences (zone_update_commit(), src/knot/updates/zone-update.c:898-932). -/
def update (s : St) (z' : Zone) (ptrs : List Name) : St := adjustUpdate s z' ptrs (carry s)

/-- zone_tree_insert() of each of the names. -/
def insertAll (l : List Name) (new : List Name) : List Name :=
  new.foldl (fun l n => if n ∈ l then l else l ++ [n]) l

/-- A commit after zone_update_semcheck(), src/knot/updates/zone-update.c:846-859, which adjusts the
flags first and puts the nodes whose flags change among the changed ones: an incremental transfer, a
control transaction. -/
def updateChecked (s : St) (z' : Zone) (ptrs : List Name) : St :=
  let p := adjustTree false z' (carry s) s.prev
  adjustUpdate s z' (insertAll ptrs p.changed) p.fl

/-- zone_trees_unify_binodes() in apply_cleanup(), src/knot/updates/apply.c:298-309, binode_unify(),
src/knot/zone/node.c: the other version of the nodes, which the next update starts with, gets the data of the
committed one for the nodes in node_ptrs and adjust_ptrs. `old` and `new` are a field of all nodes in the two
versions. -/
def unify {α : Type} (old new : Name → α) (ptrs changed : List Name) : Name → α :=
  fun n => if n ∈ ptrs ∨ n ∈ changed then new n else old n

end Knot.Adjust
