import Verif.Dname.Model
import Verif.Changeset.Model
import Verif.WireCtx.Model
/-!
# Chunks of changesets in the journal

src/knot/journal/serialization.c and the reading in journal_read.c. A name is its bytes. Memory is not
modelled: the buffer of RRsets is a list, the sets of records freed on the way are not there.
-/
namespace Knot.Jserial
open WireCtx (beBytes beVal)

abbrev Bytes := List UInt8

/-- knot_rrset_t, src/libknot/rrset.h:30-40. -/
structure Rr where
  owner : Bytes
  type : Nat
  rclass : Nat
  ttl : Nat
  rrs : List Bytes
  deriving DecidableEq, Repr

/-- RRSET_BUF_MAXSIZE, src/knot/journal/serialization.c:36. -/
abbrev bufMax : Nat := 256

/-! ## Writing -/

/-- The size of a part of an RRset, src/knot/journal/serialization.c:237-243. Part 0 is the header
(SERIALIZE_RRSET_INIT), part n + 1 is the record n. -/
def partSize (r : Rr) (phase : Nat) : Nat :=
  match phase with
  | 0 => 3 * 2 + r.owner.length
  | n + 1 => 4 + 2 + (r.rrs.getD n []).length

/-- The bytes of it, src/knot/journal/serialization.c:264-287. -/
def part (r : Rr) (phase : Nat) : Bytes :=
  match phase with
  | 0 => r.owner ++ beBytes 2 r.type ++ beBytes 2 r.rclass ++ beBytes 2 r.rrs.length
  | n + 1 => beBytes 4 r.ttl ++ beBytes 2 (r.rrs.getD n []).length ++ r.rrs.getD n []

/-- serialize_ctx_t, src/knot/journal/serialization.c:38-54: the buffer, the part to be written next, the
RRsets get_next_rrset() gives yet, and whether the phase is PHASE_END. -/
structure St where
  buf : List Rr
  phase : Nat
  src : List Rr
  fin : Bool
  deriving DecidableEq, Repr

/-- The loop of serialize_prepare(), src/knot/journal/serialization.c:223-252. The buffer is `pre` and
`cur`. Whenever the loop starts over, *realsize is `cand`. Every step goes to another part, so that
`fuel` may be their number. -/
def prepareLoop (thresh max : Nat) : Nat → List Rr → Rr → List Rr → Nat → Nat → Res (List Rr × List Rr × Bool × Nat)
  | 0, _, _, _, _, _ => .ub
  | fuel + 1, pre, cur, src, tmp, cand =>
    if tmp ≥ cur.rrs.length + 1 then
      if pre.length + 1 ≥ bufMax then .ok (pre ++ [cur], src, false, cand)
      else
        match src with
        | [] => .ok (pre ++ [cur], [], true, cand)
        | r :: src =>
          let cand' := cand + partSize r 0
          if cand' > max then .ok (pre ++ [cur, r], src, false, cand)
          else if cand' ≥ thresh then .ok (pre ++ [cur, r], src, false, cand')
          else prepareLoop thresh max fuel (pre ++ [cur]) r src 1 cand'
    else
      let cand' := cand + partSize cur tmp
      if cand' > max then .ok (pre ++ [cur], src, false, cand)
      else if cand' ≥ thresh then .ok (pre ++ [cur], src, false, cand')
      else prepareLoop thresh max fuel pre cur src (tmp + 1) cand'

/-- The number of parts. -/
def parts (l : List Rr) : Nat := (l.map (fun r => r.rrs.length + 1)).sum

/-- serialize_prepare(), src/knot/journal/serialization.c:198-253: also the size. -/
def prepare (thresh max : Nat) (st : St) : Res (St × Nat) :=
  let go : Rr → List Rr → Res (St × Nat) := fun cur src => do
    let r ← prepareLoop thresh max (parts (cur :: src) + 1) [] cur src st.phase 0
    .ok (⟨r.1, st.phase, r.2.1, r.2.2.1⟩, r.2.2.2)
  match st.buf.getLast? with
  | some cur => go cur st.src
  | none =>
    match st.src with
    | [] => .ok ({ st with buf := [], fin := true }, 0)
    | cur :: src => go cur src

/-- The loop of serialize_chunk(), src/knot/journal/serialization.c:259-290: the bytes and the next part.
`avail` is the space left. -/
def chunkLoop : Nat → Rr → List Rr → Nat → Nat → Bytes → Res (Bytes × Nat)
  | 0, _, _, _, _, _ => .ub
  | fuel + 1, cur, next, phase, avail, out =>
    if phase ≥ cur.rrs.length + 1 then
      match next with
      | [] => .ok (out, phase)
      | r :: next =>
        if avail < partSize r 0 then .ok (out, 0)
        else chunkLoop fuel r next 1 (avail - partSize r 0) (out ++ part r 0)
    else
      if avail < partSize cur phase then .ok (out, phase)
      else chunkLoop fuel cur next (phase + 1) (avail - partSize cur phase) (out ++ part cur phase)

/-- serialize_chunk(), src/knot/journal/serialization.c:255-292, into a space of the given size. What is
not written stays as it was. -/
def chunk (st : St) (size : Nat) (space : Bytes) : Res (St × Bytes) :=
  match st.buf with
  | [] => .ub
  | cur :: next => do
    let r ← chunkLoop (parts st.buf + 1) cur next st.phase size []
    .ok ({ st with phase := r.2 }, r.1 ++ space.drop r.1.length)

/-- journal_write_serialize(), src/knot/journal/journal_write.c:27-53: the chunks without their headers.
The space of a chunk is not initialized, see knot_lmdb_insert(): `junk` has anything. -/
def writeLoop (thresh max : Nat) (junk : Nat → Bytes) : Nat → St → Res (List Bytes)
  | 0, _ => .ub
  | fuel + 1, st =>
    if st.fin then .ok []
    else do
      let p ← prepare thresh max st
      if p.2 = 0 then .ok []
      else
        let c ← chunk p.1 p.2 (junk p.2)
        let l ← writeLoop thresh max junk fuel c.1
        .ok (c.2 :: l)

/-- The same for the RRsets given, with serialize_init(), src/knot/journal/serialization.c:56-70. -/
def write (thresh max : Nat) (junk : Nat → Bytes) (src : List Rr) : Res (List Bytes) :=
  writeLoop thresh max junk (parts src + 2) ⟨[], 0, src, false⟩

/-! ## What is written -/

/-- changeset_t, as the RRsets its iterators give. -/
structure Ch where
  soaFrom : Option Rr
  rem : List Rr
  soaTo : Rr
  add : List Rr
  deriving DecidableEq, Repr

/-- get_next_rrset() for a changeset, src/knot/journal/serialization.c:150-192. -/
def chStream (ch : Ch) : List Rr :=
  match ch.soaFrom with
  | some s => s :: (ch.rem ++ ch.soaTo :: ch.add)
  | none => ch.soaTo :: ch.add

/-- A node of one zone and its counterpart: the RRsets of both, and whether it is the apex. -/
structure Node where
  apex : Bool
  rrs : List Rr
  other : List Rr
  deriving DecidableEq, Repr

/-- node_rrset(), src/knot/zone/node.h: by the type; the RRsets of a node have one owner. -/
def nodeGet (l : List Rr) (type : Nat) : Option Rr := l.find? (fun r => decide (r.type = type))

/-- The RRsets of a node of a difference, src/knot/journal/serialization.c:118-149: those the counterpart
lacks, with the records it lacks. -/
def diffNode (n : Node) : List Rr :=
  n.rrs.filterMap (fun r =>
    if n.apex ∧ r.type = 6 then none
    else
      match nodeGet n.other r.type with
      | none => some r
      | some c =>
        if c.ttl = r.ttl then
          if r.rrs.all (fun x => decide (x ∈ c.rrs)) then none
          else some { r with rrs := Changeset.subtract r.rrs c.rrs }
        else some r)

/-- zone_diff_reverse(), src/knot/updates/changesets.c. -/
def Node.reverse (n : Node) : Node := { n with rrs := n.other, other := n.rrs }

/-- get_next_rrset() for a zone difference, src/knot/journal/serialization.c:112-149: the nodes of the new
zone that have changed, with their counterparts in the old one; NSEC3 nodes come last. -/
def diffStream (soaOld soaNew : Rr) (nodes : List Node) : List Rr :=
  soaOld :: ((nodes.map Node.reverse).flatMap diffNode ++ soaNew :: nodes.flatMap diffNode)

/-- get_next_rrset() for a whole zone: all RRsets but the SOA, which comes first. -/
def zoneStream (soa : Rr) (nodes : List (Bool × List Rr)) : List Rr :=
  soa :: nodes.flatMap (fun n => n.2.filter (fun r => !(n.1 && decide (r.type = 6))))

/-! ## Reading -/

/-- The position in the chunks: what is left of the current one, and the following ones. -/
abbrev Pos := Bytes × List Bytes

/-- make_data_available(), src/knot/journal/journal_read.c:127-144, within a changeset. -/
def available (p : Pos) : Option Pos :=
  if p.1 = [] then
    match p.2 with
    | [] => none
    | c :: l => some (c, l)
  else some p

/-- wire_ctx_read_u16(), wire_ctx_read_u32(). The error is what becomes of it in the end. -/
def readNum (n : Nat) (w : Bytes) : Res (Nat × Bytes) :=
  if w.length < n then .err .emalf else .ok (beVal (w.take n), w.drop n)

/-- The records of an RRset, src/knot/journal/journal_read.c:166-183. The data is read before it is
checked that it is there. -/
def readRecords : Nat → Bool → Nat → List Bytes → Pos → Res (Nat × List Bytes × Pos)
  | 0, _, ttl, rrs, p => .ok (ttl, rrs, p)
  | n + 1, first, ttl, rrs, p =>
    match available p with
    | none => .err .efewdata
    | some (w, l) => do
      let t ← readNum 4 w
      let len ← readNum 2 t.2
      if len.2.length < len.1 then .ub
      else
        let ttl := if first then t.1 else ttl
        readRecords n false ttl (Changeset.insertRd (len.2.take len.1) rrs) (len.2.drop len.1, l)

/-- journal_read_rrset() within a changeset, src/knot/journal/journal_read.c:151-194: `none` at the end. -/
def readRr (p : Pos) : Res (Option (Rr × Pos)) :=
  match available p with
  | none => .ok none
  | some (w, l) => do
    let size ← Dname.size w
    if w.length < size then .ub
    else
      let type ← readNum 2 (w.drop size)
      let rclass ← readNum 2 type.2
      let count ← readNum 2 rclass.2
      let r ← readRecords count.1 true 0 [] (count.2, l)
      .ok (some (⟨w.take size, type.1, rclass.1, r.1, r.2.1⟩, r.2.2))

/-- Reading all RRsets. -/
def readAll : Nat → Pos → Res (List Rr)
  | 0, _ => .ub
  | fuel + 1, p => do
    let r ← readRr p
    match r with
    | none => .ok []
    | some (rr, p) => do
      let l ← readAll fuel p
      .ok (rr :: l)

/-- rr_is_apex_soa(), src/knot/journal/journal_basic.h. -/
def isApexSoa (apex : Bytes) (r : Rr) : Bool := decide (r.type = 6) && decide (r.owner = apex)

/-- The loop of journal_read_changeset(), src/knot/journal/journal_read.c:237-259. The trees are the
RRsets added to them. -/
def splitLoop (apex : Bytes) : Option (Rr × List Rr) → Rr → List Rr → List Rr → Res Ch
  | from_, soa, tree, [] => .ok ⟨from_.map (·.1), (from_.map (·.2)).getD [], soa, tree⟩
  | from_, soa, tree, r :: l =>
    if isApexSoa apex r then
      match from_ with
      | some _ => .err .emalf
      | none => splitLoop apex (some (soa, tree)) r [] l
    else splitLoop apex from_ soa (tree ++ [r]) l

/-- journal_read_changeset(), src/knot/journal/journal_read.c:224-276. -/
def readChangeset (apex : Bytes) (fuel : Nat) (chunks : List Bytes) : Res Ch := do
  let l ← readAll fuel ([], chunks)
  match l with
  | [] => .err .enoent
  | soa :: l => splitLoop apex none soa [] l

end Knot.Jserial
