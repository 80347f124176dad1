import Verif.Prelude
import Verif.Dname.Model
/-!
# Model of RR data sets (src/libknot/rdataset.c, src/libknot/rdata.h)

The packed array of records is modelled as the bytes it is made of; a pointer
into it is modelled by the suffix of the array that starts there. Allocation is
assumed to succeed. Every read past the end of the array, and every failed
`assert`, is the outcome `Res.ub`.
-/
namespace Knot.Rdataset
open Knot.Dname (memcmp)

abbrev Bytes := List UInt8

/-- `knot_rdata_size`. Source: src/libknot/rdata.h:72-75. -/
def rdataSize (len : Nat) : Nat := 2 + len + len % 2

/-- The bytes written by `knot_rdata_init`: the 16-bit length in host order
(little endian here), the data, and one zero byte of padding after odd lengths.
Source: src/libknot/rdata.h:52-63. -/
def rdataInit (d : Bytes) : Bytes :=
  UInt8.ofNat (d.length % 256) :: UInt8.ofNat (d.length / 256 % 256) :: d
    ++ (if d.length % 2 = 1 then [0] else [])

/-- Dereference a `knot_rdata_t *` and step to the next record
(`knot_rdataset_next`): the data of the record and the pointer behind it.
Source: src/libknot/rdata.h:39-42, src/libknot/rdataset.h:69-73. -/
def rdataAt (p : Bytes) : Res (Bytes × Bytes) :=
  match p with
  | lo :: hi :: t =>
    let len := lo.toNat + 256 * hi.toNat
    if t.length < len + len % 2 then .ub
    else .ok (t.take len, t.drop (len + len % 2))
  | _ => .ub

/-- `knot_rdata_cmp`. Source: src/libknot/rdata.h:87-99. -/
def rdataCmp (a b : Bytes) : Ordering :=
  let common := if a.length ≤ b.length then a.length else b.length
  match memcmp (a.take common) (b.take common) with
  | .eq => if a.length ≠ b.length then (if a.length < b.length then .lt else .gt) else .eq
  | o => o

/-- `knot_rdataset_t`. Source: src/libknot/rdataset.h:38-42. -/
structure RS where
  count : Nat
  size : Nat
  raw : Bytes
  deriving DecidableEq, Repr

/-- `knot_rdataset_init`. Source: src/libknot/rdataset.h:49-56. -/
def init : RS := ⟨0, 0, []⟩

/-- The loop of `rr_seek`: step over `n` records. Source: src/libknot/rdataset.c:31-34. -/
def skip : Nat → Bytes → Res Bytes
  | 0, p => .ok p
  | n + 1, p => do let (_, q) ← rdataAt p; skip n q

/-- `rr_seek`. Source: src/libknot/rdataset.c:25-37. -/
def rrSeek (rs : RS) (pos : Nat) : Res Bytes :=
  if 0 < rs.count ∧ pos < rs.count then skip pos rs.raw else .ub

/-- The loop of `find_rr_pos` with `n` records left and index `i`.
Source: src/libknot/rdataset.c:41-49. -/
def findLoop (rr : Bytes) : Nat → Nat → Bytes → Res (Option Nat)
  | 0, _, _ => .ok none
  | n + 1, i, p => do
    let (d, q) ← rdataAt p
    if rdataCmp rr d = .eq then .ok (some i) else findLoop rr n (i + 1) q

/-- `find_rr_pos`; `none` is KNOT_ENOENT. Source: src/libknot/rdataset.c:39-50. -/
def findRrPos (rs : RS) (rr : Bytes) : Res (Option Nat) := findLoop rr rs.count 0 rs.raw

/-- `add_rr_at`: the insert position is the suffix `insPos` of the array.
The reallocation, the `memmove` and the initialisation of the gap are the
concatenation of the part before, the new record and the part behind.
The status is returned beside the set, because the set stays usable after a failure.
Source: src/libknot/rdataset.c:52-87. -/
def addRrAt (rs : RS) (rr insPos : Bytes) : Res (RS × Option Err) :=
  let insOffset := rs.raw.length - insPos.length
  if ¬ insOffset ≤ rs.size then .ub
  else if rs.count = 65535 then .ok (rs, some .espace)
  else if rs.size > 4294967295 - rdataSize 65535 then .ok (rs, some .espace)
  else
    .ok (⟨rs.count + 1, rs.size + rdataSize rr.length,
      rs.raw.take insOffset ++ rdataInit rr ++ rs.raw.drop insOffset⟩, none)

/-- `remove_rr_at`. Source: src/libknot/rdataset.c:89-124. -/
def removeRrAt (rs : RS) (pos : Nat) : Res RS := do
  let old ← rrSeek rs pos
  let last ← rrSeek rs (rs.count - 1)
  let (d, oldThreshold) ← rdataAt old
  let (_, lastThreshold) ← rdataAt last
  let oldSize := rdataSize d.length
  if oldThreshold.length < lastThreshold.length then .ub
  else
    -- memmove(old_rr, old_threshold, last_threshold - old_threshold); realloc
    let moved := rs.raw.take (rs.raw.length - old.length) ++
      oldThreshold.take (oldThreshold.length - lastThreshold.length)
    .ok ⟨rs.count - 1, rs.size - oldSize,
      if rs.count > 1 then moved.take (rs.size - oldSize) else []⟩

/-- `knot_rdataset_clear`. Source: src/libknot/rdataset.c:127-135. -/
def clear (_ : RS) : RS := init

/-- `knot_rdataset_copy`. Source: src/libknot/rdataset.c:138-160. -/
def copy (src : RS) : Res RS :=
  if src.count > 0 then
    if src.raw.length < src.size then .ub else .ok ⟨src.count, src.size, src.raw.take src.size⟩
  else if src.size = 0 then .ok ⟨src.count, src.size, []⟩ else .ub

/-- `knot_rdataset_at`, reading the record; `none` is NULL.
Source: src/libknot/rdataset.c:163-170. -/
def rdAt (rs : RS) (pos : Nat) : Res (Option Bytes) :=
  if rs.count = 0 ∨ pos ≥ rs.count then .ok none
  else do
    let p ← rrSeek rs pos
    let (d, _) ← rdataAt p
    .ok (some d)

/-- The search loop of `knot_rdataset_add`, `n` records left.
Source: src/libknot/rdataset.c:187-203. -/
def addLoop (rs : RS) (rr : Bytes) : Nat → Bytes → Res (RS × Option Err)
  | 0, p => if rs.raw = [] ∨ p.length = rs.raw.length - rs.size then addRrAt rs rr p else .ub
  | n + 1, p => do
    let (d, q) ← rdataAt p
    match rdataCmp d rr with
    | .eq => .ok (rs, none)
    | .gt => addRrAt rs rr p
    | .lt => addLoop rs rr n q

/-- `knot_rdataset_add`. Source: src/libknot/rdataset.c:173-204. -/
def add (rs : RS) (rr : Bytes) : Res (RS × Option Err) :=
  if rs.count > 4 then do
    let last ← rrSeek rs (rs.count - 1)
    let (d, q) ← rdataAt last
    if rdataCmp d rr = .lt then addRrAt rs rr q else addLoop rs rr rs.count rs.raw
  else addLoop rs rr rs.count rs.raw

/-- The loop of `knot_rdataset_eq`. Source: src/libknot/rdataset.c:213-223. -/
def eqLoop : Nat → Bytes → Bytes → Res Bool
  | 0, _, _ => .ok true
  | n + 1, p, q => do
    let (d, p') ← rdataAt p
    let (e, q') ← rdataAt q
    if rdataCmp d e ≠ .eq then .ok false else eqLoop n p' q'

/-- `knot_rdataset_eq` (of non-NULL arguments). Source: src/libknot/rdataset.c:207-224. -/
def eq (a b : RS) : Res Bool :=
  if a.count ≠ b.count then .ok false else eqLoop a.count a.raw b.raw

/-- The loop of `knot_rdataset_member`. Source: src/libknot/rdataset.c:233-246. -/
def memberLoop (rr : Bytes) : Nat → Bytes → Res Bool
  | 0, _ => .ok false
  | n + 1, p => do
    let (d, q) ← rdataAt p
    match rdataCmp d rr with
    | .eq => .ok true
    | .gt => .ok false
    | .lt => memberLoop rr n q

/-- `knot_rdataset_member` (of a non-NULL set). Source: src/libknot/rdataset.c:227-247. -/
def member (rs : RS) (rr : Bytes) : Res Bool := memberLoop rr rs.count rs.raw

/-- The loop of `knot_rdataset_subset`. Source: src/libknot/rdataset.c:256-264. -/
def subsetLoop (of' : RS) : Nat → Bytes → Res Bool
  | 0, _ => .ok true
  | n + 1, p => do
    let (d, q) ← rdataAt p
    let m ← member of' d
    if ¬ m then .ok false else subsetLoop of' n q

/-- `knot_rdataset_subset`; `same` is the outcome of the pointer comparison
`subset->rdata == of->rdata`. Source: src/libknot/rdataset.c:250-265. -/
def subset (sub of' : RS) (same : Bool) : Res Bool :=
  if same then .ok true else subsetLoop of' sub.count sub.raw

/-- The loop of `knot_rdataset_merge`. Source: src/libknot/rdataset.c:275-284. -/
def mergeLoop : RS → Nat → Bytes → Res (RS × Option Err)
  | rs, 0, _ => .ok (rs, none)
  | rs, n + 1, p => do
    let (d, q) ← rdataAt p
    let (rs', st) ← add rs d
    match st with
    | some e => .ok (rs', some e)
    | none => mergeLoop rs' n q

/-- `knot_rdataset_merge`. Source: src/libknot/rdataset.c:268-285. -/
def merge (a b : RS) : Res (RS × Option Err) := mergeLoop a b.count b.raw

/-- The loop of `knot_rdataset_intersect`. Source: src/libknot/rdataset.c:296-309. -/
def intersectLoop (b : RS) : RS → Nat → Bytes → Res (RS × Option Err)
  | out, 0, _ => .ok (out, none)
  | out, n + 1, p => do
    let (d, q) ← rdataAt p
    let m ← member b d
    if m then
      let (out', st) ← add out d
      match st with
      | some e => .ok (clear out', some e)
      | none => intersectLoop b out' n q
    else intersectLoop b out n q

/-- `knot_rdataset_intersect`. Source: src/libknot/rdataset.c:288-310. -/
def intersect (a b : RS) : Res (RS × Option Err) := intersectLoop b init a.count a.raw

/-- The loop of `knot_rdataset_intersect2`; `fuel` bounds the number of
iterations and starts at `from->count`, which every iteration uses up by one
(either `i` grows or the count shrinks). Source: src/libknot/rdataset.c:324-341. -/
def intersect2Loop (what : RS) : Nat → RS → Nat → Bytes → Res RS
  | 0, frm, i, _ => if i < frm.count then .ub else .ok frm
  | fuel + 1, frm, i, p =>
    if i < frm.count then do
      let (d, q) ← rdataAt p
      let m ← member what d
      if ¬ m then
        let frm' ← removeRrAt frm i
        if i < frm'.count then
          let p' ← rrSeek frm' i
          intersect2Loop what fuel frm' i p'
        else intersect2Loop what fuel frm' i p
      else intersect2Loop what fuel frm (i + 1) q
    else .ok frm

/-- `knot_rdataset_intersect2`; `same` is the pointer comparison
`from->rdata == what->rdata`. Source: src/libknot/rdataset.c:313-342. -/
def intersect2 (frm what : RS) (same : Bool) : Res RS :=
  if same then .ok frm else intersect2Loop what frm.count frm 0 frm.raw

/-- The loop of `knot_rdataset_subtract`. Source: src/libknot/rdataset.c:358-370. -/
def subtractLoop : RS → Nat → Bytes → Res RS
  | frm, 0, _ => .ok frm
  | frm, n + 1, p => do
    let (d, q) ← rdataAt p
    let pos ← findRrPos frm d
    match pos with
    | some i => do
      let frm' ← removeRrAt frm i
      subtractLoop frm' n q
    | none => subtractLoop frm n q

/-- `knot_rdataset_subtract`; `same` is the pointer comparison
`from->rdata == what->rdata`. Returns both sets, since the aliasing case
also resets the second one. Source: src/libknot/rdataset.c:345-371. -/
def subtract (frm what : RS) (same : Bool) : Res (RS × RS) :=
  if same then .ok (clear frm, init)
  else do
    let r ← subtractLoop frm what.count what.raw
    .ok (r, what)

/-- `knot_rdataset_remove`: subtraction of a one-record view; `same` is true when
`rr` is the very first record of the set's own array.
Source: src/libknot/rdataset.h:207-216. -/
def remove (rs : RS) (rr : Bytes) (same : Bool) : Res RS := do
  let (r, _) ← subtract rs ⟨1, rdataSize rr.length, rdataInit rr⟩ same
  .ok r

end Knot.Rdataset
