import Verif.Trie.Model
import Verif.Dname.Model
/-!
# Model of the zone database (src/knot/zone/zonedb.c)

Zones are opaque values; the database is the trie whose keys are the names in lookup format. Freeing
and flushing of discarded zones is not modelled. Arguments are not NULL.
-/
namespace Knot.Zonedb
open Knot.Dname (Bytes)

/-- The key `lf + 1`, `*lf` made at src/knot/zone/zonedb.c:75-79, 91-94, 109-112, 145-149. -/
def keyOf (name : Bytes) : Res Bytes := do
  let l ← Dname.lf name
  match l with
  | n :: body => if body.length < n.toNat then .ub else .ok (body.take n.toNat)
  | [] => .ub

/-- knot_zonedb_insert(), src/knot/zone/zonedb.c:68-82 -/
def insert {Z : Type} (db : Trie.Trie Z) (name : Bytes) (zone : Z) : Res (Trie.Trie Z) := do
  let k ← keyOf name
  Trie.insWith db k (fun _ => zone)

/-- knot_zonedb_del() after the lookup, src/knot/zone/zonedb.c:94-99 -/
def delKey {Z : Type} (db : Trie.Trie Z) (k : Bytes) : Option Z → Res (Trie.Trie Z × Bool)
  | none => .ok (db, false)
  | some _ => do
    let r ← Trie.del db k
    .ok (r.1, true)

/-- knot_zonedb_del(), src/knot/zone/zonedb.c:84-100; `false` is KNOT_ENOENT. -/
def del {Z : Type} (db : Trie.Trie Z) (name : Bytes) : Res (Trie.Trie Z × Bool) := do
  let k ← keyOf name
  let v ← Trie.getTry db k
  delKey db k v

/-- knot_zonedb_find(), src/knot/zone/zonedb.c:102-118 (and knot_zonedb_find_ptr(), :120-136) -/
def find {Z : Type} (db : Trie.Trie Z) (name : Bytes) : Res (Option Z) := do
  let k ← keyOf name
  Trie.getTry db k

/-- knot_zonedb_find_suffix(), src/knot/zone/zonedb.c:138-158. -/
def findSuffix {Z : Type} (db : Trie.Trie Z) (name : Bytes) : Res (Option Z) :=
  match find db name with
  | .ok (some z) => .ok (some z)
  | .ok none =>
    match name with
    | [] => .ub
    | b :: t =>
      if b.toNat = 0 then .ok none
      else
        match h : Dname.nextLabel (b :: t) with
        | .ok r => findSuffix db r
        | _ => .ub
  | .err e => .err e
  | .ub => .ub
termination_by name.length
decreasing_by exact Dname.nextLabel_length h

/-- knot_zonedb_size(), src/knot/zone/zonedb.c:160-167 -/
def size {Z : Type} (db : Trie.Trie Z) : Nat := db.weight

/-- knot_zonedb_new(), src/knot/zone/zonedb.c:50-66 -/
def new {Z : Type} : Trie.Trie Z := Trie.create

end Knot.Zonedb
