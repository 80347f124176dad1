import Verif.Catalog.Lemmas6
/-!
# C33: updates of the catalog
-/
namespace Knot
open Catalog

/-- **C33.** A batch of additions, removals and changes of groups, given in any order and mixed
with or without checks against the database (`Fair`: what callers that skip the check guarantee),
then finalized and committed in any order of its entries: afterwards the database holds exactly the
members that the operations, taken one after another, leave, except that a configured zone is never
a member and that a zone added in the batch stays only if its catalog zone is configured. The
exclusion `NoReadd` is needed, see `C33_crash`. -/
theorem C33_batch_partial {db : Db} (hd : db.Ok) {conf : Dname.Name → Bool} {xs : List (Op × Bool)}
    (hl : ∀ x ∈ xs, x.1.Legal) (hf : Fair (fun n => db.lookup n) conf xs)
    (hn : NoReadd (fun n => db.lookup n) (xs.map Prod.fst)) :
    ∃ u u', calls db [] xs = .ok u ∧ finalize u db conf = .ok u' ∧
      ∀ u'', List.Perm u'' u' → ∃ db', commit db u'' = .ok db' ∧
        ∀ m, Final (fun n => db.lookup n) (xs.map Prod.fst) conf m (db'.lookup m) :=
  batch hd hl hf hn

/-- **C33, purge.** Removing all members of a catalog zone leaves exactly the others. -/
theorem C33_purge {db : Db} (hd : db.Ok) (zone : Dname.Name) :
    ∃ u, delAll [] zone db = .ok u ∧ ∀ u', List.Perm u' u → ∃ db', commit db u' = .ok db' ∧
      ∀ m, db'.lookup m = (db.lookup m).filter (fun r => r.catz ≠ zone) :=
  purge hd zone

namespace Catalog.Witness

/-- `c.` and `d.` are catalog zones. -/
def cz : Dname.Name := [[99]]
def dz : Dname.Name := [[100]]
/-- `u.z.c.`, `v.z.c.`, `u.z.d.` -/
def o1 : Dname.Name := [[117], [122], [99]]
def o2 : Dname.Name := [[118], [122], [99]]
def o3 : Dname.Name := [[117], [122], [100]]
/-- The members `m.`, `n.`, `p.`. -/
def m : Dname.Name := [[109]]
def n : Dname.Name := [[110]]
def p : Dname.Name := [[112]]
/-- `m.` is a member with the group `g`. -/
def db : Db := [(m, ⟨o1, cz, [103]⟩)]
def conf (x : Dname.Name) : Bool := x = cz

/-- `m.` moves to another record, `n.` is added with a group, `p.` is added and removed again. -/
def xs : List (Op × Bool) :=
  [(.remove m o1 cz, false), (.add n o3 dz, true), (.add m o2 cz, true), (.add p o2 cz, true),
    (.group m o2 cz [104], true), (.remove p o2 cz, true)]

end Catalog.Witness

open Catalog.Witness in
/-- A batch that meets the hypotheses, with its outcome: `m.` is kept by its new record with its
new group; `n.` is not added, because its catalog zone is not configured. -/
example : db.Ok ∧ (∀ x ∈ xs, x.1.Legal) ∧ Fair (fun n => db.lookup n) conf xs ∧
    NoReadd (fun n => db.lookup n) (xs.map Prod.fst) ∧
    (do
      let u ← calls db [] xs
      let u ← finalize u db conf
      commit db u) = .ok [(m, ⟨o2, cz, [104]⟩)] := by
  refine ⟨⟨by decide, ?_⟩, ?_, ?_, ?_, by decide +kernel⟩
  · simp [db, m, o1, cz]
    exact ⟨[[117], [122]], rfl⟩
  · simp [xs, Op.Legal, Op.member, Op.owner, Op.catz, m, n, p, o1, o2, o3, cz, dz]
  · intro a x b h
    have : x = .remove m o1 cz := by
      have hmem : (x, false) ∈ xs := by rw [h]; simp
      simp [xs] at hmem
      exact hmem
    subst this
    exact ⟨[103], rfl⟩
  · intro k _ o c g o' c' o'' c'' hs
    simp only [xs, List.map_cons, List.map_nil] at hs
    grind

open Catalog.Witness in
/-- **Finding.** A member of the database that gets a group and is then removed and added again in
one batch, all with checks: the entry for the group has no record to be removed, and the addition
follows a null pointer. -/
theorem C33_crash :
    calls db [] [(.group m o1 cz [104], true), (.remove m o1 cz, true), (.add m o2 cz, true)] = .ub := by
  decide +kernel

open Catalog.Witness in
/-- **Finding.** Removed, added with a group, removed and added again without: the group of the
first addition stays. -/
theorem C33_stale_group :
    (do
      let u ← calls db [] [(.remove m o1 cz, true), (.add m o2 cz, true), (.group m o2 cz [104], true),
        (.remove m o2 cz, true), (.add m o2 cz, true)]
      let u ← finalize u db conf
      commit db u) = .ok [(m, ⟨o2, cz, [104]⟩)] ∧
    run (fun x => db.lookup x) [.remove m o1 cz, .add m o2 cz, .group m o2 cz [104],
        .remove m o2 cz, .add m o2 cz] m = some ⟨o2, cz, []⟩ := by
  constructor <;> decide +kernel

open Catalog.Witness in
/-- **Finding.** An unchecked addition of a member held by another catalog zone hides the removal
by that zone in the same batch: the member stays. -/
theorem C33_lost_removal :
    (do
      let u ← calls db [] [(.add m o3 dz, false), (.remove m o1 cz, false)]
      let u ← finalize u db (fun x => x = cz ∨ x = dz)
      commit db u) = .ok db ∧
    run (fun x => db.lookup x) [.add m o3 dz, .remove m o1 cz] m = none := by
  constructor <;> decide +kernel

open Catalog.Witness in
/-- **Finding.** The one label `a\000b` and the name `b.a.` have the same key in the pending
update, so that the assertion on the member name fails. -/
theorem C33_nul :
    calls [] [] [(.add [[97, 0, 98]] o1 cz, true), (.add [[98], [97]] o2 cz, true)] = .ub := by
  decide +kernel

open Catalog.Witness in
/-- The purge on a database with members of two catalog zones. -/
example : (do
      let db : Db := [(m, ⟨o1, cz, [103]⟩), (n, ⟨o3, dz, []⟩), (p, ⟨o2, cz, []⟩)]
      let u ← delAll [] cz db
      commit db u) = .ok [(n, ⟨o3, dz, []⟩)] := by
  decide +kernel

end Knot
