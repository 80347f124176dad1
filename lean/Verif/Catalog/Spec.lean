import Verif.Catalog.Model
/-!
# Specification of catalog updates

The state is which zones are members and by which record; a batch of operations means their
effects one after another.
-/
namespace Knot.Catalog
open Dname

/-- An operation on a member `m`, given by the PTR record with owner `o` in the catalog zone `c`. -/
inductive Op where
  | add (m o c : Name)
  | remove (m o c : Name)
  | group (m o c : Name) (g : List UInt8)

def Op.member : Op → Name
  | .add m _ _ | .remove m _ _ | .group m _ _ _ => m

def Op.owner : Op → Name
  | .add _ o _ | .remove _ o _ | .group _ o _ _ => o

def Op.catz : Op → Name
  | .add _ _ c | .remove _ _ c | .group _ _ c _ => c

abbrev State := Name → Option Rec

/-- The entry of `m` is by this owner and catalog zone. -/
def State.Has (S : State) (m o c : Name) : Prop := ∃ g, S m = some ⟨o, c, g⟩

instance (S : State) (m o c : Name) : Decidable (S.Has m o c) :=
  match h : S m with
  | none => .isFalse (by rintro ⟨g, hg⟩; rw [h] at hg; cases hg)
  | some ⟨o', c', g'⟩ =>
    if e : o' = o ∧ c' = c then .isTrue ⟨g', by rw [h, e.1, e.2]⟩
    else .isFalse (by rintro ⟨g, hg⟩; rw [h] at hg; injection hg with hg; injection hg with h1 h2; exact e ⟨h1, h2⟩)

def State.set (S : State) (m : Name) (e : Option Rec) : State := fun x => if x = m then e else S x

/-- A member already present is not added again, and only the record it is present by can be
removed or given a group (a group name ends at a zero octet). -/
def Op.apply (S : State) : Op → State
  | .add m o c => if S m = none then S.set m (some ⟨o, c, []⟩) else S
  | .remove m o c => if S.Has m o c then S.set m none else S
  | .group m o c g => if S.Has m o c then S.set m (some ⟨o, c, g.takeWhile (· ≠ 0)⟩) else S

def run (S : State) (ops : List Op) : State := ops.foldl Op.apply S

/-- An addition of `m` took effect. -/
def Added (S : State) (ops : List Op) (m : Name) : Prop :=
  ∃ a o c b, ops = a ++ .add m o c :: b ∧ run S a m = none

/-- The state after the batch: configured zones are never members, and new members only come from
configured catalog zones. -/
def Final (S : State) (ops : List Op) (conf : Name → Bool) (m : Name) (r : Option Rec) : Prop :=
  match run S ops m with
  | none => r = none
  | some e =>
    (conf m = true → r = none) ∧
    (conf m = false → Added S ops m → conf e.catz = false → r = none) ∧
    (conf m = false → (Added S ops m → conf e.catz = true) → r = some e)

/-- The call for an operation, with or without a check against the database. -/
def call (db : Db) (u : Upd) (x : Op × Bool) : Res Upd :=
  let check := if x.2 then some db else none
  match x.1 with
  | .add m o c => updateAdd u m o c .add [] check
  | .remove m o c => updateAdd u m o c .rem [] check
  | .group m o c g => updateAdd u m o c .prop g check

def calls (db : Db) : Upd → List (Op × Bool) → Res Upd
  | u, [] => .ok u
  | u, x :: xs => do
    let u ← call db u x
    calls db u xs

/-- Member names are legal and without zero octets, owners are `unique.zones.catalog`. -/
def Op.Legal (x : Op) : Prop :=
  (∀ l ∈ x.member, l ≠ [] ∧ (0 : UInt8) ∉ l) ∧ ∃ u z, x.owner = [u, z] ++ x.catz

/-- What the caller guarantees for calls without a check: a member added is not there (or it is
never mentioned again and is not configured), a record removed or changed is in the database. -/
def Fair (S : State) (conf : Name → Bool) (xs : List (Op × Bool)) : Prop :=
  ∀ a x b, xs = a ++ (x, false) :: b →
    match x with
    | .add m _ _ => run S (a.map Prod.fst) m = none ∨ (conf m = false ∧ ∀ y ∈ b, y.1.member ≠ m)
    | .remove m o c => S.Has m o c
    | .group m o c _ => S.Has m o c

/-- No member of the database gets a group and is later removed and added again in the batch. -/
def NoReadd (S : State) (ops : List Op) : Prop :=
  ∀ m, S m ≠ none → ∀ o c g o' c' o'' c'',
    ¬ List.Sublist [Op.group m o c g, .remove m o' c', .add m o'' c''] ops

/-- The database: one record for a member, with legal names. -/
def Db.Ok (db : Db) : Prop :=
  (db.map Prod.fst).Nodup ∧ ∀ p ∈ db, (∀ l ∈ p.1, l ≠ [] ∧ (0 : UInt8) ∉ l) ∧ p.2.catz <:+ p.2.owner

end Knot.Catalog
