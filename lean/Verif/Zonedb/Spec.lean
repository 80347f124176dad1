import Verif.Dname.Spec
/-!
# Specification of a set of named zones

A database is a list of pairs of a name and a zone with distinct names.
-/
namespace Knot.Zones
open Knot.Dname (Name)

variable {Z : Type}

/-- The zone with exactly this name. -/
def find (db : List (Name × Z)) (n : Name) : Option Z := (db.find? (fun e => e.1 == n)).map (·.2)

/-- Remove a zone. -/
def del (db : List (Name × Z)) (n : Name) : List (Name × Z) := db.filter (fun e => e.1 != n)

/-- Add a zone or replace the one of the same name. -/
def put (db : List (Name × Z)) (n : Name) (z : Z) : List (Name × Z) := (n, z) :: del db n

/-- The name itself and its ancestors, up to the root. -/
def ancestors : Name → List Name
  | [] => [[]]
  | l :: ls => (l :: ls) :: ancestors ls

/-- The zone of the nearest ancestor that has one. -/
def deepest (db : List (Name × Z)) (n : Name) : Option Z := (ancestors n).findSome? (find db)

/-- Operations. -/
inductive Op (Z : Type) where
  | put (n : Name) (z : Z)
  | del (n : Name)
  | find (n : Name)
  | suffix (n : Name)
  | size

/-- Answers. -/
inductive Out (Z : Type) where
  | done
  | flag (b : Bool)
  | zone (z : Option Z)
  | number (n : Nat)

/-- What an operation does and answers. -/
def step (db : List (Name × Z)) : Op Z → List (Name × Z) × Out Z
  | .put n z => (put db n z, .done)
  | .del n => (del db n, .flag (find db n).isSome)
  | .find n => (db, .zone (find db n))
  | .suffix n => (db, .zone (deepest db n))
  | .size => (db, .number db.length)

/-- A history. -/
def run (db : List (Name × Z)) : List (Op Z) → List (Name × Z) × List (Out Z)
  | [] => (db, [])
  | o :: os => ((run (step db o).1 os).1, (step db o).2 :: (run (step db o).1 os).2)

/-- The name in an operation. -/
def Op.name : Op Z → Name
  | .put n _ | .del n | .find n | .suffix n => n
  | .size => []

end Knot.Zones
