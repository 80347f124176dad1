import Verif.Confio.Model
/-!
# Dynamic configuration of zones: what is expected

What each command does to the configuration, what a server in a good state is,
and which operations concern which zone. Nothing here speaks of flags or of
tracked changes.
-/
namespace Knot.Confio

/-- The values of an item after one more was given: it is added if there may be more and it is new, and replaces the
old one otherwise. -/
def newVals (multi : Bool) (l : List Val) (v : Val) : List Val :=
  if multi then (if v ∈ l then l else l ++ [v]) else [v]

/-- … after one (or all) was taken away; `none`: it is not there. -/
def lessVals (l : List Val) : Option Val → Option (List Val)
  | none => if l = [] then none else some []
  | some x => if x ∈ l then some (l.erase x) else none

/-- What an operation does to the configured zones; `none`: it is refused. -/
def effect (S : Schema) (c : Conf) : Op → Option Conf
  | .addZone z => if z ∈ c.names then none else some ⟨z :: c.names, fun y => if y = z then noCfg else c.cfg y⟩
  | .delZone z =>
    if z ∈ c.names then some ⟨c.names.filter (· != z), fun y => if y = z then noCfg else c.cfg y⟩ else none
  | .setItem z i v =>
    if z ∈ c.names then
      some ⟨c.names, fun y => if y = z then (c.cfg z).upd i (newVals (S.multi i) (c.cfg z i) v) else c.cfg y⟩
    else none
  | .unsetItem z i v =>
    if z ∈ c.names then
      (lessVals (c.cfg z i) v).map (fun l => ⟨c.names, fun y => if y = z then (c.cfg z).upd i l else c.cfg y⟩)
    else none
  | .delZones => if c.names = [] then some c else some ⟨[], fun _ => noCfg⟩
  | .setAll i v =>
    if c.names = [] then some c
    else some ⟨c.names, fun z => (c.cfg z).upd i (newVals (S.multi i) (c.cfg z i) v)⟩
  | .unsetAll i v =>
    if c.names = [] then some c
    else some ⟨c.names, fun z => (c.cfg z).upd i ((lessVals (c.cfg z i) v).getD (c.cfg z i))⟩
  | .bulk c' => some c'
  | .plain => some c
  | .zones => some c
  | .refs => some c
  | .bad => none

/-- All operations of a command, or nothing. -/
def effects (S : Schema) (c : Conf) : List Op → Option Conf
  | [] => some c
  | o :: os => (effect S c o).bind (fun c' => effects S c' os)

/-- What the commands of a transaction do: each is done as a whole or not at all. -/
def outcome (S : Schema) (c : Conf) : List (List Op) → Conf
  | [] => c
  | os :: rest => outcome S ((effects S c os).getD c) rest

/-- The server has a zone object for the configured zones and for no other. -/
def Serves (v : Srv) : Prop := ∀ z, (lookup v.db z).isSome = true ↔ z ∈ v.conf.names

/-- The zone works with the configured values of the items whose change needs a reload. -/
def UpToDate (S : Schema) (v : Srv) (z : Name) : Prop :=
  ∀ o, lookup v.db z = some o → ∀ i, S.rld i = true → o.cfg i = v.conf.cfg z i

/-- A server in a good state: one object for each configured zone, none of them
freed, none marked as to be reloaded or removed. -/
structure Sound (v : Srv) : Prop where
  shape : ∃ f : Name → Obj, v.db = v.conf.names.map (fun z => (z, f z))
  past : ∀ p ∈ v.db, p.2.gen < v.gen
  pastFreed : ∀ q ∈ v.freed, q.2 < v.gen
  unmarked : ∀ p ∈ v.db, p.2.change.reload = false ∧ p.2.change.unset = false
  alive : ∀ p ∈ v.db, (p.1, p.2.gen) ∉ v.freed

/-- Every zone object of `v` is in the database of `v'` or was freed. -/
def NoLeak (v v' : Srv) : Prop :=
  ∀ p ∈ v.db, (∃ q ∈ v'.db, q.1 = p.1 ∧ q.2.gen = p.2.gen) ∨ (p.1, p.2.gen) ∈ v'.freed

/-- Operations on the zone section that name one zone, and those on other sections. -/
def Individual : Op → Bool
  | .delZones => false
  | .setAll _ _ => false
  | .unsetAll _ _ => false
  | .bulk _ => false
  | _ => true

/-- An operation that names a zone other than `z`, through an item that does not
concern all zones; or one that concerns no zone. -/
def Elsewhere (S : Schema) (z : Name) : Op → Bool
  | .addZone y => y != z
  | .delZone y => y != z
  | .setItem y i _ => y != z && !S.rldAll i
  | .unsetItem y i _ => y != z && !S.rldAll i
  | .plain => true
  | .bad => true
  | _ => false

/-- An operation that replaces the section by the contents of files. -/
def IsBulk : Op → Bool
  | .bulk _ => true
  | _ => false

/-- One command for each operation (`conf-set` and `conf-unset` with one value). -/
def single (ops : List Op) : List (List Op) := ops.map (fun o => [o])

end Knot.Confio
