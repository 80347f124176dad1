import Verif.Confdb.Model
/-!
# The configuration: what is expected

The configuration as a user sees it: the identifiers of each section, and the
values of each item. No keys, codes or octets of arrays.
-/
namespace Knot.Confdb

/-- The configuration. For a section without identifiers, the identifier is empty. -/
structure Store where
  has : Bytes → Bytes → Bool
  val : Bytes → Bytes → Bytes → List Bytes

/-- Nothing configured. -/
def Store.empty : Store := ⟨fun _ _ => false, fun _ _ _ => []⟩

/-- One more value: it is added if there may be more, and replaces the old one otherwise. -/
def addVal (multi : Bool) (l : List Bytes) (v : Bytes) : List Bytes :=
  if multi then (if v ∈ l then l else l ++ [v]) else [v]

/-- One value less, or none left; `none`: it is not there. -/
def dropVal (l : List Bytes) (v : Bytes) : Option (List Bytes) :=
  if v = [] then (if l = [] then none else some [])
  else if v ∈ l then some (l.erase v) else none

/-- The values of one item. -/
def Store.put (a : Store) (s i id : Bytes) (l : List Bytes) : Store :=
  { a with val := fun s' i' id' => if s' = s ∧ i' = i ∧ id' = id then l else a.val s' i' id' }

/-- The values of an item for every identifier. -/
def Store.putAll (a : Store) (s i : Bytes) (f : List Bytes → List Bytes) : Store :=
  { a with val := fun s' i' id' =>
      if s' = s ∧ i' = i ∧ a.has s id' = true then f (a.val s' i' id') else a.val s' i' id' }

/-- An identifier there or not, without values. -/
def Store.mark (a : Store) (s id : Bytes) (b : Bool) : Store :=
  { has := fun s' id' => if s' = s ∧ id' = id then b else a.has s' id'
    val := fun s' i' id' => if s' = s ∧ id' = id then [] else a.val s' i' id' }

/-- A section without anything. -/
def Store.clear (a : Store) (s : Bytes) : Store :=
  { has := fun s' id' => if s' = s then false else a.has s' id'
    val := fun s' i' id' => if s' = s then [] else a.val s' i' id' }

/-- The identifier can have values: it is there, or the section has none. -/
def Store.present (a : Store) (g : Group) (id : Bytes) : Bool :=
  if g.multi then a.has g.name id else id == []

def effSet (a : Store) (g : Group) (i : Item) (id v : Bytes) : Option Store :=
  if v = [] then none
  else if g.multi = true ∧ id = [] then some (a.putAll g.name i.name (fun l => addVal i.multi l v))
  else if a.present g id = true then some (a.put g.name i.name id (addVal i.multi (a.val g.name i.name id) v))
  else none

def effUnset (a : Store) (g : Group) (i : Item) (id v : Bytes) : Option Store :=
  if g.multi = true ∧ id = [] then some (a.putAll g.name i.name (fun l => (dropVal l v).getD l))
  else if a.present g id = true then (dropVal (a.val g.name i.name id) v).map (a.put g.name i.name id)
  else none

/-- What a command does to the configuration; `none`: it is refused. -/
def effect (S : Schema) (a : Store) : Op → Option Store
  | .setId s id =>
    (group S s).bind (fun g =>
      if g.multi = true ∧ id ≠ [] ∧ id.length ≤ 255 ∧ a.has s id = false then some (a.mark s id true) else none)
  | .set s i id v => (group S s).bind (fun g => (g.item i).bind (fun x => effSet a g x id v))
  | .unset s i id v => (group S s).bind (fun g => (g.item i).bind (fun x => effUnset a g x id v))
  | .unsetId s id =>
    (group S s).bind (fun g => if g.multi = true ∧ a.has s id = true then some (a.mark s id false) else none)
  | .unsetAll s => (group S s).bind (fun _ => some (a.clear s))

/-- The space that the values of an item take. -/
def space (multi : Bool) (l : List Bytes) : Nat :=
  if multi then (l.map (fun v => 2 + v.length)).sum else (l.map List.length).sum

/-- All values fit: at most 65535 octets each if there may be more, and 65536 octets together. -/
def Fits (S : Schema) (a : Store) : Prop :=
  ∀ g ∈ S, ∀ i ∈ g.items, ∀ id,
    space i.multi (a.val g.name i.name id) ≤ 65536 ∧ (i.multi = true → ∀ v ∈ a.val g.name i.name id, v.length ≤ 65535)

/-- A schema: different names, at most 199 sections and 199 items of a section. -/
structure Proper (S : Schema) : Prop where
  names : (S.map (·.name)).Nodup
  items : ∀ g ∈ S, (g.items.map (·.name)).Nodup
  sections : S.length ≤ 199
  sizes : ∀ g ∈ S, g.items.length ≤ 199

/-- The database shows the configuration: through the functions that the program reads it with. -/
structure Shows (S : Schema) (d : Db) (a : Store) : Prop where
  has : ∀ g ∈ S, ∀ id, hasId d g id = a.has g.name id
  iter : ∀ g ∈ S, ∀ id, id ∈ ids d g ↔ a.has g.name id = true
  once : ∀ g ∈ S, (ids d g).Nodup
  vals : ∀ g ∈ S, ∀ i ∈ g.items, ∀ id, read d g i id = a.val g.name i.name id

open Classical in
/-- What becomes of the configuration: the effect of the command, unless it is refused or there is no space. -/
noncomputable def next (S : Schema) (a : Store) (o : Op) : Store :=
  match effect S a o with
  | none => a
  | some b => if Fits S b then b else a

/-- The configuration after commands. -/
noncomputable def after (S : Schema) (l : List Op) : Store := l.foldl (next S) Store.empty

end Knot.Confdb
