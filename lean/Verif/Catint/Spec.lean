import Verif.Catint.Model
import Verif.Catalog.Spec
/-!
# Specification of the interpretation of catalog zones

`unique.zones.catalog. PTR member.` makes a member, `group.unique.zones.catalog. TXT "name"` gives it a group.
-/
namespace Knot.Catint
open Dname (Name)

def label (s : String) : Bytes := s.toList.map fun c => c.toNat.toUInt8

def HasPtr (z : Zone) (o m : Name) : Prop := ∃ n ∈ z, n.owner = o ∧ m ∈ n.ptr
def HasTxt (z : Zone) (o : Name) (r : Bytes) : Prop := ∃ n ∈ z, n.owner = o ∧ r ∈ n.txt
/-- The first TXT record at a name. -/
def FirstTxt (z : Zone) (o : Name) (r : Bytes) : Prop := ∃ n ∈ z, n.owner = o ∧ n.txt.head? = some r

/-- The owner of the record of a member. -/
def memberOwner (apex : Name) (unique : Bytes) : Name := unique :: label "zones" :: apex

/-- A tree of nodes: one for a name, with the nodes between them and the apex, and with sets of records; TXT data are not empty. -/
structure Tree (z : Zone) (apex : Name) : Prop where
  unique : (z.map (·.owner)).Nodup
  parents : ∀ n ∈ z, ∀ p, p <:+ n.owner → apex <:+ p → ∃ n' ∈ z, n'.owner = p
  sets : ∀ n ∈ z, n.ptr.Nodup
  text : ∀ n ∈ z, [] ∉ n.txt

/-- No member record set names two members. -/
def Single (z : Zone) (apex : Name) : Prop :=
  ∀ u m m', HasPtr z (memberOwner apex u) m → HasPtr z (memberOwner apex u) m' → m = m'

/-- The zone says that it is a catalog zone of version 2. -/
def Versioned (z : Zone) (apex : Name) : Prop := ∃ l, HasTxt z (label "version" :: apex) (l :: label "2")

/-- The member of a record: as in the tree, or else as in the whole zone. -/
def MemberOf (tree whole : Zone) (o m : Name) : Prop :=
  HasPtr tree o m ∨ (¬ ∃ m', HasPtr tree o m') ∧ HasPtr whole o m

/-- The tree has the group text `r` for the member `m` of `unique`. -/
def GroupText (tree whole : Zone) (apex : Name) (unique : Bytes) (m : Name) (r : Bytes) : Prop :=
  MemberOf tree whole (memberOwner apex unique) m ∧ FirstTxt tree (label "group" :: memberOwner apex unique) r

/-- TXT data that are one string. -/
def OneString (r : Bytes) : Prop := ∃ s : Bytes, r = s.length.toUInt8 :: s ∧ s.length < 256

/-- Text of a group that is more strings than one. -/
def Multi (tree whole : Zone) (apex : Name) : Prop := ∃ u m r, GroupText tree whole apex u m r ∧ ¬ OneString r

/-- What is said about members by the tree: they are added or removed, and their groups are set or cleared. -/
def Says (tree whole : Zone) (apex : Name) (remove : Bool) (c : Call) : Prop :=
  (∃ u m, HasPtr tree (memberOwner apex u) m ∧ c = ⟨m, memberOwner apex u, if remove then .rem else .add, []⟩) ∨
  (∃ u m r, GroupText tree whole apex u m r ∧ c = ⟨m, memberOwner apex u, .prop, if remove then [] else r.tail⟩)

/-- The operation on the members of catalogs (see the specification of C33) that a call is. -/
def Call.op (apex : Name) (c : Call) : Catalog.Op :=
  match c.type with
  | .rem => .remove c.member c.owner apex
  | .prop => .group c.member c.owner apex c.group
  | _ => .add c.member c.owner apex

/-- Operations, all of them with or without a check against the database. -/
def ops (apex : Name) (check : Bool) (cs : List Call) : List (Catalog.Op × Bool) := cs.map fun c => (c.op apex, check)

end Knot.Catint
