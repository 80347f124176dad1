import Verif.Nsecchain.Model
import Verif.Bitmap.Spec
/-!
# Specification: NSEC chains
-/
namespace Knot.Nsecchain
open Dname (Name lowerName canonCmp)

/-- The name has authoritative data or is a delegation: it is not below a delegation and owns records other
than NSEC and RRSIG. -/
abbrev Auth (n : Node) : Prop := n.nonauth = false ∧ n.types ≠ []

/-- The types an NSEC record lists, RFC 4034 4.1.2: those of the node, at a delegation only NS and DS; NSEC
and RRSIG. -/
def listed (n : Node) (t : Nat) : Bool :=
  decide (t = 46 ∨ t = 47 ∨ t ∈ n.types ∧ (n.deleg = true → t = 2 ∨ t = 43))

/-- The chain: exactly the nodes with authoritative data and delegations have an NSEC record, one each; it
has the right types and points to the next of them in the order of names, the last one to the first. -/
structure Chain (ttl : Nat) (names : List Name) (h : Heap) : Prop where
  others : ∀ x ∈ names, ¬ Auth (h x) → (h x).nsec = []
  links : ∀ (l : List Name), l = names.filter (fun x => decide (Auth (h x))) →
    ∀ (i : Nat) (x y : Name), l[i]? = some x → l[(i + 1) % l.length]? = some y →
      ∃ t, (h x).nsec = [(t, Bitmap.encode (listed (h x)))] ∧ lowerName t = y ∧ (h x).ttl = ttl

/-- The names of a tree in its order, the apex first, lower-case, with types of 16 bits. -/
structure Tree (names : List Name) (h : Heap) : Prop where
  sorted : names.Pairwise (fun a b => canonCmp a b = .lt)
  lower : ∀ x ∈ names, lowerName x = x
  types : ∀ x ∈ names, ∀ t ∈ (h x).types, t < 65536
  apex : ∃ a l, names = a :: l ∧ Auth (h a)

/-- A name without other records has no signatures but of an NSEC it has. -/
def NoBare (names : List Name) (h : Heap) : Prop :=
  ∀ x ∈ names, (h x).nonauth = false → (h x).types = [] → ∀ t ∈ (h x).sigs, t = 47 ∧ (h x).nsec ≠ []

/-- Nothing but NSEC records and their signatures may differ. -/
def SameData (n n' : Node) : Prop :=
  n'.types = n.types ∧ n'.nonauth = n.nonauth ∧ n'.deleg = n.deleg ∧ (∀ t ∈ n'.sigs, t ∈ n.sigs) ∧
  (∀ t ∈ n.sigs, t ≠ 47 → t ≠ 50 → t ∈ n'.sigs)

/-- An update of a zone, signed but for NSEC records: only the nodes `ptrs` are changed, NSEC records are not
touched, and a node left without other records has no signatures but of NSEC. -/
structure Upd (names ptrs : List Name) (old new : Heap) : Prop where
  unchanged : ∀ x, x ∉ ptrs → new x = old x
  nsec : ∀ x, (new x).nsec = (old x).nsec
  signed : ∀ x ∈ names, (new x).types = [] → ∀ t ∈ (new x).sigs, t = 47

/-- A tree of nodes under an apex: in order, with all the parents. -/
structure Closed (apex : Name) (names : List Name) : Prop where
  sorted : names.Pairwise (fun a b => canonCmp a b = .lt)
  under : ∀ x ∈ names, apex <:+ x
  parents : ∀ x ∈ names, x ≠ apex → x.tail ∈ names

/-- Some name above, but strictly below the apex, owns NS. -/
def UnderCut (apex : Name) (h : Heap) (x : Name) : Prop :=
  ∃ k, 0 < k ∧ k + apex.length < x.length ∧ 2 ∈ (h (x.drop k)).types

/-- The node has any records and is not below a delegation. -/
abbrev Included (n : Node) : Prop := n.nonauth = false ∧ (n.types ≠ [] ∨ n.sigs ≠ [] ∨ n.nsec ≠ [])

/-- The types a node has: NSEC and RRSIG only if they are there; at a delegation NS, DS, NSEC, and RRSIG if
one covers DS or NSEC. -/
def present (n : Node) (t : Nat) : Bool :=
  decide (t ∈ n.types ∧ (n.deleg = true → t = 2 ∨ t = 43) ∨ t = 47 ∧ n.nsec ≠ [] ∨
    t = 46 ∧ n.sigs ≠ [] ∧ (n.deleg = true → 43 ∈ n.sigs ∨ 47 ∈ n.sigs))

/-- A valid chain as found in a zone: each included node has one NSEC with exactly its types, which points to
the next included one, the last one to the first; no other has any. -/
structure Valid (names : List Name) (h : Heap) : Prop where
  others : ∀ x ∈ names, ¬ Included (h x) → (h x).nsec = []
  links : ∀ (l : List Name), l = names.filter (fun x => decide (Included (h x))) →
    ∀ (i : Nat) (x y : Name), l[i]? = some x → l[(i + 1) % l.length]? = some y →
      ∃ t, (h x).nsec = [(t, Bitmap.encode (present (h x)))] ∧ lowerName t = y

/-- The names of the tree of a zone to be checked. -/
structure Names (names : List Name) (h : Heap) : Prop where
  sorted : names.Pairwise (fun a b => canonCmp a b = .lt)
  lower : ∀ x ∈ names, lowerName x = x
  types : ∀ x ∈ names, ∀ t ∈ (h x).types, t < 65536
  apex : ∃ a l, names = a :: l ∧ Included (h a)

end Knot.Nsecchain
