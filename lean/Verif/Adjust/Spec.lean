import Verif.Adjust.Model
/-! # C54: what adjusting should give -/
namespace Knot.Adjust

/-- A zone: its nodes in the canonical order from the apex, which has records (SOA); parents are there; at
most one RRset of a type at a node. -/
structure WF (z : Zone) : Prop where
  sorted : z.Pairwise (fun a b => a.name < b.name)
  apex : ∃ a l, z = a :: l ∧ a.name = [] ∧ a.rrs ≠ []
  closed : ∀ nd ∈ z, ∀ m, m <+: nd.name → ∃ p ∈ z, p.name = m
  types : ∀ nd ∈ z, (nd.rrs.map (·.type)).Nodup

/-- There is an RRset at the name. -/
def Has (z : Zone) (n : Name) (t : Nat) : Prop := ∃ nd ∈ z, nd.name = n ∧ ∃ r ∈ nd.rrs, r.type = t

/-- There are records at the name other than NSEC (47), NSEC3 (50) and RRSIG (46). -/
def Data (z : Zone) (n : Name) : Prop := ∃ t, Has z n t ∧ t ≠ 47 ∧ t ≠ 50 ∧ t ≠ 46

/-- NS (2) below the apex. -/
def Cut (z : Zone) (n : Name) : Prop := n ≠ [] ∧ Has z n 2

/-- The name is below a delegation. -/
def Below (z : Zone) (n : Name) : Prop := ∃ m, Cut z m ∧ m <+: n ∧ m ≠ n

/-- The name has authoritative data: DS (43) at a delegation, any data elsewhere. -/
def AuthData (z : Zone) (n : Name) : Prop :=
  ¬ Below z n ∧ ((Cut z n ∧ Has z n 43) ∨ (¬ Cut z n ∧ Data z n))

/-- The flags of a node are right. -/
def FlagsOk (z : Zone) (n : Name) (f : Fl) : Prop :=
  (f.nonauth = true ↔ Below z n) ∧ (f.deleg = true ↔ Cut z n ∧ ¬ Below z n) ∧
  (f.sauth = true ↔ ∃ d, n <+: d ∧ AuthData z d) ∧ (f.sdata = true ↔ ∃ d, n <+: d ∧ Data z d)

/-- A node with records that is not below a delegation. -/
def Auth (z : Zone) (n : Name) : Prop := (∃ nd ∈ z, nd.name = n ∧ nd.rrs ≠ []) ∧ ¬ Below z n

/-- `b` is strictly between `a` and `n` on the circle of names. -/
def Between (a b n : Name) : Prop :=
  (a < n ∧ a < b ∧ b < n) ∨ (¬ a < n ∧ (a < b ∨ b < n))

/-- No authoritative node is between the previous node of `n` and `n`: going back from `n` by the pointers
passes over no authoritative node. -/
def NoSkip (z : Zone) (n : Name) (p : Option Name) : Prop :=
  ∃ m, p = some m ∧ (∃ nd ∈ z, nd.name = m) ∧ ∀ b, Auth z b → ¬ Between m b n

/-- The pointer is to the nearest authoritative node before `n`, on the circle. -/
def PrevOk (z : Zone) (n : Name) (p : Option Name) : Prop :=
  ∃ m, p = some m ∧ Auth z m ∧ ∀ b, Auth z b → ¬ Between m b n

/-- The node that answers for a name: itself, or the wildcard below the longest existing ancestor. -/
def Answers (z : Zone) (r m : Name) : Prop :=
  (r = m ∧ ∃ nd ∈ z, nd.name = m) ∨
  ((¬ ∃ nd ∈ z, nd.name = r) ∧ ∃ e, m = e ++ [42] ∧ e <+: r ∧ (∃ nd ∈ z, nd.name = m) ∧
    ∀ e', e' <+: r → e'.length > e.length → ¬ ∃ nd ∈ z, nd.name = e')

/-- The target of a delegation that must be in the additional section: NS (2), at or below the owner, and at or
below a delegation. -/
def Must (z : Zone) (owner : Name) (t : Nat) (m : Name) : Prop :=
  t = 2 ∧ owner <+: m ∧ (Cut z m ∨ Below z m)

/-- The additional nodes of an RRset are right: for each name in its rdata that some node answers for that node,
marked as optional or not; the mandatory ones first, in the order of the rdata. -/
def AddsOk (z : Zone) (owner : Name) (r : RR) (l : List Glue) : Prop :=
  (∀ g, g ∈ l ↔ ∃ x, r.refs[g.pos]? = some (some x) ∧ Answers z x g.node ∧
    (g.optional = false ↔ Must z owner r.type g.node)) ∧
  l.Pairwise (fun a b => (a.optional = b.optional ∧ a.pos < b.pos) ∨ (a.optional = false ∧ b.optional = true))

/-- A type whose rdata names additional nodes: NS, MX, SRV, SVCB, HTTPS. -/
def Refers (t : Nat) : Prop := t = 2 ∨ t = 15 ∨ t = 33 ∨ t = 64 ∨ t = 65

/-- What holds of the additional nodes of an RRset even when they are not up to date: each is a node of the zone,
the name in the rdata or, if that is no node, a wildcard above it; a name that is a node is there. -/
def AddsLoose (z : Zone) (r : RR) (l : List Glue) : Prop :=
  (∀ g ∈ l, (∃ nd ∈ z, nd.name = g.node) ∧ ∃ x, r.refs[g.pos]? = some (some x) ∧
    (g.node = x ∨ ((¬ ∃ nd ∈ z, nd.name = x) ∧ ∃ q, g.node = q ++ [42] ∧ q <+: x ∧ q ≠ x))) ∧
  (∀ i x, r.refs[i]? = some (some x) → (∃ nd ∈ z, nd.name = x) → ∃ g ∈ l, g.pos = i ∧ g.node = x) ∧
  (l.map (·.pos)).Nodup

/-- The update goes from `z` to `z'`: `ptrs` has every name at which the nodes differ, each once. -/
structure Covers (z z' : Zone) (ptrs : List Name) : Prop where
  nodup : ptrs.Nodup
  diff : ∀ nd : Node, nd.name ∉ ptrs → (nd ∈ z ↔ nd ∈ z')
  up : ∀ n ∈ ptrs, ∀ m, m <+: n → m ∈ ptrs

/-- The lives of a zone: loaded (or transferred) whole, then updated any number of times, with a check or without one. -/
inductive Life : St → Prop
  | load {z : Zone} : WF z → Life (load z)
  | update {s : St} {z' : Zone} {ptrs : List Name} : Life s → WF z' → Covers s.z z' ptrs →
      Life (Adjust.update s z' ptrs)
  | checked {s : St} {z' : Zone} {ptrs : List Name} : Life s → WF z' → Covers s.z z' ptrs →
      Life (updateChecked s z' ptrs)

/-- The longest ancestor of `x`, or `x`, that is a node. -/
def Closest (z : Zone) (x e : Name) : Prop :=
  e <+: x ∧ (∃ nd ∈ z, nd.name = e) ∧ ∀ e', e' <+: x → e'.length > e.length → ¬ ∃ nd ∈ z, nd.name = e'

/-- No wildcard above the name. -/
def NoWild (z : Zone) (x : Name) : Prop := ∀ nd ∈ z, ∀ q, q <+: x → nd.name ≠ q ++ [42]

/-- For the names in rdata: the update changes no closest encloser, or there is no wildcard to be found. -/
def KeepsEnclosers (z z' : Zone) : Prop :=
  ∀ nd ∈ z', ∀ r ∈ nd.rrs, ∀ x, some x ∈ r.refs →
    (∀ e, Closest z x e ↔ Closest z' x e) ∨ (NoWild z x ∧ NoWild z' x)

/-- Lives in which every update keeps the closest enclosers. -/
inductive Clean : St → Prop
  | load {z : Zone} : WF z → Clean (load z)
  | update {s : St} {z' : Zone} {ptrs : List Name} : Clean s → WF z' → Covers s.z z' ptrs →
      KeepsEnclosers s.z z' → Clean (Adjust.update s z' ptrs)
  | checked {s : St} {z' : Zone} {ptrs : List Name} : Clean s → WF z' → Covers s.z z' ptrs →
      KeepsEnclosers s.z z' → Clean (updateChecked s z' ptrs)

/-- The size of a zone: the sum over all RRsets of all nodes. -/
def totalSize (z : Zone) : Int := ((z.flatMap (·.rrs)).map (fun r => (r.size : Int))).sum

/-- `t` is the greatest TTL in the zone. -/
def GreatestTtl (z : Zone) (t : Nat) : Prop :=
  (∀ nd ∈ z, ∀ r ∈ nd.rrs, r.ttl ≤ t) ∧ ∃ nd ∈ z, ∃ r ∈ nd.rrs, r.ttl = t

end Knot.Adjust
