import Verif.Nsecproof.Model
import Verif.Answer.Spec
/-!
# Specification: NSEC proofs

What a response proves is what holds in every signed zone that has the signed records of the response.
-/
namespace Knot.Nsecproof
open Dname (Name)
open Answer (Zone Rec Resp Owns Deleg Auth Source Path Wild)

/-- A zone signed with NSEC: a tree of names with a valid chain (RFC 4034 4). Names without records are there only for
names below; CNAME is the only type of a node; there is nothing below DNAME (RFC 6672 2.4), and DS only at delegations. -/
structure Signed (z : Zone) : Prop where
  wf : Answer.Wf z
  names : Nsecchain.Names z.names z.node
  valid : Nsecchain.Valid z.names z.node
  empty : ∀ x ∈ z.names, (∀ u, ¬ Owns z x u) → ∃ y ∈ z.names, x <:+ y ∧ ∃ u, Owns z y u
  cname : ∀ x ∈ z.names, Auth z 43 x → 5 ∈ (z.node x).types → ∀ u ∈ (z.node x).types, u = 5
  dname : ∀ x ∈ z.names, Auth z 39 x → 39 ∈ (z.node x).types → ∀ y ∈ z.names, x <:+ y → y = x
  ds : ∀ x ∈ z.names, 43 ∈ (z.node x).types → x ≠ z.apex → 2 ∈ (z.node x).types

/-- The signed records of a response of the zone `z` are in the zone `z'` too, with the same data: NSEC and DS in the
authority section, and those in the answer section, at the node that they were signed for (the labels field of the
signature tells a record made from a wildcard). NS records of a delegation are not signed. -/
structure Agrees (z z' : Zone) (r : Resp) (p : Denial) : Prop where
  apex : z'.apex = z.apex
  nsec : ∀ x ∈ p.nsec, x ∈ z'.names ∧ (z'.node x).nsec = (z.node x).nsec
  ds : ∀ d, p.ds = some d → d ∈ z'.names ∧ 43 ∈ (z'.node d).types ∧ Auth z' 43 d
  answer : ∀ o s u, .rr o s u ∈ r.answer → s ∈ z'.names ∧ Owns z' s u ∧ Auth z' u s ∧
    z'.target s u = z.target s u ∧ (u = 47 → (z'.node s).nsec = (z.node s).nsec)

/-- On the way from a name, wildcards that answer have records, and do not answer for a name that starts with `*`
itself. -/
def Plain (z : Zone) (t : Nat) (n : Name) : Prop :=
  ∀ ls m s, Path z t n ls m → Source z s m → s ≠ m → ¬ Wild m ∧ ∃ u, Owns z s u

/-- No DNAME at a wildcard (RFC 6672 3.3) is on the way from a name. -/
def NoWildDname (z : Zone) (t : Nat) (n : Name) : Prop :=
  ∀ ls m, Path z t n ls m → ∀ l ∈ ls, l.type = 39 → ¬ Wild l.source

/-- Names of labels that are not empty, at most 255 octets long, are all that is on the way from a name. -/
def Wired (z : Zone) (t : Nat) (n : Name) : Prop :=
  ∀ ls m, Path z t n ls m → (∀ l ∈ m, 1 ≤ l.length) ∧ (m.map (fun l => l.length + 1)).sum + 1 ≤ 255

/-- The response says the same about the zone `z'`: it is the correct one for it, but for a chain of five links, which
is in `z'` too. -/
def Says (z' : Zone) (t : Nat) (n : Name) (r : Resp) : Prop :=
  Answer.Correct z' t n r ∨
    ∃ ls m, Path z' t n ls m ∧ ls.length = 5 ∧ r.answer = Answer.records ls ∧ r.state = .hit

end Knot.Nsecproof
