import Verif.Nsec3proof.Model
import Verif.Nsecproof.Spec
/-!
# Specification: NSEC3 proofs

What a response proves is what holds in every signed zone that has the signed records of the response (RFC 5155). Where a
record with the flag opt-out covers a name, there may be delegations without DS that the response says nothing about.
-/
namespace Knot.Nsec3proof
open Dname (Name)
open Answer (Resp Owns Deleg Auth Source Path Wild Cut Lookup)

/-- A hash between that of an NSEC3 record and the next one, which may be around the end. -/
def Covers (p q h : Nat) : Prop := (p < h ∧ h < q) ∨ (q ≤ p ∧ (p < h ∨ h < q))

/-- All the records at and below a name belong to delegations without DS. -/
def Insecure (z : Zone3) (x : Name) : Prop :=
  ∀ y ∈ z.names, x <:+ y → (z.node y).types ≠ [] → ∃ d, Cut z.toZone d y ∧ 43 ∉ (z.node d).types

/-- A zone without NSEC: a tree of names. Names without records are there only for names below; CNAME is the only type of
a node; there is nothing below DNAME, and DS only at delegations. Signatures go with records. -/
structure Plan (z : Zone3) : Prop where
  wf : Answer.Wf z.toZone
  nsec : ∀ x ∈ z.names, (z.node x).nsec = []
  sigs : ∀ x ∈ z.names, (z.node x).types = [] → (z.node x).sigs = []
  empty : ∀ x ∈ z.names, ∃ y ∈ z.names, x <:+ y ∧ (z.node y).types ≠ []
  cname : ∀ x ∈ z.names, Auth z.toZone 43 x → 5 ∈ (z.node x).types → ∀ u ∈ (z.node x).types, u = 5
  dname : ∀ x ∈ z.names, Auth z.toZone 39 x → 39 ∈ (z.node x).types → ∀ y ∈ z.names, x <:+ y → y = x
  ds : ∀ x ∈ z.names, 43 ∈ (z.node x).types → x ≠ z.apex → 2 ∈ (z.node x).types

/-- The records that a zone is authoritative for are signed, and no other; the apex has NSEC3PARAM. -/
structure Ready (z : Zone3) : Prop where
  sigs : ∀ x ∈ z.names, Auth z.toZone 43 x → ((z.node x).sigs ≠ [] ∧ (Deleg z.toZone x → 43 ∈ (z.node x).sigs) ↔
    (z.node x).types ≠ [] ∧ (Deleg z.toZone x → 43 ∈ (z.node x).types))
  param : 51 ∈ (z.node z.apex).types

/-- The types that an NSEC3 record lists: those that the zone has authoritative data for, and NS of a delegation. -/
def Bitmap (z : Zone3) (x : Name) (l : List Nat) : Prop :=
  ∀ t, t ∈ l ↔ (t ∈ (z.node x).types ∧ (Deleg z.toZone x → t = 2 ∨ t = 43)) ∨
    (t = 46 ∧ (z.node x).sigs ≠ [] ∧ (Deleg z.toZone x → 43 ∈ (z.node x).sigs))

/-- A chain of NSEC3 records (RFC 5155 7.1): each is for an authoritative name or delegation and tells its types and the
next hash; a name without one has nothing but delegations without DS, under the flag opt-out. -/
structure Chain (z : Zone3) : Prop where
  sorted : z.tree.Pairwise (· < ·)
  tree : ∀ h, z.nsec3 h ≠ none → h ∈ z.tree
  listed : ∀ h r, z.nsec3 h = some r → ∃ x ∈ z.names, Auth z.toZone 43 x ∧ z.hash x = h ∧ Bitmap z x r.types
  links : ∀ h r, z.nsec3 h = some r → z.nsec3 r.next ≠ none ∧ ∀ h', Covers h r.next h' → z.nsec3 h' = none
  all : ∀ x ∈ z.names, Auth z.toZone 43 x → z.nsec3 (z.hash x) = none →
    Insecure z x ∧ ∀ h r, z.nsec3 h = some r → Covers h r.next (z.hash x) → r.optout = true

/-- A zone signed with NSEC3. -/
structure Signed (z : Zone3) : Prop where
  plan : Plan z
  chain : Chain z

/-- Names whose hashes are of importance: those of the zones, those on the way from a name with all above, wildcards. -/
def Asked (z z' : Zone3) (t : Nat) (n x : Name) : Prop :=
  x ∈ z.names ∨ x ∈ z'.names ∨
    ∃ ls m, Path z.toZone t n ls m ∧ (x <:+ m ∨ ∃ c, c <:+ m ∧ x = [42] :: c)

/-- They have different hashes, and none of these is found in a chain with other parameters. -/
structure Apart (z z' : Zone3) (t : Nat) (n : Name) : Prop where
  inj : ∀ x y, Asked z z' t n x → Asked z z' t n y → z.hash x = z.hash y → x = y
  tree : ∀ x, Asked z z' t n x → z.hash x ∈ z.tree → z.nsec3 (z.hash x) ≠ none

/-- The signed records of a response of the zone `z` are in the zone `z'` too, with the same data. -/
structure Agrees (z z' : Zone3) (r : Resp) (p : Denial) : Prop where
  apex : z'.apex = z.apex
  hash : z'.hash = z.hash
  nsec3 : ∀ h ∈ p.nsec3, z'.nsec3 h = z.nsec3 h
  ds : ∀ d, p.ds = some d → d ∈ z'.names ∧ 43 ∈ (z'.node d).types ∧ Auth z'.toZone 43 d
  answer : ∀ o s u, .rr o s u ∈ r.answer → s ∈ z'.names ∧ Owns z'.toZone s u ∧ Auth z'.toZone u s ∧
    z'.target s u = z.target s u

/-- The closest provable encloser: the longest suffix with an NSEC3 record. -/
def Listed (z : Zone3) (x : Name) : Prop := x ∈ z.names ∧ Auth z.toZone 43 x ∧ z.nsec3 (z.hash x) ≠ none
def Provable (z : Zone3) (e n : Name) : Prop := Listed z e ∧ e <:+ n ∧ ∀ x, Listed z x → x <:+ n → x <:+ e

/-- No wildcard with NSEC3 is right below the closest provable encloser of a name on the way that does not exist. -/
def NoWildCpe (z : Zone3) (t : Nat) (n : Name) : Prop :=
  ∀ ls m, Path z.toZone t n ls m → Lookup z.toZone t m .nxdomain → ∀ e, Provable z e m → ¬ Listed z ([42] :: e)

/-- On the way from a name, wildcards that answer have NSEC3, if the zone is authoritative for them, and do not answer for
a name that starts with `*` itself. -/
def Plain (z : Zone3) (t : Nat) (n : Name) : Prop :=
  ∀ ls m s, Path z.toZone t n ls m → Source z.toZone s m → s ≠ m → ¬ Wild m ∧ (Auth z.toZone 43 s → Listed z s)

/-- A name at, above or right below one on the way, under a record of the response with the flag opt-out, and with
nothing but delegations without DS, if it exists. -/
def OptOut (z z' : Zone3) (t : Nat) (n : Name) (p : Denial) (x : Name) : Prop :=
  (∃ ls m, Path z.toZone t n ls m ∧ (x <:+ m ∨ ∃ c, c <:+ m ∧ x = [42] :: c)) ∧
  (∃ h ∈ p.nsec3, ∃ r, z'.nsec3 h = some r ∧ r.optout = true ∧ Covers h r.next (z'.hash x)) ∧
  Insecure z' x

end Knot.Nsec3proof
