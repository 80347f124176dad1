import Verif.Changeset.Model
import Verif.Rdataset.Spec
/-!
# Specification: zones as sets of records

A zone is seen as a set of records with one TTL per RRset. TTLs of RRSIG RRsets are ignored (the
code treats them as part of the signed data).
-/
namespace Knot.Changeset
open Knot.Dname (Name)
open Knot.Rdataset (Canon)

/-- The records of an RRset that may not exist. -/
def recs : Option RRs → List Bytes
  | none => []
  | some r => r.data

def SameTtl (type a b : Nat) : Prop := type = rrsig ∨ a = b

/-- A proper rdataset. -/
def Good (r : RRs) : Prop := r.data ≠ [] ∧ Canon r.data

/-- NSEC3 RRsets live in their own tree, with their signatures. -/
def KeyOk (k : Key) : Prop := (k.nsec3 = true → k.type = 50 ∨ k.type = rrsig) ∧
  (k.nsec3 = false → k.type ≠ 50)

instance (k : Key) : Decidable (KeyOk k) := by unfold KeyOk; infer_instance
instance : DecidableRel Rdataset.Less := fun a b => by unfold Rdataset.Less; infer_instance
instance (l : List Bytes) : Decidable (Canon l) := by unfold Canon; infer_instance
instance (r : RRs) : Decidable (Good r) := by unfold Good; infer_instance

/-- Every key at most once, no empty RRset, records sorted and without duplicates. -/
def Wf (c : Contents) : Prop := (c.map (·.1)).Nodup ∧ ∀ rr ∈ c, KeyOk rr.1 ∧ Good rr.2

/-- Both versions of an RRset are the same. -/
def SameRRs (type : Nat) : Option RRs → Option RRs → Prop
  | none, none => True
  | some a, some b => a.data = b.data ∧ SameTtl type a.ttl b.ttl
  | _, _ => False

instance (c : Contents) : Decidable (Wf c) := by unfold Wf; infer_instance

/-- Two zones have the same records. -/
def Same (c c' : Contents) : Prop := ∀ k, SameRRs k.type (lookup c k) (lookup c' k)

/-- Removal of records that exist, with the TTL they have. -/
def Removable (c : Contents) (rr : RRset) : Prop :=
  KeyOk rr.1 ∧ Good rr.2 ∧ rr.1.type ≠ soa ∧
  ∃ d, lookup c rr.1 = some d ∧ (∀ x ∈ rr.2.data, x ∈ d.data) ∧ SameTtl rr.1.type rr.2.ttl d.ttl

/-- Addition of records that do not exist, with the TTL of the RRset if it exists. -/
def Addable (c : Contents) (rr : RRset) : Prop :=
  KeyOk rr.1 ∧ Good rr.2 ∧ rr.1.type ≠ soa ∧
  ∀ d, lookup c rr.1 = some d → (∀ x ∈ rr.2.data, x ∉ d.data) ∧ SameTtl rr.1.type rr.2.ttl d.ttl

/-- `c'` is `c` without the records of `rr`. -/
def Removed (c : Contents) (rr : RRset) (c' : Contents) : Prop :=
  (∀ k x, x ∈ recs (lookup c' k) ↔ x ∈ recs (lookup c k) ∧ ¬ (k = rr.1 ∧ x ∈ rr.2.data)) ∧
  (∀ k a b, lookup c k = some a → lookup c' k = some b → SameTtl k.type b.ttl a.ttl)

/-- `c'` is `c` with the records of `rr`, and with its TTL. -/
def Added (c : Contents) (rr : RRset) (c' : Contents) : Prop :=
  (∀ k x, x ∈ recs (lookup c' k) ↔ x ∈ recs (lookup c k) ∨ (k = rr.1 ∧ x ∈ rr.2.data)) ∧
  (∀ k a b, k ≠ rr.1 → lookup c k = some a → lookup c' k = some b → SameTtl k.type b.ttl a.ttl) ∧
  (∀ b, lookup c' rr.1 = some b → SameTtl rr.1.type b.ttl rr.2.ttl)

/-- `c'` is `c` with `rr` in place of the SOA. -/
def SoaReplaced (c : Contents) (rr : RRset) (c' : Contents) : Prop :=
  ∀ k, SameRRs k.type (lookup c' k) (if k = rr.1 then some rr.2 else lookup c k)

/-- One call of an update, seen from outside. -/
inductive Effect (apex : Name) (c : Contents) : Call → Contents → Prop
  | remove {rr : RRset} {c' : Contents} : Removable c rr → Removed c rr c' →
      Effect apex c (.remove rr) c'
  | add {rr : RRset} {c' : Contents} : Addable c rr → Added c rr c' → Effect apex c (.add rr) c'
  | soa {r : RRs} {c' : Contents} : Good r → (lookup c (soaKey apex)).isSome →
      SoaReplaced c (soaKey apex, r) c' → Effect apex c (.add (soaKey apex, r)) c'

/-- A sequence of calls. -/
inductive Effects (apex : Name) : Contents → List Call → Contents → Prop
  | nil {c : Contents} : Effects apex c [] c
  | cons {c c1 c' : Contents} {call : Call} {cs : List Call} : Effect apex c call c1 → Wf c1 →
      Effects apex c1 cs c' → Effects apex c (call :: cs) c'

/-- The same changeset, iterated in another order. -/
def Ch.Reorder (a b : Ch) : Prop :=
  List.Perm a.add b.add ∧ List.Perm a.rem b.rem ∧ a.soaFrom = b.soaFrom ∧ a.soaTo = b.soaTo

/-- A changeset as the code produces them: the SOA is kept apart. -/
def Ch.Wf (apex : Name) (ch : Ch) : Prop :=
  Changeset.Wf ch.add ∧ Changeset.Wf ch.rem ∧
  (∀ rr ∈ ch.add, rr.1.type ≠ soa) ∧ (∀ rr ∈ ch.rem, rr.1.type ≠ soa) ∧
  (∀ rr, ch.soaTo = some rr → rr.1 = soaKey apex ∧ Good rr.2) ∧
  (∀ rr, ch.soaFrom = some rr → rr.1 = soaKey apex ∧ Good rr.2)

/-- The TTLs of a changeset suit the zone: removed records have the TTL of the RRset, and so have
added ones unless the whole RRset is removed before. -/
def Ch.TtlOk (z : Contents) (ch : Ch) : Prop :=
  (∀ rr ∈ ch.rem, ∀ d, lookup z rr.1 = some d → SameTtl rr.1.type rr.2.ttl d.ttl) ∧
  (∀ rr ∈ ch.add, ∀ d, lookup z rr.1 = some d →
    (∃ x ∈ d.data, x ∉ recs (lookup ch.rem rr.1)) → SameTtl rr.1.type rr.2.ttl d.ttl)

end Knot.Changeset
