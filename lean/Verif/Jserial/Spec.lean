import Verif.Jserial.Model
import Verif.Dname.Spec
import Verif.Rdataset.Spec
/-!
# Specification: RRsets fit for the journal
-/
namespace Knot.Jserial

/-- An RRset of a zone: the owner is a name in wire form, the numbers fit their fields, there are records,
in canonical order without duplicates. -/
def Wf (r : Rr) : Prop :=
  (∃ n, Dname.Valid n ∧ r.owner = Dname.wire n) ∧ r.type < 2 ^ 16 ∧ r.rclass < 2 ^ 16 ∧ r.ttl < 2 ^ 32 ∧
  r.rrs ≠ [] ∧ r.rrs.length < 2 ^ 16 ∧ (∀ x ∈ r.rrs, x.length < 2 ^ 16) ∧ Rdataset.Canon r.rrs

/-- The largest part of an RRset, a record with its TTL and length, fits a chunk. The journal has 15 or 70
kilobytes less 32 bytes (JOURNAL_CHUNK_MAX, JOURNAL_CHUNK_THRESH, src/knot/journal/journal_basic.h). -/
def Fits (max : Nat) : Prop := 2 ^ 16 + 5 ≤ max

/-- The records of a type at a node. -/
def recs (l : List Rr) (type : Nat) : List Bytes := ((nodeGet l type).map (·.rrs)).getD []

/-- The TTL of a type at a node. -/
def ttl (l : List Rr) (type : Nat) : Option Nat := (nodeGet l type).map (·.ttl)

/-- The RRsets of a node: one of each type, none empty. -/
def NodeOk (l : List Rr) : Prop := (l.map (·.type)).Nodup ∧ ∀ r ∈ l, r.rrs ≠ []

instance (l : List Rr) : Decidable (NodeOk l) := by unfold NodeOk; infer_instance

end Knot.Jserial
