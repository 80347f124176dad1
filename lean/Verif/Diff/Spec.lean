import Verif.Diff.Model
import Verif.Changeset.Spec
/-!
# Specification: the records of a zone

The nodes of a zone, flattened to RRsets as in the specification of changesets; `Same` of that
specification compares the records and TTLs of two zones.
-/
namespace Knot.Diff
open Knot.Dname (Name)
open Knot.Changeset (Key RRs RRset Contents Ch KeyOk Good soa soaKey lookup SameRRs)

/-- The RRsets of a tree. -/
def Tree.flat (nsec3 : Bool) (t : Tree) : Contents :=
  t.flatMap (fun n => n.rrsets.map (fun r => (⟨nsec3, n.owner, r.1⟩, r.2)))

/-- The RRsets of a zone. -/
def Zone.flat (z : Zone) : Contents := Tree.flat false z.nodes ++ Tree.flat true z.nsec3

/-- Every owner once, in each node every type once, proper RRsets, an SOA only at the apex. -/
def Tree.Wf (apex : Name) (nsec3 : Bool) (t : Tree) : Prop :=
  (t.map (·.owner)).Nodup ∧
  ∀ n ∈ t, (n.rrsets.map (·.1)).Nodup ∧
    ∀ r ∈ n.rrsets, KeyOk ⟨nsec3, n.owner, r.1⟩ ∧ Good r.2 ∧ (r.1 = soa → n.owner = apex)

def Zone.Wf (apex : Name) (z : Zone) : Prop :=
  Tree.Wf apex false z.nodes ∧ Tree.Wf apex true z.nsec3

instance (apex : Name) (b : Bool) (t : Tree) : Decidable (Tree.Wf apex b t) := by
  unfold Tree.Wf; infer_instance
instance (apex : Name) (z : Zone) : Decidable (Zone.Wf apex z) := by unfold Zone.Wf; infer_instance

/-- The types to be ignored: RRSIG, NSEC and NSEC3; ZONEMD. -/
def Ignored (g : Ign) (type : Nat) : Prop :=
  (g.dnssec = true ∧ type ∈ [46, 47, 50]) ∨ (g.zonemd = true ∧ type = 63)

instance (g : Ign) (type : Nat) : Decidable (Ignored g type) := by unfold Ignored; infer_instance

/-- What the zone has to become: the RRset from the second zone, or from the first one if its type is
to be ignored, or if it is the SOA and the serial did not change. -/
def wanted (apex : Name) (g : Ign) (soaKept : Prop) [Decidable soaKept] (c1 c2 : Contents) (k : Key) :
    Option RRs :=
  if Ignored g k.type ∨ (k = soaKey apex ∧ soaKept) then lookup c1 k else lookup c2 k

end Knot.Diff
