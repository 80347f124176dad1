import Verif.Reverse.Model
import Verif.Changeset.Spec
import Verif.Synth.Spec
/-!
# Specification: the reverse of a zone
-/
namespace Knot.Reverse.Spec
open Knot.Dname (Name)
open Knot.Changeset (Bytes Key RRs Contents)
open Sockaddr (Fam)

/-- The family of addresses of a reverse zone: IPv6 in ip6.arpa, otherwise IPv4. -/
def famOf (zone : Name) : Fam := if [Synth.Spec.octets "ip6", Synth.Spec.octets "arpa"] <:+ zone then .inet6 else .inet

/-- The length of an address. -/
def rawLen : Fam → Nat
  | .inet => 4
  | _ => 16

/-- The zone has an address record with this owner, TTL and address. -/
def HasAddr (c : Contents) (fam : Fam) (owner : Name) (ttl : Nat) (raw : Bytes) : Prop :=
  ∃ r, (⟨false, owner, Synth.Spec.typeOf fam⟩, r) ∈ c ∧ r.ttl = ttl ∧ raw ∈ r.data

/-- The place of the PTR records of an address. -/
def ptrKey (fam : Fam) (raw : Bytes) : Key := ⟨false, Synth.Spec.reverseName ⟨fam, raw, 0⟩, 12⟩

/-- Address records have addresses. -/
def Good (c : Contents) : Prop := ∀ fam owner ttl raw, fam = .inet ∨ fam = .inet6 → HasAddr c fam owner ttl raw → raw.length = rawLen fam

/-- All the records that belong to a PTR RRset have the same TTL. -/
def SameTtls (src : Contents) (zone : Name) (dst : Contents) : Prop :=
  ∃ T : Key → Nat, (∀ k d, Changeset.lookup dst k = some d → d.ttl = T k) ∧
    ∀ owner ttl raw, HasAddr src (famOf zone) owner ttl raw → zone <:+ (ptrKey (famOf zone) raw).owner → ttl = T (ptrKey (famOf zone) raw)

end Knot.Reverse.Spec
