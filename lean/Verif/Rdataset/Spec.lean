import Verif.Rdataset.Model
import Verif.Dname.Spec
/-!
# Specification: canonically ordered sets of record data
-/
namespace Knot.Rdataset
open Knot.Dname (lexCmp byteCmp)

/-- Canonical order of record data: bytewise, a proper prefix first (RFC 4034, 6.3). -/
def Less (a b : Bytes) : Prop := lexCmp byteCmp a b = .lt

/-- A list without duplicates in canonical order. -/
def Canon (l : List Bytes) : Prop := l.Pairwise Less

/-- The set structure `rs` holds exactly the records `l`, in canonical order,
packed one after another, with correct counters. -/
def Holds (rs : RS) (l : List Bytes) : Prop :=
  Canon l ∧ (∀ d ∈ l, d.length ≤ 65535) ∧ l.length ≤ 65535 ∧
  rs.count = l.length ∧ rs.raw = l.flatMap rdataInit ∧ rs.size = rs.raw.length

end Knot.Rdataset
