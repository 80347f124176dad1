import Verif.Queryacl.Model
/-!
# Specification of the module queryacl
-/
namespace Knot.Queryacl
open Sockaddr (Addr Fam)

/-- The bits of an address from the first one. -/
def addrBit (a : Addr) (i : Nat) : Bool := ((a.raw[i / 8]?).getD 0).toNat.testBit (7 - i % 8)
/-- An address as a number. -/
def value (a : Addr) : Nat := a.raw.foldl (fun v x => v * 256 + x.toNat) 0
def width (a : Addr) : Nat := 8 * a.raw.length

/-- The address is in the configured network, the same address, or in the range. -/
def In (a : Addr) : Item → Prop
  | .net b (some p) => a.fam = b.fam ∧ ∀ i < p, i < width a → addrBit a i = addrBit b i
  | .net b none => a.fam = b.fam ∧ a.raw = b.raw
  | .range lo hi => lo.fam = a.fam ∧ hi.fam = a.fam ∧ value lo ≤ value a ∧ value a ≤ value hi

/-- Allowed by a list of items; all addresses by an empty one. -/
def Allowed (items : List Item) (a : Addr) : Prop := items = [] ∨ ∃ x ∈ items, In a x

/-- The items are addresses. -/
def Item.WF : Item → Prop
  | .net b _ => b.WF
  | .range lo hi => lo.WF ∧ hi.WF

/-- An IPv4 or IPv6 address. -/
def Ip (a : Addr) : Prop := a.WF ∧ (a.fam = .inet ∨ a.fam = .inet6)

def Item.isRange : Item → Bool
  | .range _ _ => true
  | _ => false

/-- The comparison of ranges is right: on a big-endian host, for IPv6 addresses, or without ranges. -/
def RangesOk (le : Bool) (items : List Item) (a : Addr) : Prop :=
  le = false ∨ a.fam = .inet6 ∨ ∀ x ∈ items, x.isRange = false

end Knot.Queryacl
