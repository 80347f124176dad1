import Verif.Synth.Model
import Verif.Sockaddr.Props
/-!
# Specification: reverse names of addresses, networks
-/
namespace Knot.Synth.Spec
open Sockaddr (Addr Fam Bytes bit bitLen rangeMatch)

/-- A text as octets. -/
def octets (s : String) : Bytes := s.toList.map fun c => c.toNat.toUInt8

/-- The decimal digits of an octet. -/
def decimal (b : UInt8) : Bytes := (Nat.toDigits 10 b.toNat).map fun c => c.toNat.toUInt8

/-- A hexadecimal digit. -/
def nibble (n : Nat) : UInt8 := ("0123456789abcdef".toList.getD n '0').toNat.toUInt8

/-- The reverse name of an address: RFC 1035, section 3.5, and RFC 3596, section 2.5. -/
def reverseName (a : Addr) : Name :=
  match a.fam with
  | .inet => a.raw.reverse.map decimal ++ [octets "in-addr", octets "arpa"]
  | _ => a.raw.reverse.flatMap (fun b => [[nibble (b.toNat % 16)], [nibble (b.toNat / 16)]]) ++ [octets "ip6", octets "arpa"]

/-- An IPv4 or an IPv6 address (no port). -/
def IsAddr (a : Addr) : Prop := a.port = 0 ∧ (a.fam = .inet ∧ a.raw.length = 4 ∨ a.fam = .inet6 ∧ a.raw.length = 16)

/-- The address is in a network of the template (for ranges see C30). -/
def Covered (le : Bool) (t : Tpl) (a : Addr) : Prop :=
  ∃ n ∈ t.nets, if n.max.fam = .unspec then n.addr.fam = a.fam ∧ ∀ i < min n.mask (bitLen a.fam), bit a.raw i = bit n.addr.raw i
    else rangeMatch le a n.addr n.max = true

/-- The networks of a template are representable addresses. -/
def GoodNets (t : Tpl) : Prop := ∀ n ∈ t.nets, n.addr.WF

/-- Octets that are not letters in upper case, and not the end of a string. -/
def Plain (s : Bytes) : Prop := ∀ c ∈ s, ¬(65 ≤ c ∧ c ≤ 90) ∧ c ≠ 0

/-- The query type of the record with an address of the family. -/
def typeOf : Fam → Nat
  | .inet => 1
  | _ => 28

/-- The number of labels of an address in its reverse name. -/
def labelsOf : Fam → Nat
  | .inet => 4
  | _ => 32

/-- The number of bits that a label of a reverse name stands for. -/
def bitsOf : Fam → Nat
  | .inet => 8
  | _ => 4

/-- The size of a name on the wire. -/
def size (n : Name) : Nat := (n.map List.length).sum + n.length + 1

end Knot.Synth.Spec
