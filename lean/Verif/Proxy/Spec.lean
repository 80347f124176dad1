import Verif.Proxy.Model
import Verif.Acl.Spec
import Verif.Pktparse.Spec
/-!
# Specification: who a message is from
-/
namespace Knot.Proxy.Spec
open Sockaddr (Addr Fam)

/-- The octets from `start` to `len` are a DNS message, see C39. -/
def IsMessage (buf : List UInt8) (start len : Nat) : Prop :=
  ∃ q an ns ar, Pktparse.Message (buf.drop start) (len - start) q an ns ar

/-- The message is a response. -/
def IsResponse (buf : List UInt8) (start : Nat) : Prop := ∃ b, buf[start + 2]? = some b ∧ 128 ≤ b

/-- A number of two octets is in the buffer. -/
def NumAt (buf : List UInt8) (i n : Nat) : Prop := ∃ a b, buf[i]? = some a ∧ buf[i + 1]? = some b ∧ n = a.toNat * 256 + b.toNat

/-- A PROXY header: version 2, command PROXY, with `n` octets after its first 16. -/
def HeaderAt (buf : List UInt8) (n : Nat) : Prop :=
  buf.take 13 = [0x0D, 0x0A, 0x0D, 0x0A, 0x00, 0x0D, 0x0A, 0x51, 0x55, 0x49, 0x54, 0x0A, 0x21] ∧ NumAt buf 14 n

/-- The source address of the header, for UDP. -/
def SourceAt (buf : List UInt8) (len : Nat) (a : Addr) : Prop :=
  (buf[13]? = some 0x12 ∧ a.fam = .inet ∧ a.raw.length = 4 ∧ (∀ i < 4, buf[16 + i]? = a.raw[i]?) ∧ NumAt buf 24 a.port ∧ 28 < len) ∨
  (buf[13]? = some 0x22 ∧ a.fam = .inet6 ∧ a.raw.length = 16 ∧ (∀ i < 16, buf[16 + i]? = a.raw[i]?) ∧ NumAt buf 48 a.port ∧ 52 < len)

/-- The sender may speak for others: proxying is configured and the address is on the list. -/
def Trusted (c : Conf) (remote : Addr) : Prop := c.enabled = true ∧ ∃ x ∈ c.allow, Acl.RangeHas c.le remote x

/-- A message in a PROXY header of `n` octets from one who may send it, for a client with address `a`. -/
def Proxied (c : Conf) (udp : Bool) (remote : Addr) (buf : List UInt8) (len n : Nat) (a : Addr) : Prop :=
  udp = true ∧ Trusted c remote ∧ HeaderAt buf n ∧ 16 + n < len ∧ SourceAt buf len a

end Knot.Proxy.Spec
