import Verif.Prelude
import Verif.Dname.Model
/-!
# Model of socket address comparison (src/contrib/sockaddr.c)

An address is its family, the bytes of the address in network order (for UNIX sockets the path up
to the NUL) and the port.
-/
namespace Knot.Sockaddr
open Knot.Dname (memcmp)

abbrev Bytes := List UInt8

/-- Address families; `other` stands for any family the code does not know. -/
inductive Fam
  | unspec | unix | inet | inet6 | other
  deriving DecidableEq, Repr

/-- `struct sockaddr_storage`. -/
structure Addr where
  fam : Fam
  raw : Bytes
  port : Nat
  deriving DecidableEq, Repr

/-- A representable address: 4 and 16 address bytes; a path has no NUL and fits `sun_path`. -/
def Addr.WF (a : Addr) : Prop :=
  match a.fam with
  | .inet => a.raw.length = 4
  | .inet6 => a.raw.length = 16
  | .unix => (0 : UInt8) ∉ a.raw ∧ a.raw.length < 108
  | _ => True

instance (a : Addr) : Decidable a.WF := by
  unfold Addr.WF
  cases a.fam <;> infer_instance

/-- The integer a host reads from the four bytes of `s_addr`. -/
def hostInt (littleEndian : Bool) (b : Bytes) : Nat :=
  (if littleEndian then b.reverse else b).foldl (fun v x => v * 256 + x.toNat) 0

/-- `cmp_ipv4`; ports are compared as host integers. Source: src/contrib/sockaddr.c:51-61. -/
def cmpIpv4 (le : Bool) (a b : Addr) (ignorePort : Bool) : Int :=
  if hostInt le a.raw < hostInt le b.raw then -1
  else if hostInt le a.raw > hostInt le b.raw then 1
  else if ignorePort then 0 else (a.port : Int) - b.port

/-- Sign of an ordering. -/
def sign : Ordering → Int
  | .lt => -1
  | .eq => 0
  | .gt => 1

/-- `cmp_ipv6`. Source: src/contrib/sockaddr.c:63-72. -/
def cmpIpv6 (a b : Addr) (ignorePort : Bool) : Int :=
  let ret := sign (memcmp a.raw b.raw)
  if ret = 0 then (if ignorePort then 0 else (a.port : Int) - b.port) else ret

/-- `cmp_unix`. Source: src/contrib/sockaddr.c:74-86. -/
def cmpUnix (a b : Addr) : Int :=
  let lenMin := if a.raw.length ≤ b.raw.length then a.raw.length else b.raw.length
  let ret := sign (memcmp (a.raw.take lenMin) (b.raw.take lenMin))
  if ret = 0 then (a.raw.length : Int) - b.raw.length else ret

/-- Value of the family constants on Linux. -/
def Fam.num : Fam → Int
  | .unspec => 0
  | .unix => 1
  | .inet => 2
  | .inet6 => 10
  | .other => 16

/-- `sockaddr_cmp`. Source: src/contrib/sockaddr.c:88-112. -/
def cmp (le : Bool) (a b : Addr) (ignorePort : Bool) : Int :=
  if a.fam ≠ b.fam then a.fam.num - b.fam.num
  else match a.fam with
    | .unspec => 0
    | .inet => cmpIpv4 le a b ignorePort
    | .inet6 => cmpIpv6 a b ignorePort
    | .unix => cmpUnix a b
    | .other => 1

/-- `sockaddr_net_match`; `prefix` is an `unsigned`. For families without a raw address the pointer is
NULL and comparing zero bytes of it succeeds. Reading outside the raw address is undefined.
Source: src/contrib/sockaddr.c:328-362. -/
def netMatch (a b : Addr) (pfx : Nat) : Res Bool :=
  if a.fam ≠ b.fam then .ok false
  else if a.fam = .unix then .ok (a.raw == b.raw)
  else
    let rawLen := if a.fam = .inet then 4 else if a.fam = .inet6 then 16 else 0
    let pfx := min pfx (rawLen * 8)
    let bytes := pfx / 8
    let bits := pfx % 8
    if bytes > a.raw.length ∨ bytes > b.raw.length then .ub
    else if memcmp (a.raw.take bytes) (b.raw.take bytes) ≠ .eq then .ok false
    else if bits = 0 then .ok true
    else do
      let x ← Res.rd a.raw bytes
      let y ← Res.rd b.raw bytes
      pure (x.toNat >>> (8 - bits) == y.toNat >>> (8 - bits))

/-- `sockaddr_range_match`. Source: src/contrib/sockaddr.c:364-380. -/
def rangeMatch (le : Bool) (a lo hi : Addr) : Bool :=
  if lo.fam ≠ hi.fam ∨ lo.fam ≠ a.fam ∨ a.fam = .unix then false
  else decide (cmp le a lo true ≥ 0) && decide (cmp le a hi true ≤ 0)

/-- `sockaddr_is_any`. Source: src/contrib/sockaddr.c:309-326. -/
def isAny (a : Addr) : Bool :=
  match a.fam with
  | .inet => hostInt false a.raw == 0
  | .inet6 => memcmp a.raw (List.replicate 16 0) == .eq
  | _ => false

end Knot.Sockaddr
