import Verif.Pktparse.Spec
/-!
# Specification of the fields of RDATA (independent of the model)

RFC 1035, 3.3 (NS, CNAME, PTR, MX, SOA); RFC 2782 (SRV); RFC 6672 (DNAME); RFC 4034 (DNSKEY, RRSIG,
NSEC, DS); RFC 5155 (NSEC3, NSEC3PARAM); RFC 8976 (ZONEMD); RFC 9460 (SVCB, HTTPS).
-/
namespace Knot.Rdfield
open Knot.Dname (Name Valid wire)
open Knot.Rrwire (num)

/-- A number stored as `k` octets, most significant first. -/
def Octets (k : Nat) (d : List UInt8) (v : Nat) : Prop := d.length = k ∧ num d = v

structure Soa where
  primary : Name
  mailbox : Name
  serial : Nat
  refresh : Nat
  retry : Nat
  expire : Nat
  minimum : Nat

/-- RFC 1035, 3.3.13. -/
def SoaRd (d : List UInt8) (s : Soa) : Prop :=
  ∃ a b c e f, Valid s.primary ∧ Valid s.mailbox ∧ Octets 4 a s.serial ∧ Octets 4 b s.refresh ∧
    Octets 4 c s.retry ∧ Octets 4 e s.expire ∧ Octets 4 f s.minimum ∧
    d = wire s.primary ++ wire s.mailbox ++ a ++ b ++ c ++ e ++ f

structure Rrsig where
  covered : Nat
  alg : Nat
  labels : Nat
  ttl : Nat
  expiration : Nat
  inception : Nat
  keyTag : Nat
  signer : Name
  signature : List UInt8

/-- RFC 4034, 3.1. -/
def RrsigRd (d : List UInt8) (s : Rrsig) : Prop :=
  ∃ a b c e f g h, Octets 2 a s.covered ∧ Octets 1 b s.alg ∧ Octets 1 c s.labels ∧ Octets 4 e s.ttl ∧
    Octets 4 f s.expiration ∧ Octets 4 g s.inception ∧ Octets 2 h s.keyTag ∧ Valid s.signer ∧
    d = a ++ b ++ c ++ e ++ f ++ g ++ h ++ wire s.signer ++ s.signature

/-- RFC 4034, 4.1: the next name and the bitmap. -/
def NsecRd (d : List UInt8) (next : Name) (bitmap : List UInt8) : Prop :=
  Valid next ∧ d = wire next ++ bitmap

structure Nsec3 where
  alg : Nat
  flags : Nat
  iters : Nat
  salt : List UInt8
  next : List UInt8
  bitmap : List UInt8

/-- RFC 5155, 3.2. -/
def Nsec3Rd (d : List UInt8) (s : Nsec3) : Prop :=
  ∃ a b c e f, Octets 1 a s.alg ∧ Octets 1 b s.flags ∧ Octets 2 c s.iters ∧ Octets 1 e s.salt.length ∧
    Octets 1 f s.next.length ∧ d = a ++ b ++ c ++ e ++ s.salt ++ f ++ s.next ++ s.bitmap

/-- RFC 5155, 4.2: algorithm, flags, iterations, salt. -/
def Nsec3ParamRd (d : List UInt8) (alg flags iters : Nat) (salt : List UInt8) : Prop :=
  ∃ a b c e, Octets 1 a alg ∧ Octets 1 b flags ∧ Octets 2 c iters ∧ Octets 1 e salt.length ∧
    d = a ++ b ++ c ++ e ++ salt

/-- RFC 4034, 2.1 and 5.1: DNSKEY (flags, protocol, algorithm, key) and DS (key tag, algorithm, digest
type, digest) have the same layout. -/
def KeyRd (d : List UInt8) (x y z : Nat) (rest : List UInt8) : Prop :=
  ∃ a b c, Octets 2 a x ∧ Octets 1 b y ∧ Octets 1 c z ∧ d = a ++ b ++ c ++ rest

/-- RFC 8976, 2.2: serial, scheme, algorithm, digest. -/
def ZonemdRd (d : List UInt8) (serial scheme alg : Nat) (digest : List UInt8) : Prop :=
  ∃ a b c, Octets 4 a serial ∧ Octets 1 b scheme ∧ Octets 1 c alg ∧ d = a ++ b ++ c ++ digest

/-- The length of the digest of a ZONEMD algorithm: RFC 8976, 2.2.3. -/
def digestLen (alg : Nat) : Nat := if alg = 1 then 48 else if alg = 2 then 64 else 0

/-- The serial in ZONEMD RDATA of six octets at least. -/
def zmSerial (d : List UInt8) : Nat := num (d.take 4)
/-- The scheme. -/
def zmScheme (d : List UInt8) : Nat := num ((d.drop 4).take 1)
/-- The algorithm. -/
def zmAlg (d : List UInt8) : Nat := num ((d.drop 5).take 1)

/-- A record of a known scheme and algorithm for the serial of the zone: RFC 8976, 4. -/
def zmUsable (serial : Nat) (d : List UInt8) : Bool :=
  decide (zmScheme d = 1 ∧ (zmAlg d = 1 ∨ zmAlg d = 2) ∧ zmSerial d = serial)

/-- The last usable record of a zone. -/
def lastUsable (serial : Nat) (ds : List (List UInt8)) : Option (List UInt8) := (ds.filter (zmUsable serial)).getLast?

/-- The number of octets before the name in RDATA of a type with one name of interest. -/
def namePrefix (type : Nat) : Option Nat :=
  if type ∈ [2, 5, 12, 39] then some 0        -- NS, CNAME, PTR, DNAME
  else if type ∈ [15, 64, 65] then some 2     -- MX, SVCB, HTTPS
  else if type = 33 then some 6               -- SRV
  else none

/-- RDATA with a name behind `k` octets. -/
def NameRd (k : Nat) (d : List UInt8) (name : Name) (rest : List UInt8) : Prop :=
  ∃ a, a.length = k ∧ Valid name ∧ d = a ++ wire name ++ rest

end Knot.Rdfield
