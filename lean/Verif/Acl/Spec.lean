import Verif.Acl.Model
import Verif.Sockaddr.Props
/-!
# Specification of access control (C20)

What the documentation of the `acl` section says, on names as label lists.
-/
namespace Knot.Acl
open Knot.Dname (Name Valid nameLen)
open Knot.Sockaddr (Addr)

/-- The full name meant by a configured name. -/
def CName.full (zone : Name) : CName → Name
  | .fq n => n
  | .rel n => n ++ zone

/-- Equal label by label, where the label `*` of the pattern stands for any one label. -/
def PatMatch : Name → Name → Prop
  | [], [] => True
  | p :: ps, l :: ls => (p = [42] ∨ p = l) ∧ PatMatch ps ls
  | _, _ => False

/-- The owner of an updated record is related to a configured name: subdomain or equal, equal,
proper subdomain, or equal label by label where `*` in the pattern stands for any one label. -/
def NameRel (m : OwnerMatch) (owner name : Name) : Prop :=
  match m with
  | .subeq => name <:+ owner
  | .eq => owner = name
  | .sub => name <:+ owner ∧ owner ≠ name
  | .pattern => PatMatch name owner

/-- Every record of the update meets the restrictions of the rule. -/
def UpdateOk (r : Rule) (q : Req) : Prop :=
  ∀ ups, q.updates = some ups → ∀ u ∈ ups,
    (r.updTypes ≠ [] → u.1 ∈ r.updTypes) ∧
    (match r.updOwner with
     | .none => True
     | .key => ∀ k, q.tsig = some k → NameRel r.updMatch u.2 k.1
     | .zone => NameRel r.updMatch u.2 q.zone
     | .name => r.updNames ≠ [] → ∃ c ∈ r.updNames, NameRel r.updMatch u.2 (c.full q.zone))

/-- The value by which addresses are ordered; on a little-endian host IPv4 addresses are ordered by
their reversed bytes (see C30). -/
def ordVal (le : Bool) (a : Addr) : Nat :=
  if a.fam = .inet then Sockaddr.hostInt le a.raw else Sockaddr.num a.raw

/-- An address belongs to an item of `acl.address`. -/
def RangeHas (le : Bool) (a : Addr) : Range → Prop
  | .net b p => a.fam = b.fam ∧
      (if a.fam = .unix then a.raw = b.raw
       else ∀ i < Sockaddr.bitLen a.fam, (∀ n, p = some n → i < n) → Sockaddr.bit a.raw i = Sockaddr.bit b.raw i)
  | .span lo hi => lo.fam = a.fam ∧ hi.fam = a.fam ∧ a.fam ≠ .unix ∧
      ordVal le lo ≤ ordVal le a ∧ ordVal le a ≤ ordVal le hi

/-- The pin requirement: none configured, or the session has one of them. -/
def PinOk (pins : List Bytes) (pin : Bytes) : Prop := pins = [] ∨ (pin ≠ [] ∧ pin ∈ pins)

/-- The key requirement: the request is signed with one of the keys (name and algorithm); without keys
configured the request is not signed, or is a forwarded update, or the rule denies. -/
def KeyOk (keys : List Key) (tsig : Option (Name × Nat)) (deny forward : Bool) : Prop :=
  (keys = [] ∧ (tsig = none ∨ forward = true ∨ deny = true)) ∨ ∃ k ∈ keys, tsig = some (k.name, k.alg)

/-- Transport accepted for a remote. -/
def RmtProto (m : Rmt) (p : Proto) : Prop :=
  if m.quic then p = .quic else if m.tls then p = .tls else p = .tcp ∨ p = .udp

/-- The request comes from this remote. -/
def RmtOk (m : Rmt) (q : Req) (deny forward : Bool) : Prop :=
  (m.addrs = [] ∨ ∃ a ∈ m.addrs, a.fam = q.addr.fam ∧ a.raw = q.addr.raw) ∧
  PinOk m.pins q.pin ∧ KeyOk m.key.toList q.tsig deny forward ∧ RmtProto m q.proto

/-- The request comes from a party the rule talks about. -/
def IdentityOk (r : Rule) (q : Req) (forward : Bool) : Prop :=
  if r.rmts ≠ [] then ∃ m ∈ r.rmts, RmtOk m q r.deny forward
  else (r.addrs = [] ∨ ∃ x ∈ r.addrs, RangeHas q.le q.addr x) ∧ PinOk r.pins q.pin ∧
    KeyOk r.keys q.tsig r.deny forward ∧ (r.protos = [] ∨ q.proto ∈ r.protos)

/-- The rule decides about the request: it talks about this party and, unless the action is a plain
query, it lists the action (or no action at all) and an update meets its restrictions. -/
def Decides (r : Rule) (action : Action) (q : Req) (forward : Bool) : Prop :=
  IdentityOk r q forward ∧
  (action = .query ∨ r.actions = [] ∨ (action ∈ r.actions ∧ (action = .update → UpdateOk r q)))

/-- Updates are forwarded if the zone has a master and `ddns-master` is not set to the empty string. -/
def Forward (action : Action) (masters : Bool) (ddnsMaster : Option Bytes) : Prop :=
  action = .update ∧ masters = true ∧ ddnsMaster ≠ some []

/-- A legal address of a known family. -/
def AddrOk (a : Addr) : Prop := a.WF ∧ a.fam ≠ .unspec ∧ a.fam ≠ .other

/-- A legal configured name: legal labels; a relative name is not empty and its last octet is not zero;
with the zone name it fits 255 octets. -/
def CNameOk (zone : Name) : CName → Prop
  | .fq n => Valid n
  | .rel n => n ≠ [] ∧ Valid n ∧ (∀ l, n.getLast? = some l → l.getLast? ≠ some 0) ∧ Valid (n ++ zone)

/-- A legal remote. -/
def Rmt.Ok (m : Rmt) : Prop := ∀ a ∈ m.addrs, AddrOk a

/-- A legal rule. -/
def Rule.Ok (zone : Name) (r : Rule) : Prop :=
  (∀ m ∈ r.rmts, m.Ok) ∧
  (∀ x ∈ r.addrs, match x with
    | .net a _ => AddrOk a
    | .span lo hi => AddrOk lo ∧ AddrOk hi) ∧
  (∀ c ∈ r.updNames, CNameOk zone c)

/-- A legal request. -/
def Req.Ok (q : Req) : Prop :=
  AddrOk q.addr ∧ Valid q.zone ∧ (∀ k, q.tsig = some k → Valid k.1) ∧
  (∀ ups, q.updates = some ups → ∀ u ∈ ups, Valid u.2)

end Knot.Acl
