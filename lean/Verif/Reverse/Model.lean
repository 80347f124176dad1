import Verif.Changeset.Model
/-!
# Model of the generation of reverse zones (src/knot/zone/reverse.c)

Names are lists of labels (for the wire format and for knot_dname_in_bailiwick() see C05), zone contents are lists of RRsets as in
the model of changesets; the list stands for the nodes in the order in which they are visited. The variant that changes a zone update
has no caller, so it is left out. Memory is never exhausted. The owners have at most 30 or 74 octets, so they fit their buffer.
-/
namespace Knot.Reverse
open Knot.Dname (Name wire)
open Knot.Changeset (Bytes Key RRs RRset Contents lookup ttlChanged insertRR)

/-- reverse4postfix, src/knot/zone/reverse.c:21: "in-addr.arpa". -/
def postfix4 : Name := [[105, 110, 45, 97, 100, 100, 114], [97, 114, 112, 97]]

/-- reverse6postfix, src/knot/zone/reverse.c:22: "ip6.arpa". -/
def postfix6 : Name := [[105, 112, 54], [97, 114, 112, 97]]

/-- hex_chars, src/knot/zone/reverse.c:26-29. -/
def hexChars : Bytes := [48, 49, 50, 51, 52, 53, 54, 55, 56, 57, 97, 98, 99, 100, 101, 102]

/-- snprintf() with "%d" for an octet. -/
def digits (b : UInt8) : Bytes :=
  if b < 10 then [48 + b]
  else if b < 100 then [48 + b / 10, 48 + b % 10]
  else [48 + b / 100, 48 + b / 10 % 10, 48 + b % 10]

/-- The loop of reverse_owner4(), src/knot/zone/reverse.c:35-39; `n` octets are left. -/
def owner4Loop (raw : Bytes) : Nat → Res Name
  | 0 => .ok postfix4
  | n + 1 =>
    match raw[n]? with
    | none => .ub
    | some b => do
      let o ← owner4Loop raw n
      .ok (digits b :: o)

/-- reverse_owner4(), src/knot/zone/reverse.c:31-41. -/
def owner4 (raw : Bytes) : Res Name := owner4Loop raw 4

/-- The loop of reverse_owner6(), src/knot/zone/reverse.c:46-53. -/
def owner6Loop (raw : Bytes) : Nat → Res Name
  | 0 => .ok postfix6
  | n + 1 =>
    match raw[n]? with
    | none => .ub
    | some b =>
      match hexChars[(b &&& 0xF).toNat]?, hexChars[(b >>> 4).toNat]? with
      | some x, some y => do
        let o ← owner6Loop raw n
        .ok ([x] :: [y] :: o)
      | _, _ => .ub

/-- reverse_owner6(), src/knot/zone/reverse.c:43-55. -/
def owner6 (raw : Bytes) : Res Name := owner6Loop raw 16

/-- zone_contents_add_rr(), src/knot/zone/contents.c:115-130, 220-231, with node_add_rrset(), src/knot/zone/node.c:312-340: KNOT_ETTL if
the RRset had another TTL. -/
def addRR (c : Contents) (rr : RRset) : Res Contents :=
  match lookup c rr.1 with
  | some d => if ttlChanged rr.1.type d rr.2 then .err .ettl else .ok (insertRR c rr)
  | none => .ok (insertRR c rr)

/-- The owner of the PTR record, src/knot/zone/reverse.c:88-92. -/
def own (ipv6 : Bool) (raw : Bytes) : Res Name := if ipv6 then owner6 raw else owner4 raw

/-- The loop of reverse_from_node(), src/knot/zone/reverse.c:87-113. 12 is PTR. -/
def nodeLoop (zone : Name) (ipv6 : Bool) (owner : Name) (ttl : Nat) : List Bytes → Contents → Res Contents
  | [], c => .ok c
  | rd :: rest, c => do
    let o ← own ipv6 rd
    if zone <:+ o then do
      let c ← addRR c (⟨false, o, 12⟩, ⟨ttl, [wire owner]⟩)
      nodeLoop zone ipv6 owner ttl rest c
    else nodeLoop zone ipv6 owner ttl rest c

/-- The type of the address records, src/knot/zone/reverse.c:76: AAAA or A. -/
def addrType (ipv6 : Bool) : Nat := if ipv6 then 28 else 1

/-- reverse_from_node(), src/knot/zone/reverse.c:72-116, for all nodes, src/knot/zone/zone-tree.c:286-303: the first error ends it. -/
def apply (zone : Name) (ipv6 : Bool) : Contents → Contents → Res Contents
  | [], c => .ok c
  | (k, r) :: rest, c =>
    if k.nsec3 = false ∧ k.type = addrType ipv6 then do
      let c ← nodeLoop zone ipv6 k.owner r.ttl r.data c
      apply zone ipv6 rest c
    else apply zone ipv6 rest c

/-- zone_reverse(), src/knot/zone/reverse.c:118-137, with `to_upd` NULL, as called from src/knot/events/handlers/load.c:147. -/
def zoneReverse (src : Contents) (zone : Name) (dst : Contents) : Res Contents := apply zone (decide (postfix6 <:+ zone)) src dst

end Knot.Reverse
