import Verif.Sockaddr.Model
/-!
# Model of the module queryacl (src/knot/modules/queryacl/queryacl.c)

Addresses and their comparison are those of the model of C30; `le` tells a little-endian host.
-/
namespace Knot.Queryacl
open Sockaddr (Addr netMatch rangeMatch)

/-- A configured item, conf_addr_range(), src/knot/conf/conf.c:798-849: an address with a prefix length or without, or a range. -/
inductive Item where
  | net (addr : Addr) (pfx : Option Nat)
  | range (lo hi : Addr)
  deriving DecidableEq, Repr

/-- knotd_conf_addr_range_match(), src/knot/nameserver/query_module.c:575-596; the prefix length -1 becomes the largest one. -/
def confMatch (le : Bool) (a : Addr) : List Item → Res Bool
  | [] => .ok false
  | .net b p :: rest => do
    let r ← netMatch a b (p.getD 4294967295)
    if r then .ok true else confMatch le a rest
  | .range lo hi :: rest => if rangeMatch le a lo hi then .ok true else confMatch le a rest

/-- One of the two conditions of queryacl_process(), src/knot/modules/queryacl/queryacl.c:46-52 and 54-60. -/
def allowed (le : Bool) (items : List Item) (a : Addr) : Res Bool :=
  if items.length > 0 then confMatch le a items else .ok true

/-- queryacl_process(), src/knot/modules/queryacl/queryacl.c:34-63: true if the query is processed further, false if it is answered
with NOTAUTH. -/
def process (le normal : Bool) (addrs ifaces : List Item) (remote loc : Addr) : Res Bool :=
  if !normal then .ok true
  else do
    let r ← allowed le addrs remote
    if !r then .ok false
    else allowed le ifaces loc

end Knot.Queryacl
