import Verif.Connpool.Model
/-!
# Specification: what a pool of connections does
-/
namespace Knot.Connpool.Spec
open Sockaddr (Addr Fam)

/-- The connections in the pool. -/
def held (p : Pool) : List Memb := p.conns.filter fun c => c.last ≠ 0

/-- How many times a connection is in the pool. -/
def holds (p : Pool) (fd : Int) : Nat := ((held p).map Memb.fd).count fd

/-- How many times a connection was put into the pool. -/
def given (evs : List Ev) (fd : Int) : Nat := evs.count (.put fd)

/-- How many times a connection left the pool: taken for use, closed, or returned. -/
def left (evs : List Ev) (fd : Int) : Nat := evs.count (.taken fd) + evs.count (.closed fd) + evs.count (.returned fd)

/-- The times are not zero and connections are not -1. -/
def OpOk : Op → Prop
  | .put now _ _ fd => now ≠ 0 ∧ fd ≠ -1
  | _ => True

/-- The same address and port. -/
def SameEnd (a b : Addr) : Prop := a.fam = b.fam ∧ a.raw = b.raw ∧ a.port = b.port

/-- The same address; ports do not matter, and an address that is not given is the same as another one not given. -/
def SameHost (a b : Addr) : Prop := a.fam = b.fam ∧ (a.fam = .unspec ∨ a.raw = b.raw)

/-- An address of a remote server or of the interface to use. -/
def Endpoint (a : Addr) : Prop := (a.fam = .inet ∨ a.fam = .inet6) ∧ a.WF

end Knot.Connpool.Spec
