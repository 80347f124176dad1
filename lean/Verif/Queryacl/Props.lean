import Verif.Queryacl.Lemmas
/-!
# C62: the module queryacl lets exactly the configured clients in
-/
namespace Knot
open Queryacl
open Sockaddr (Addr)

/-- **C62.** A normal query is processed exactly if the client is in one of the configured addresses and the server's address is in one
of the configured interfaces, where nothing configured allows all; other queries are not concerned. Missing: IPv4 ranges on a
little-endian host, see `C62_range`. -/
theorem C62_filter_partial {le normal : Bool} {addrs ifaces : List Item} {remote loc : Addr} (hr : Ip remote) (hl : Ip loc)
    (ha : ∀ x ∈ addrs, x.WF) (hi : ∀ x ∈ ifaces, x.WF) (ra : RangesOk le addrs remote) (ri : RangesOk le ifaces loc) :
    ∃ r, process le normal addrs ifaces remote loc = .ok r ∧
      (r = true ↔ (normal = true → Allowed addrs remote ∧ Allowed ifaces loc)) :=
  process_ok hr hl ha hi ra ri

namespace Queryacl.Witness

def v4 (a b c d : UInt8) : Addr := ⟨.inet, [a, b, c, d], 0⟩
/-- 10.0.0.0/8 and 192.0.2.1. -/
def items : List Item := [.net (v4 10 0 0 0) (some 8), .net (v4 192 0 2 1) none]

example : process true true items [] (v4 10 1 2 3) (v4 127 0 0 1) = .ok true ∧
    process true true items [] (v4 192 0 2 2) (v4 127 0 0 1) = .ok false ∧
    process true false items [] (v4 192 0 2 2) (v4 127 0 0 1) = .ok true ∧
    process true true items items (v4 10 1 2 3) (v4 127 0 0 1) = .ok false := by decide +kernel
/-- The hypotheses of `C62_filter_partial` hold on a little-endian host. -/
example : Ip (v4 10 1 2 3) ∧ Ip (v4 127 0 0 1) ∧ (∀ x ∈ items, x.WF) ∧ RangesOk true items (v4 10 1 2 3) := by
  refine ⟨⟨rfl, .inl rfl⟩, ⟨rfl, .inl rfl⟩, ?_, .inr (.inr (by decide))⟩
  intro x hx
  simp only [items, List.mem_cons, List.not_mem_nil, or_false] at hx
  rcases hx with rfl | rfl <;> rfl

end Queryacl.Witness
open Queryacl.Witness in
/-- C62. Finding: on a little-endian host, with `address: 10.0.0.0-10.1.0.255`, a query from 99.99.99.100 is answered; with
`address: 10.0.0.1-10.0.1.0`, a query from 10.0.0.7 is refused. -/
theorem C62_range : process true true [.range (v4 10 0 0 0) (v4 10 1 0 255)] [] (v4 99 99 99 100) (v4 127 0 0 1) = .ok true ∧
    ¬ Allowed [.range (v4 10 0 0 0) (v4 10 1 0 255)] (v4 99 99 99 100) ∧
    process true true [.range (v4 10 0 0 1) (v4 10 0 1 0)] [] (v4 10 0 0 7) (v4 127 0 0 1) = .ok false ∧
    Allowed [.range (v4 10 0 0 1) (v4 10 0 1 0)] (v4 10 0 0 7) := by
  refine ⟨by decide +kernel, ?_, by decide +kernel, .inr ⟨.range (v4 10 0 0 1) (v4 10 0 1 0), by simp, ⟨rfl, rfl, by decide, by decide⟩⟩⟩
  rintro (h | ⟨x, hx, h⟩)
  · cases h
  · simp only [List.mem_singleton] at hx
    subst hx
    exact absurd h.2.2.2 (by decide)

end Knot
