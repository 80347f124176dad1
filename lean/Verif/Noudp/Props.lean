import Verif.Noudp.Lemmas
/-!
# C61: the module noudp truncates the answers it is configured to
-/
namespace Knot
open Noudp

/-- **C61.** For every sequence of queries, on any of the threads: no access is out of bounds, queries not over UDP are not
truncated, and the `k`-th query over UDP of a thread is truncated exactly as configured. -/
theorem C61_rates {allow trunc : Option UInt32} (ht : ∀ t, trunc = some t → t ≠ 0) {threads : Nat} {qs : List (Bool × Nat)}
    (hq : ∀ q ∈ qs, q.2 < threads) : ∃ out, run (load allow trunc threads) qs = .ok out ∧ out.length = qs.length ∧
    ∀ i q, qs[i]? = some q → ∃ b, out[i]? = some b ∧ (q.1 = false → b = false) ∧
      (q.1 = true → (b = true ↔ Truncated allow trunc (udpQueries (qs.take (i + 1)) q.2))) := by
  obtain ⟨hi, hc⟩ := load_ok (allow := allow) ht threads
  obtain ⟨out, h1, h2, h3⟩ := run_ok hi hq
  refine ⟨out, h1, h2, fun i q h => ?_⟩
  obtain ⟨b, g1, g2, g3⟩ := h3 i q h
  exact ⟨b, g1, g2, fun hu => by rw [g3 hu, Nat.zero_add, hc]⟩

/-- **C61, check.** A configuration is accepted unless both rates are set. -/
theorem C61_check (allow trunc : Option UInt32) : confCheck allow trunc = true ↔ allow = none ∨ trunc = none := by
  cases allow <;> cases trunc <;> simp [confCheck]

/-- Every second answer is allowed, on each of two threads; the fourth query is not over UDP. -/
example : run (load (some 2) none 2) [(true, 0), (true, 1), (true, 0), (false, 1), (true, 1), (true, 1)] =
    .ok [true, true, false, false, false, true] := by decide +kernel
/-- Every third answer is truncated. -/
example : run (load none (some 3) 1) [(true, 0), (true, 0), (true, 0), (true, 0)] = .ok [false, false, true, false] := by decide +kernel
example : (∀ t, some (3 : UInt32) = some t → t ≠ 0) ∧ ∀ q ∈ [(true, 0), (true, 0)], q.2 < 1 := by
  refine ⟨?_, by simp⟩
  intro t h
  cases h
  decide

end Knot
