import Verif.Noudp.Spec
namespace Knot.Noudp

/-- One counter step. -/
theorem step {c rate : UInt32} {k : Nat} (hr : 0 < rate.toNat) (hc : c.toNat = k % rate.toNat) :
    (c + 1 ≥ rate ↔ rate.toNat ∣ k + 1) ∧ (if c + 1 ≥ rate then (0 : UInt32) else c + 1).toNat = (k + 1) % rate.toNat := by
  have hlt : c.toNat < rate.toNat := by rw [hc]; exact Nat.mod_lt _ hr
  have hR := rate.toNat_lt
  have hadd : (c + 1).toNat = c.toNat + 1 := by
    rw [UInt32.toNat_add]; simp; omega
  have hdm := Nat.div_add_mod k rate.toNat
  rw [← hc] at hdm
  have hge : c + 1 ≥ rate ↔ rate.toNat ≤ c.toNat + 1 := by
    rw [ge_iff_le, UInt32.le_iff_toNat_le, hadd]
  by_cases h : c.toNat + 1 = rate.toNat
  · have hk : k + 1 = rate.toNat * (k / rate.toNat + 1) := by rw [Nat.mul_add, Nat.mul_one]; omega
    have hd : rate.toNat ∣ k + 1 := ⟨_, hk⟩
    refine ⟨⟨fun _ => hd, fun _ => hge.2 (by omega)⟩, ?_⟩
    rw [if_pos (hge.2 (by omega)), Nat.mod_eq_zero_of_dvd hd]; rfl
  · have hm : (k + 1) % rate.toNat = c.toNat + 1 := by
      conv => lhs; rw [← hdm, Nat.add_assoc, Nat.mul_add_mod]
      exact Nat.mod_eq_of_lt (by omega)
    refine ⟨⟨fun h' => absurd (hge.1 h') (by omega), fun h' => ?_⟩, ?_⟩
    · have := Nat.mod_eq_zero_of_dvd h'; omega
    · rw [if_neg (fun h' => absurd (hge.1 h') (by omega)), hadd, hm]

/-- Truncated by the context: the `k`-th query of a thread. -/
def Cut (ctx : Ctx) (k : Nat) : Prop := ctx.rate.toNat = 0 ∨ (ctx.rate.toNat ∣ k ↔ ctx.truncMode = true)

/-- The counters after `before t` queries of each thread. -/
def Inv (ctx : Ctx) (threads : Nat) (before : Nat → Nat) : Prop :=
  ctx.rate.toNat = 0 ∨ (ctx.counters.length = threads ∧ ∀ t c, ctx.counters[t]? = some c → c.toNat = before t % ctx.rate.toNat)

theorem begin_ok {ctx : Ctx} {threads : Nat} {before : Nat → Nat} (hi : Inv ctx threads before) {q : Bool × Nat} (hq : q.2 < threads) :
    ∃ ctx' b, begin ctx q.1 q.2 = .ok (ctx', b) ∧ ctx'.rate = ctx.rate ∧ ctx'.truncMode = ctx.truncMode ∧
      Inv ctx' threads (fun t => before t + udpQueries [q] t) ∧
      (q.1 = false → b = false) ∧ (q.1 = true → (b = true ↔ Cut ctx (before q.2 + 1))) := by
  obtain ⟨udp, t⟩ := q
  unfold begin
  cases udp with
  | false => exact ⟨ctx, false, rfl, rfl, rfl, by simpa [udpQueries] using hi, by simp, by simp⟩
  | true =>
    have hpos : ctx.rate > 0 ↔ 0 < ctx.rate.toNat := by rw [gt_iff_lt, UInt32.lt_iff_toNat_lt]; rfl
    by_cases hr : ctx.rate.toNat = 0
    · refine ⟨ctx, true, ?_, rfl, rfl, .inl hr, by simp, fun _ => ⟨fun _ => .inl hr, fun _ => rfl⟩⟩
      simp only [Bool.not_true, Bool.false_eq_true, if_false]
      rw [if_neg (fun h => absurd (hpos.1 h) (by omega))]
    · rcases hi with hi | ⟨hl, hi⟩
      · exact absurd hi hr
      · have hget : ctx.counters[t]? = some (ctx.counters[t]'(by rw [hl]; exact hq)) := List.getElem?_eq_getElem _
        have hs := step (Nat.pos_of_ne_zero hr) (hi t _ hget)
        simp only [Bool.not_true, Bool.false_eq_true, if_false]
        rw [if_pos (hpos.2 (Nat.pos_of_ne_zero hr)), count, hget]
        refine ⟨_, _, rfl, rfl, rfl, .inr ⟨by simpa using hl, ?_⟩, by simp, fun _ => ?_⟩
        · intro s c hc
          simp only [decide_eq_true_eq] at hc
          rw [List.getElem?_set] at hc
          split at hc
          · rename_i hts
            subst hts
            split at hc
            · injection hc with hc
              subst hc
              simpa [udpQueries] using hs.2
            · cases hc
          · rename_i hts
            have := hi s c hc
            simpa [udpQueries, hts] using this
        · rw [Cut]
          simp only [hr, false_or, ← hs.1]
          by_cases h : ctx.counters[t]'(by rw [hl]; exact hq) + 1 ≥ ctx.rate <;> cases ctx.truncMode <;> simp [h]

theorem udp_cons (q : Bool × Nat) (qs : List (Bool × Nat)) (t : Nat) : udpQueries (q :: qs) t = udpQueries [q] t + udpQueries qs t := by
  unfold udpQueries
  rw [← List.singleton_append, List.filter_append, List.length_append]

theorem run_ok {threads : Nat} : ∀ {qs : List (Bool × Nat)} {ctx : Ctx} {before : Nat → Nat}, Inv ctx threads before →
    (∀ q ∈ qs, q.2 < threads) → ∃ out, run ctx qs = .ok out ∧ out.length = qs.length ∧ ∀ i q, qs[i]? = some q → ∃ b, out[i]? = some b ∧
      (q.1 = false → b = false) ∧ (q.1 = true → (b = true ↔ Cut ctx (before q.2 + udpQueries (qs.take (i + 1)) q.2))) := by
  intro qs
  induction qs with
  | nil => intro ctx before _ _; exact ⟨[], rfl, rfl, by simp⟩
  | cons q qs ih =>
    intro ctx before hi hq
    obtain ⟨ctx', b, h1, h2, h3, h4, h5, h6⟩ := begin_ok hi (hq q (by simp))
    obtain ⟨out, k1, k2, k3⟩ := ih h4 (fun x hx => hq x (by simp [hx]))
    refine ⟨b :: out, by simp [run, h1, k1], by simp [k2], ?_⟩
    intro i x hx
    cases i with
    | zero =>
      simp at hx
      subst hx
      refine ⟨b, rfl, h5, fun hu => ?_⟩
      have : udpQueries ([q]) q.2 = 1 := by simp [udpQueries, hu]
      simpa [this] using h6 hu
    | succ i =>
      obtain ⟨b', g1, g2, g3⟩ := k3 i x (by simpa using hx)
      refine ⟨b', by simpa using g1, g2, fun hu => ?_⟩
      rw [g3 hu, List.take_succ_cons, udp_cons q (qs.take (i + 1)), Cut, Cut, h2, h3, Nat.add_assoc]

theorem load_ok {allow trunc : Option UInt32} (ht : ∀ t, trunc = some t → t ≠ 0) (threads : Nat) :
    Inv (load allow trunc threads) threads (fun _ => 0) ∧ ∀ k, Cut (load allow trunc threads) k ↔ Truncated allow trunc k := by
  have hz : ∀ r : UInt32, r.toNat = 0 ↔ r = 0 := by
    intro r; rw [← UInt32.toNat_inj]; rfl
  have hp : ∀ r : UInt32, r.toNat ≠ 0 → r > 0 := by
    intro r h; rw [gt_iff_lt, UInt32.lt_iff_toNat_lt]; exact Nat.pos_of_ne_zero h
  have hinv : ∀ (r : UInt32) (m : Bool), Inv ⟨r, if r > 0 then List.replicate threads 0 else [], m⟩ threads (fun _ => 0) := by
    intro r m
    by_cases h : r.toNat = 0
    · exact .inl h
    · right
      dsimp only
      rw [if_pos (hp r h)]
      refine ⟨by simp, ?_⟩
      intro t c hc
      rw [List.getElem?_replicate] at hc
      split at hc
      · cases hc; simp
      · cases hc
  cases allow with
  | some a =>
    refine ⟨hinv a false, fun k => ?_⟩
    simp only [Cut, load, Truncated, hz]
    by_cases h : a = 0 <;> simp [h]
  | none =>
    cases trunc with
    | some t =>
      refine ⟨hinv t true, fun k => ?_⟩
      have := ht t rfl
      simp only [Cut, load, Truncated, hz]
      simp [this]
    | none => exact ⟨hinv 0 false, fun k => by simp [Cut, load, Truncated]⟩

end Knot.Noudp
