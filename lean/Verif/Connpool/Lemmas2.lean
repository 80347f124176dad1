import Verif.Connpool.Lemmas
/-!
# Lemmas about putting and getting, and about histories
-/
namespace Knot.Connpool
open Sockaddr (Addr Fam)
open Spec

/-- A place that is free, or the oldest one of a full pool. -/
def SpotOk (p : Pool) : Spot → Prop
  | .free i => ∃ c, p.conns[i]? = some c ∧ c.last = 0
  | .oldest i => ∃ c, p.conns[i]? = some c ∧ c.last ≠ 0 ∧ ∀ d ∈ p.conns, d.last ≠ 0 ∧ c.last ≤ d.last

theorem putLoop_spec (p : Pool) (hp : p.conns ≠ []) : ∀ n i ot oi, i + n = p.conns.length →
    (∀ k < i, ∀ c, p.conns[k]? = some c → c.last ≠ 0) →
    (i = 0 ∧ ot = 0 ∨ ∃ c, p.conns[oi]? = some c ∧ c.last = ot ∧ ot ≠ 0 ∧ ∀ k < i, ∀ d, p.conns[k]? = some d → ot ≤ d.last) →
    SpotOk p (putLoop p n i ot oi)
  | 0, i, ot, oi, hl, hk, ho => by
    unfold putLoop
    have e : i = p.conns.length := by omega
    subst e
    rcases ho with ⟨h, _⟩ | ⟨c, h1, h2, h3, h4⟩
    · exact absurd (List.length_eq_zero_iff.1 h) hp
    · refine ⟨c, h1, by omega, fun d hd => ?_⟩
      obtain ⟨k, hk1, hk2⟩ := List.getElem_of_mem hd
      have e : p.conns[k]? = some d := by rw [List.getElem?_eq_getElem hk1, hk2]
      exact ⟨hk k hk1 d e, by rw [h2]; exact h4 k hk1 d e⟩
  | n + 1, i, ot, oi, hl, hk, ho => by
    have hlt : i < p.conns.length := by omega
    have hc := List.getElem?_eq_getElem hlt
    generalize p.conns[i] = c at hc
    unfold putLoop
    rw [place_eq hc]
    by_cases h0 : c.last = 0
    · rw [if_pos h0]; exact ⟨c, hc, h0⟩
    · rw [if_neg h0]
      have hk' : ∀ k < i + 1, ∀ d, p.conns[k]? = some d → d.last ≠ 0 := by
        intro k hk1 d hd
        by_cases hki : k = i
        · subst hki; rw [hc] at hd; cases hd; exact h0
        · exact hk k (by omega) d hd
      by_cases hn : timeCmp c.last ot < 0
      · rw [if_pos hn]
        rw [cmp_lt] at hn
        apply putLoop_spec p hp n (i + 1) _ _ (by omega) hk'
        refine .inr ⟨c, hc, rfl, h0, ?_⟩
        intro k hk1 d hd
        by_cases hki : k = i
        · subst hki; rw [hc] at hd; cases hd; exact Nat.le_refl _
        · rcases ho with ⟨h, _⟩ | ⟨b, _, _, h3, h4⟩
          · omega
          · have := h4 k (by omega) d hd; omega
      · rw [if_neg hn]
        rw [cmp_lt] at hn
        apply putLoop_spec p hp n (i + 1) _ _ (by omega) hk'
        rcases ho with ⟨_, h⟩ | ⟨b, h1, h2, h3, h4⟩
        · exact absurd ⟨h0, .inl h⟩ hn
        · refine .inr ⟨b, h1, h2, h3, ?_⟩
          intro k hk1 d hd
          by_cases hki : k = i
          · subst hki; rw [hc] at hd; cases hd
            have : ¬ c.last < ot := fun h => hn ⟨h0, .inr h⟩
            omega
          · exact h4 k (by omega) d hd

theorem put_spec {p : Pool} (hi : Inv p) (hp : p.conns ≠ []) {now : Nat} (hn : now ≠ 0) (src dst : Addr) {fd : Int} (hf : fd ≠ -1) :
    ∃ r q, put p now src dst fd = .ok (r, q) ∧ Inv q ∧ q.conns.length = p.conns.length ∧ q.timeout = p.timeout ∧
      (∀ f, holds p f + (if fd = f then 1 else 0) = holds q f + (if r ≠ -1 ∧ r = f then 1 else 0)) ∧
      (∀ x ∈ held q, x ∈ held p ∨ x = ⟨now, src, dst, fd⟩) ∧ (⟨now, src, dst, fd⟩ ∈ held q) ∧
      (r = -1 ∧ (held p).length < p.conns.length ∨
        (held p).length = p.conns.length ∧ ∃ c ∈ held p, r = c.fd ∧ r ≠ -1 ∧ ∀ d ∈ held p, c.last ≤ d.last) := by
  have h := putLoop_spec p hp p.conns.length 0 0 p.conns.length (by omega) (fun k hk => by omega) (.inl ⟨rfl, rfl⟩)
  unfold put
  have hmem : ∀ (q : Pool) (i : Nat), i < q.conns.length → (⟨now, src, dst, fd⟩ : Memb) ∈ held (pushed q i now src dst fd) :=
    fun q i hlt => mem_held.2 ⟨List.mem_set hlt _, hn⟩
  generalize putLoop p p.conns.length 0 0 p.conns.length = s at h
  cases s with
  | free i =>
    obtain ⟨c, hc, h0⟩ := h
    obtain ⟨g1, g2, g3, g4⟩ := push_ok hi hc h0 hn src dst hf
    dsimp only
    rw [g1]
    refine ⟨-1, _, rfl, g2, by simp [pushed], rfl, ?_, g4, hmem p i (List.getElem?_eq_some_iff.1 hc).1, .inl ⟨rfl, ?_⟩⟩
    · intro f; rw [g3]; simp
    · unfold held
      rw [List.length_filter_lt_length_iff_exists]
      exact ⟨c, List.mem_of_getElem? hc, by simp [h0]⟩
  | oldest i =>
    obtain ⟨c, hc, h0, hall⟩ := h
    have hlt : i < p.conns.length := (List.getElem?_eq_some_iff.1 hc).1
    obtain ⟨g1, g2, g3, g4, g5, g6⟩ := pop_ok hi hc h0
    have hu : (popped p i).conns[i]? = some unused := by simp [popped, hlt]
    obtain ⟨k1, k2, k3, k4⟩ := push_ok g2 hu rfl hn src dst hf
    dsimp only
    rw [if_neg (by omega), g1]
    simp only [Res.bind_ok]
    rw [k1]
    refine ⟨c.fd, _, rfl, k2, by simp [pushed, popped], rfl, ?_, ?_, hmem _ i (by simp [popped, hlt]), .inr ⟨?_, c, ?_, rfl, g3, ?_⟩⟩
    · intro f
      rw [k3, ← g4 f]
      simp only [g3, ne_eq, not_false_eq_true, true_and]
      omega
    · intro x hx
      rcases k4 x hx with h | h
      · exact .inl (g6 x h)
      · exact .inr h
    · unfold held
      rw [List.filter_eq_self.2]
      intro d hd; simpa using (hall d hd).1
    · exact mem_held.2 ⟨List.mem_of_getElem? hc, h0⟩
    · intro d hd; exact (hall d (mem_held.1 hd).1).2

/-- The place fits. -/
def Fits (le : Bool) (src dst : Addr) (c : Memb) : Prop :=
  c.last ≠ 0 ∧ Sockaddr.cmp le c.dst dst false = 0 ∧ Sockaddr.cmp le c.src src true = 0

theorem get_spec (le : Bool) (src dst : Addr) {p : Pool} (hi : Inv p) : ∀ n i, i + n = p.conns.length →
    (∀ k < i, ∀ c, p.conns[k]? = some c → ¬Fits le src dst c) →
    (getLoop le src dst n i p = .ok (-1, p) ∧ ∀ c ∈ p.conns, ¬Fits le src dst c) ∨
    (∃ j c, p.conns[j]? = some c ∧ Fits le src dst c ∧ getLoop le src dst n i p = .ok (c.fd, popped p j))
  | 0, i, hl, hk => by
    left
    refine ⟨rfl, fun c hc => ?_⟩
    obtain ⟨k, hk1, hk2⟩ := List.getElem_of_mem hc
    exact hk k (by omega) c (by rw [List.getElem?_eq_getElem hk1, hk2])
  | n + 1, i, hl, hk => by
    have hlt : i < p.conns.length := by omega
    have hc := List.getElem?_eq_getElem hlt
    generalize p.conns[i] = c at hc
    unfold getLoop
    rw [place_eq hc]
    by_cases hx : Fits le src dst c
    · have hx' := hx
      unfold Fits at hx'
      right
      refine ⟨i, c, hc, hx, ?_⟩
      rw [if_pos hx']
      exact (pop_ok hi hc hx.1).1
    · have hx' := hx
      unfold Fits at hx'
      rw [if_neg hx']
      apply get_spec le src dst hi n (i + 1) (by omega)
      intro k hk1 d hd
      by_cases hki : k = i
      · subst hki; rw [hc] at hd; cases hd; exact hx
      · exact hk k (by omega) d hd

/-- What an operation does. -/
theorem step_spec (le : Bool) {p : Pool} (hi : Inv p) (hp : p.conns ≠ []) (o : Op) (ho : OpOk o) :
    ∃ q evs, step le p o = .ok (q, evs) ∧ Inv q ∧ q.conns.length = p.conns.length ∧
      (∀ f, holds p f + given evs f = holds q f + left evs f) ∧
      (∀ x ∈ held q, x ∈ held p ∨ o = .put x.last x.src x.dst x.fd) := by
  cases o with
  | put now src dst fd =>
    obtain ⟨r, q, h1, h2, h3, _, h4, h5, _⟩ := put_spec hi hp ho.1 src dst ho.2
    simp only [step, h1, Res.bind_ok]
    refine ⟨q, _, rfl, h2, h3, ?_, ?_⟩
    · intro f
      have := h4 f
      by_cases hr : r = -1
      · simp [hr, given, left, List.count_cons] at this ⊢
        omega
      · simp [hr, given, left, List.count_cons] at this ⊢
        omega
    · intro x hx
      rcases h5 x hx with h | h
      · exact .inl h
      · subst h; exact .inr rfl
  | get src dst invalid =>
    rcases get_spec le src dst hi p.conns.length 0 (by omega) (fun k hk => by omega) with ⟨h, _⟩ | ⟨j, c, h1, h2, h3⟩
    · simp only [step, h, Res.bind_ok, if_true]
      exact ⟨p, _, rfl, hi, rfl, fun f => rfl, fun x hx => .inl hx⟩
    · obtain ⟨g1, g2, g3, g4, g5, g6⟩ := pop_ok hi h1 h2.1
      simp only [step, h3, Res.bind_ok, if_neg g3]
      refine ⟨_, _, rfl, g2, by simp [popped], ?_, fun x hx => .inl (g6 x hx)⟩
      intro f
      rw [← g4 f]
      cases invalid <;> simp [given, left, List.count_cons]
  | old older =>
    rcases getOld_spec older hi with ⟨next, h1, _⟩ | ⟨j, c, next, h1, h2, _, h4⟩
    · simp only [step, h1, Res.bind_ok, if_true]
      exact ⟨p, _, rfl, hi, rfl, fun f => rfl, fun x hx => .inl hx⟩
    · obtain ⟨g1, g2, g3, g4, g5, g6⟩ := pop_ok hi h1 h2.1
      simp only [step, h4, Res.bind_ok, if_neg g3]
      refine ⟨_, _, rfl, g2, by simp [popped], ?_, fun x hx => .inl (g6 x hx)⟩
      intro f
      rw [← g4 f]
      simp [given, left, List.count_cons]
  | setTimeout t => exact ⟨_, _, rfl, ⟨hi.usage, hi.fds⟩, rfl, fun f => rfl, fun x hx => .inl hx⟩

theorem given_append (a b : List Ev) (f : Int) : given (a ++ b) f = given a f + given b f := by simp [given]
theorem left_append (a b : List Ev) (f : Int) : left (a ++ b) f = left a f + left b f := by simp [left]; omega

theorem run_spec (le : Bool) : ∀ (os : List Op) (p : Pool), Inv p → p.conns ≠ [] → (∀ o ∈ os, OpOk o) →
    ∃ q evs, run le p os = .ok (q, evs) ∧ Inv q ∧ q.conns.length = p.conns.length ∧
      (∀ f, holds p f + given evs f = holds q f + left evs f) ∧
      (∀ x ∈ held q, x ∈ held p ∨ .put x.last x.src x.dst x.fd ∈ os)
  | [], p, hi, hp, _ => ⟨p, [], rfl, hi, rfl, fun f => rfl, fun x hx => .inl hx⟩
  | o :: os, p, hi, hp, ho => by
    obtain ⟨q, e, h1, h2, h3, h4, h5⟩ := step_spec le hi hp o (ho o (by simp))
    have hq : q.conns ≠ [] := by
      intro h; rw [h] at h3; exact hp (List.length_eq_zero_iff.1 h3.symm)
    obtain ⟨q', e', k1, k2, k3, k4, k5⟩ := run_spec le os q h2 hq (fun o h => ho o (by simp [h]))
    unfold run
    rw [h1]
    simp only [Res.bind_ok]
    rw [k1]
    refine ⟨_, _, rfl, k2, k3.trans h3, ?_, ?_⟩
    · intro f
      dsimp only
      rw [given_append, left_append]
      have a := h4 f
      have b := k4 f
      omega
    · intro x hx
      rcases k5 x hx with h | h
      · rcases h5 x h with h | h
        · exact .inl h
        · exact .inr (by simp [h])
      · exact .inr (by simp [h])

theorem init_inv {cap t : Nat} {p : Pool} (h : init cap t = some p) :
    Inv p ∧ p.conns.length = cap ∧ p.conns ≠ [] ∧ held p = [] ∧ p.timeout = t := by
  unfold init at h
  split at h
  · cases h
  · rename_i hc
    cases h
    have hh : held ⟨List.replicate cap unused, 0, t⟩ = [] := by
      unfold held
      rw [List.filter_eq_nil_iff]
      intro c hc
      obtain ⟨_, rfl⟩ := List.mem_replicate.1 hc
      simp [unused]
    refine ⟨⟨by rw [hh]; rfl, by rw [hh]; simp⟩, by simp, ?_, hh, rfl⟩
    intro h
    have := congrArg List.length h
    simp at this
    omega

end Knot.Connpool
