import Verif.Zonesign.Lemmas3
/-! # Lemmas: validation -/
namespace Knot.Zonesign
open Knot
open Knot.Dname (Name)

theorem keyUsed_iff (ctx : Ctx) (owner : Name) (type : Nat) (k : Key) :
    keyUsed ctx owner type k = true ↔ Tried ctx.apex owner type k := by
  unfold keyUsed Tried
  simp only [List.mem_cons, List.not_mem_nil, or_false, ne_eq, ite_not]
  by_cases h : owner = ctx.apex
  · simp only [h, if_true, true_and]
    by_cases h2 : type = 48 ∨ type = 59 ∨ type = 60
    · simp [h2]
    · simp [h2]
  · simp [h]

/-- One key and one signature. -/
def upd (g b : Key → Sig → Bool) (k : Key) (p : Sig × Nat) : Sig × Nat :=
  if g k p.1 then (p.1, if p.2 < 128 then p.2 + 128 else p.2) else if b k p.1 then (p.1, (p.2 + 1) % 256) else p

/-- `searchMap` with the outcomes given: `g` good, `b` bad. -/
def search (g b : Key → Sig → Bool) (k : Key) : List (Sig × Nat) → Option Sig → List (Sig × Nat) × Option Sig
  | [], f => ([], f)
  | p :: r, f =>
    if g k p.1 then (upd g b k p :: (search g b k r (some p.1)).1, (search g b k r (some p.1)).2)
    else if b k p.1 then
      if ((p.2 + 1) % 256) % 128 = 3 then (upd g b k p :: r, f)
      else (upd g b k p :: (search g b k r f).1, (search g b k r f).2)
    else (upd g b k p :: (search g b k r f).1, (search g b k r f).2)

def goodK (C : Crypto) (ctx : Ctx) (owner : Name) (cov : RRset) (skip : Bool) (k : Key) (s : Sig) : Bool :=
  matches' k cov s && checkSig C ctx owner cov k 0 skip s

def badK (C : Crypto) (ctx : Ctx) (owner : Name) (cov : RRset) (skip : Bool) (k : Key) (s : Sig) : Bool :=
  matches' k cov s && !checkSig C ctx owner cov k 0 skip s

theorem searchMap_eq (C : Crypto) (ctx : Ctx) (owner : Name) (cov : RRset) (k : Key) (skip : Bool) (m : List (Sig × Nat)) :
    ∀ f, searchMap C ctx owner cov k skip m f =
      search (goodK C ctx owner cov skip) (badK C ctx owner cov skip) k m f := by
  induction m with
  | nil => intro f; rfl
  | cons p r ih =>
    intro f
    obtain ⟨s, v⟩ := p
    simp only [searchMap, search, upd]
    rw [ih f, ih (some s)]
    by_cases hm : matches' k cov s = true
    · by_cases hc : checkSig C ctx owner cov k 0 skip s = true
      · have h1 : goodK C ctx owner cov skip k s = true := by simp [goodK, hm, hc]
        rw [if_neg (by simp [hm]), if_pos hc, if_pos h1, if_pos h1]
      · have h1 : ¬ goodK C ctx owner cov skip k s = true := by simp [goodK, hc]
        have h2 : badK C ctx owner cov skip k s = true := by simp [badK, hm, hc]
        rw [if_neg (by simp [hm]), if_neg hc, if_neg h1, if_pos h2, if_neg h1, if_pos h2]
    · have h1 : ¬ goodK C ctx owner cov skip k s = true := by simp [goodK, hm]
      have h2 : ¬ badK C ctx owner cov skip k s = true := by simp [badK, hm]
      rw [if_pos (by simpa using hm), if_neg h1, if_neg h2, if_neg h1, if_neg h2]

/-- The bad keys noted. -/
abbrev bads (p : Sig × Nat) : Nat := p.2 % 128

/-- The result of a search: signatures are kept; counters grow by at most one and never shrink; either all signatures are
seen, or some counter is at three. -/
theorem search_spec (g b : Key → Sig → Bool) (hgb : ∀ k s, ¬ (g k s = true ∧ b k s = true)) (k : Key) (c : Nat) (hc : c < 127)
    (m : List (Sig × Nat)) : ∀ f, (∀ p ∈ m, p.2 < 256 ∧ bads p ≤ c) →
    (search g b k m f).1.map (·.1) = m.map (·.1) ∧
    (∀ p ∈ (search g b k m f).1, p.2 < 256 ∧ ∃ q ∈ m, p.1 = q.1 ∧ bads p ≤ bads q + (if b k q.1 then 1 else 0)) ∧
    ((∃ p ∈ m, 3 ≤ bads p) → ∃ p ∈ (search g b k m f).1, 3 ≤ bads p) ∧
    ((∃ p ∈ (search g b k m f).1, 3 ≤ bads p) ∨ (search g b k m f).1 = m.map (upd g b k)) ∧
    (∀ s, (search g b k m f).2 = some s → f = some s ∨ (s ∈ m.map (·.1) ∧ g k s = true)) ∧
    ((∃ p ∈ (search g b k m f).1, 3 ≤ bads p) ∨ ((search g b k m f).2 = none → f = none ∧ ∀ p ∈ m, g k p.1 = false)) := by
  induction m with
  | nil =>
    intro f _
    refine ⟨rfl, ?_, ?_, .inr rfl, fun s h => .inl h, .inr fun h => ⟨h, ?_⟩⟩
    · intro p hp; cases hp
    · rintro ⟨p, hp, _⟩; cases hp
    · intro p hp; cases hp
  | cons p r ih =>
    intro f hb
    have hp := hb p List.mem_cons_self
    have hr : ∀ p ∈ r, p.2 < 256 ∧ bads p ≤ c := fun q hq => hb q (List.mem_cons_of_mem _ hq)
    simp only [search]
    have hu : (upd g b k p).1 = p.1 ∧ (upd g b k p).2 < 256 ∧ bads (upd g b k p) ≤ bads p + (if b k p.1 then 1 else 0) ∧
        bads p ≤ bads (upd g b k p) := by
      unfold upd bads at *
      split
      · refine ⟨rfl, ?_, ?_, ?_⟩ <;> dsimp only <;> split <;> omega
      · split
        · refine ⟨rfl, ?_, ?_, ?_⟩ <;> dsimp only <;> omega
        · exact ⟨rfl, hp.1, by omega, Nat.le_refl _⟩
    have fin : ∀ f', (search g b k r f').1.map (·.1) = r.map (·.1) →
        (∀ p ∈ (search g b k r f').1, p.2 < 256 ∧ ∃ q ∈ r, p.1 = q.1 ∧ bads p ≤ bads q + (if b k q.1 then 1 else 0)) →
        ((∃ q ∈ r, 3 ≤ bads q) → ∃ q ∈ (search g b k r f').1, 3 ≤ bads q) →
        ((∃ q ∈ (search g b k r f').1, 3 ≤ bads q) ∨ (search g b k r f').1 = r.map (upd g b k)) →
        (upd g b k p :: (search g b k r f').1).map (·.1) = (p :: r).map (·.1) ∧
        (∀ x ∈ upd g b k p :: (search g b k r f').1, x.2 < 256 ∧
          ∃ q ∈ p :: r, x.1 = q.1 ∧ bads x ≤ bads q + (if b k q.1 then 1 else 0)) ∧
        ((∃ q ∈ p :: r, 3 ≤ bads q) → ∃ q ∈ upd g b k p :: (search g b k r f').1, 3 ≤ bads q) ∧
        ((∃ q ∈ upd g b k p :: (search g b k r f').1, 3 ≤ bads q) ∨
          upd g b k p :: (search g b k r f').1 = (p :: r).map (upd g b k)) := by
      intro f' g1 g2 g3 g4
      refine ⟨by simp [g1, hu.1], ?_, ?_, ?_⟩
      · intro q hq
        rcases List.mem_cons.1 hq with rfl | hq
        · exact ⟨hu.2.1, p, List.mem_cons_self, hu.1, hu.2.2.1⟩
        · obtain ⟨h1, q', h2, h3⟩ := g2 q hq
          exact ⟨h1, q', List.mem_cons_of_mem _ h2, h3⟩
      · rintro ⟨q, hq, h3⟩
        rcases List.mem_cons.1 hq with rfl | hq
        · exact ⟨_, List.mem_cons_self, Nat.le_trans h3 hu.2.2.2⟩
        · obtain ⟨q', h1, h2⟩ := g3 ⟨q, hq, h3⟩
          exact ⟨q', List.mem_cons_of_mem _ h1, h2⟩
      · rcases g4 with ⟨q, h1, h2⟩ | h
        · exact .inl ⟨q, List.mem_cons_of_mem _ h1, h2⟩
        · exact .inr (by simp [h])
    by_cases hg : g k p.1 = true
    · rw [if_pos hg]
      obtain ⟨g1, g2, g3, g4, g5, g6⟩ := ih (some p.1) hr
      obtain ⟨a1, a2, a3, a4⟩ := fin _ g1 g2 g3 g4
      refine ⟨a1, a2, a3, a4, ?_, ?_⟩
      · intro s hs
        rcases g5 s hs with h | h
        · cases h
          exact .inr ⟨by simp, hg⟩
        · exact .inr ⟨List.mem_cons_of_mem _ h.1, h.2⟩
      · rcases g6 with ⟨q, h1, h2⟩ | h
        · exact .inl ⟨q, List.mem_cons_of_mem _ h1, h2⟩
        · exact .inr fun hn => (by have := (h hn).1; cases this)
    · rw [if_neg hg]
      have hg' : g k p.1 = false := by simpa using hg
      have rest : ∀ (x : List (Sig × Nat) × Option Sig), x = (upd g b k p :: (search g b k r f).1, (search g b k r f).2) →
          x.1.map (·.1) = (p :: r).map (·.1) ∧ (∀ y ∈ x.1, y.2 < 256 ∧ ∃ q ∈ p :: r, y.1 = q.1 ∧
            bads y ≤ bads q + (if b k q.1 then 1 else 0)) ∧
          ((∃ q ∈ p :: r, 3 ≤ bads q) → ∃ q ∈ x.1, 3 ≤ bads q) ∧
          ((∃ q ∈ x.1, 3 ≤ bads q) ∨ x.1 = (p :: r).map (upd g b k)) ∧
          (∀ s, x.2 = some s → f = some s ∨ (s ∈ (p :: r).map (·.1) ∧ g k s = true)) ∧
          ((∃ q ∈ x.1, 3 ≤ bads q) ∨ (x.2 = none → f = none ∧ ∀ q ∈ p :: r, g k q.1 = false)) := by
        rintro x rfl
        obtain ⟨g1, g2, g3, g4, g5, g6⟩ := ih f hr
        obtain ⟨a1, a2, a3, a4⟩ := fin _ g1 g2 g3 g4
        refine ⟨a1, a2, a3, a4, ?_, ?_⟩
        · intro s hs
          rcases g5 s hs with h | h
          · exact .inl h
          · exact .inr ⟨List.mem_cons_of_mem _ h.1, h.2⟩
        · rcases g6 with ⟨q, h1, h2⟩ | h
          · exact .inl ⟨q, List.mem_cons_of_mem _ h1, h2⟩
          · refine .inr fun hn => ⟨(h hn).1, ?_⟩
            intro q hq
            rcases List.mem_cons.1 hq with rfl | hq
            · exact hg'
            · exact (h hn).2 q hq
      by_cases hbk : b k p.1 = true
      · rw [if_pos hbk]
        by_cases h3 : ((p.2 + 1) % 256) % 128 = 3
        · rw [if_pos h3]
          have he : bads (upd g b k p) = 3 := by
            unfold upd bads
            rw [if_neg hg, if_pos hbk]
            exact h3
          have hex : ∃ q ∈ upd g b k p :: r, 3 ≤ bads q := ⟨_, List.mem_cons_self, by omega⟩
          refine ⟨by simp [hu.1], ?_, fun _ => hex, .inl hex, fun s hs => .inl hs, .inl hex⟩
          intro q hq
          rcases List.mem_cons.1 hq with rfl | hq
          · exact ⟨hu.2.1, p, List.mem_cons_self, hu.1, hu.2.2.1⟩
          · exact ⟨(hr q hq).1, q, List.mem_cons_of_mem _ hq, rfl, by omega⟩
        · rw [if_neg h3]
          exact rest _ rfl
      · rw [if_neg hbk]
        exact rest _ rfl

theorem upd_exact (g b : Key → Sig → Bool) (hgb : ∀ k s, ¬ (g k s = true ∧ b k s = true)) (k : Key) (q : Sig × Nat)
    (N : Nat) (A : Bool) (hN : N < 127) (hv : q.2 = N + (if A then 128 else 0)) :
    (upd g b k q).2 = N + (if b k q.1 then 1 else 0) + (if (A || g k q.1) then 128 else 0) := by
  have := hgb k q.1
  unfold upd
  cases hg : g k q.1 <;> cases hb : b k q.1 <;> cases A <;>
    simp only [hg, hb, Bool.false_eq_true, if_true, if_false, Bool.or_true, Bool.or_false, Bool.or_self, and_self,
      not_true_eq_false, Nat.add_zero] at * <;> first | omega | (split <;> omega)

/-- Counting keys: how many are bad for a signature, whether one is good. -/
def nbad (b : Key → Sig → Bool) (ks : List Key) (s : Sig) : Nat := (ks.filter (fun k => b k s)).length
def anyGood (g : Key → Sig → Bool) (ks : List Key) (s : Sig) : Bool := ks.any (fun k => g k s)

/-- The loop over the keys that are tried. -/
def vloop (g b : Key → Sig → Bool) (now : Nat) : List Key → List (Sig × Nat) → Bool → Nat → List (Sig × Nat) × Bool × Nat
  | [], m, found, u => (m, found, u)
  | k :: ks, m, found, u =>
    match (search g b k m none).2 with
    | some s => vloop g b now ks (search g b k m none).1 true (timeMin (timeFromU32 s.expiration now) u)
    | none => vloop g b now ks (search g b k m none).1 found u

theorem validLoop_eq (C : Crypto) (ctx : Ctx) (owner : Name) (cov : RRset) (skip : Bool) (ks : List Key) :
    ∀ m f u, validLoop C ctx owner cov skip ks m f u =
      vloop (goodK C ctx owner cov skip) (badK C ctx owner cov skip) ctx.now
        (ks.filter (fun k => keyUsed ctx owner cov.type k)) m f u := by
  induction ks with
  | nil => intro m f u; rfl
  | cons k ks ih =>
    intro m f u
    simp only [validLoop]
    by_cases hk : keyUsed ctx owner cov.type k = true
    · rw [if_neg (by simp [hk]), List.filter_cons_of_pos hk]
      simp only [vloop]
      rw [searchMap_eq]
      split <;> rename_i heq
      · rw [heq]; exact ih _ _ _
      · rw [heq]; exact ih _ _ _
    · rw [if_pos (by simpa using hk), List.filter_cons_of_neg hk]
      exact ih _ _ _

/-- The state after the keys `past`. -/
structure VInv (g b : Key → Sig → Bool) (now : Nat) (sigs : List Sig) (past : List Key) (m : List (Sig × Nat)) (found : Bool) (u : Nat) : Prop where
  kept : m.map (·.1) = sigs
  small : ∀ p ∈ m, p.2 < 256 ∧ bads p ≤ nbad b past p.1
  exact : (∃ p ∈ m, 3 ≤ bads p) ∨
    ((∀ p ∈ m, p.2 = nbad b past p.1 + (if anyGood g past p.1 then 128 else 0)) ∧
      (found = false → ∀ s ∈ sigs, anyGood g past s = false))
  witness : found = true → ∃ s ∈ sigs, anyGood g past s = true ∧ Le u (timeFromU32 s.expiration now)
  empty : found = false → u = 0

theorem vloop_inv (g b : Key → Sig → Bool) (hgb : ∀ k s, ¬ (g k s = true ∧ b k s = true)) (now : Nat) (sigs : List Sig)
    (ks : List Key) : ∀ (past : List Key) m found u, (past ++ ks).length < 128 → VInv g b now sigs past m found u →
    VInv g b now sigs (past ++ ks) (vloop g b now ks m found u).1 (vloop g b now ks m found u).2.1 (vloop g b now ks m found u).2.2 := by
  induction ks with
  | nil => intro past m found u _ h; simpa [vloop] using h
  | cons k ks ih =>
    intro past m found u hl h
    simp only [List.length_append, List.length_cons] at hl
    have hnl : ∀ s, nbad b past s ≤ past.length := fun s => List.length_filter_le _ _
    obtain ⟨s1, s2, s3, s4, s5, s6⟩ := search_spec g b hgb k past.length (by omega) m none
      (fun p hp => ⟨(h.small p hp).1, Nat.le_trans (h.small p hp).2 (hnl p.1)⟩)
    have hany : ∀ s, anyGood g (past ++ [k]) s = (anyGood g past s || g k s) := by
      intro s; simp [anyGood]
    have hnb : ∀ s, nbad b (past ++ [k]) s = nbad b past s + (if b k s then 1 else 0) := by
      intro s
      simp only [nbad, List.filter_append, List.length_append]
      cases hb : b k s <;> simp [hb]
    have hsmall : ∀ p ∈ (search g b k m none).1, p.2 < 256 ∧ bads p ≤ nbad b (past ++ [k]) p.1 := by
      intro p hp
      obtain ⟨h1, q, hq, h2, h3⟩ := s2 p hp
      have := (h.small q hq).2
      refine ⟨h1, ?_⟩
      rw [hnb, h2]
      omega
    have hexact : (∃ p ∈ (search g b k m none).1, 3 ≤ bads p) ∨
        ((∀ p ∈ (search g b k m none).1, p.2 = nbad b (past ++ [k]) p.1 + (if anyGood g (past ++ [k]) p.1 then 128 else 0)) ∧
          ((search g b k m none).2 = none → ∀ s ∈ sigs, g k s = false)) := by
      rcases h.exact with he | he
      · exact .inl (s3 he)
      · rcases s4 with s4 | s4
        · exact .inl s4
        · rcases s6 with s6 | s6
          · exact .inl s6
          · by_cases h3 : ∃ p ∈ (search g b k m none).1, 3 ≤ bads p
            · exact .inl h3
            · refine .inr ⟨?_, ?_⟩
              · intro p hp
                rw [s4] at hp
                obtain ⟨q, hq, rfl⟩ := List.mem_map.1 hp
                have hv := he.1 q hq
                have := upd_exact g b hgb k q _ _ (by have := hnl q.1; omega) hv
                have hu : (upd g b k q).1 = q.1 := by
                  unfold upd; split
                  · rfl
                  · split <;> rfl
                rw [this, hu, hnb, hany]
              · intro hn s hs
                rw [← h.kept] at hs
                obtain ⟨p, hp, rfl⟩ := List.mem_map.1 hs
                exact (s6 hn).2 p hp
    simp only [vloop]
    have hlen : (past ++ [k] ++ ks).length < 128 := by simp; omega
    have happ : past ++ k :: ks = past ++ [k] ++ ks := by simp
    rw [happ]
    cases hs : (search g b k m none).2 with
    | some s =>
      refine ih (past ++ [k]) _ _ _ hlen ⟨s1.trans h.kept, ?_, ?_, ?_, fun hx => by cases hx⟩
      · exact hsmall
      · rcases hexact with hx | hx
        · exact .inl hx
        · exact .inr ⟨hx.1, fun hf => by cases hf⟩
      · intro _
        rcases s5 s hs with hx | hx
        · cases hx
        · refine ⟨s, ?_, by rw [hany, hx.2, Bool.or_true], timeMin_left _ _⟩
          rw [← h.kept]; exact hx.1
    | none =>
      refine ih (past ++ [k]) _ _ _ hlen ⟨s1.trans h.kept, ?_, ?_, ?_, h.empty⟩
      · exact hsmall
      · rcases hexact with hx | hx
        · exact .inl hx
        · rcases h.exact with he | he
          · exact .inl (s3 he)
          · refine .inr ⟨hx.1, fun hf s hsm => ?_⟩
            rw [hany, he.2 hf s hsm, hx.2 hs s hsm]
            rfl
      · intro hf
        obtain ⟨s, h1, h2, h3⟩ := h.witness hf
        exact ⟨s, h1, by rw [hany, h2]; rfl, h3⟩

theorem mapResult_iff (m : List (Sig × Nat)) :
    mapResult m = .ok () ↔ ∀ p ∈ m, ¬ (p.2 > 0 ∧ p.2 < 3) ∧ bads p < 3 := by
  induction m with
  | nil => simp [mapResult]
  | cons p m ih =>
    obtain ⟨s, v⟩ := p
    simp only [mapResult, List.mem_cons, forall_eq_or_imp]
    split
    · rename_i h
      simp only [reduceCtorEq, false_iff, not_and]
      intro h'
      exact absurd h.2 (h'.1 h.1)
    · split
      · rename_i h1 h2
        simp only [reduceCtorEq, false_iff, not_and]
        intro h'
        have := h'.2
        unfold bads at this
        dsimp only at this
        omega
      · rename_i h1 h2
        rw [ih]
        constructor
        · intro h; exact ⟨⟨h1, by unfold bads; dsimp only; omega⟩, h⟩
        · intro h; exact h.2

theorem mapResult_defined (m : List (Sig × Nat)) : mapResult m ≠ .ub := by
  induction m with
  | nil => simp [mapResult]
  | cons p m ih =>
    obtain ⟨s, v⟩ := p
    simp only [mapResult]
    split
    · simp
    · split
      · simp
      · exact ih

theorem validateRR_defined (C : Crypto) (ctx : Ctx) (owner : Name) (r : RRset) (sigs : List Sig) (skip : Bool) :
    validateRR C ctx owner r sigs skip ≠ .ub := by
  unfold validateRR
  dsimp only
  cases hm : mapResult (validLoop C ctx owner r skip ctx.keys (sigs.map (fun s => (s, 0))) false 0).1 with
  | ub => exact absurd hm (mapResult_defined _)
  | err e => simp
  | ok x =>
    simp only [Res.bind_ok]
    split <;> simp

/-- Conditions for validating an RRset. -/
structure VKnown (C : Crypto) (ctx : Ctx) (owner : Name) (r : RRset) (sigs : List Sig) (skip : Bool) : Prop where
  timely : ∀ s ∈ sigs, Timely ctx.now 0 s
  flag : skip = true → ∀ k ∈ ctx.keys, Tried ctx.apex owner r.type k → ∀ s ∈ sigs, Names k r s → C.verify k owner r s = true
  keys : ctx.keys.length < 128
  now : ctx.now < 9223372036854775808
  safe : ctx.unsafeExpired = false

theorem validateRR_iff (C : Crypto) (ctx : Ctx) (owner : Name) (r : RRset) (sigs : List Sig) (skip : Bool)
    (hK : VKnown C ctx owner r sigs skip) :
    ((∃ u, validateRR C ctx owner r sigs skip = .ok u) ↔ ValidSet C ctx owner r sigs) ∧
    ∀ u, validateRR C ctx owner r sigs skip = .ok u → ∃ s ∈ sigs, ∃ k ∈ ctx.keys, Tried ctx.apex owner r.type k ∧
      Good C ctx.now 0 owner r k s ∧ NotAfter ctx.now u s.expiration := by
  let g := goodK C ctx owner r skip
  let b := badK C ctx owner r skip
  let U := ctx.keys.filter (fun k => keyUsed ctx owner r.type k)
  have hUlen : U.length < 128 := Nat.lt_of_le_of_lt (List.length_filter_le _ _) hK.keys
  have hU : ∀ k, k ∈ U ↔ k ∈ ctx.keys ∧ Tried ctx.apex owner r.type k := by
    intro k; simp only [U, List.mem_filter, keyUsed_iff]
  have hchk : ∀ k ∈ U, ∀ s ∈ sigs, Names k r s →
      (checkSig C ctx owner r k 0 skip s = true ↔ C.verify k owner r s = true ∧ Fresh ctx.now 0 s) := by
    intro k hk s hs hn
    exact checkSig_good C ctx owner r k 0 skip s hK.safe (by omega) hK.now (hK.timely s hs)
      (fun h => hK.flag h k ((hU k).1 hk).1 ((hU k).1 hk).2 s hs hn)
  have hgood : ∀ k ∈ U, ∀ s ∈ sigs, (g k s = true ↔ Good C ctx.now 0 owner r k s) := by
    intro k hk s hs
    simp only [g, goodK, Bool.and_eq_true, matches_iff]
    constructor
    · rintro ⟨h1, h2⟩
      have := (hchk k hk s hs h1).1 h2
      exact ⟨h1, this.1, this.2⟩
    · rintro ⟨h1, h2, h3⟩
      exact ⟨h1, (hchk k hk s hs h1).2 ⟨h2, h3⟩⟩
  have hbad : ∀ k ∈ U, ∀ s ∈ sigs, (b k s = true ↔ Names k r s ∧ ¬ (C.verify k owner r s = true ∧ Fresh ctx.now 0 s)) := by
    intro k hk s hs
    simp only [b, badK, Bool.and_eq_true, matches_iff, Bool.not_eq_true']
    constructor
    · rintro ⟨h1, h2⟩
      refine ⟨h1, fun h => ?_⟩
      rw [(hchk k hk s hs h1).2 h] at h2
      cases h2
    · rintro ⟨h1, h2⟩
      refine ⟨h1, ?_⟩
      cases hx : checkSig C ctx owner r k 0 skip s
      · rfl
      · exact absurd ((hchk k hk s hs h1).1 hx) h2
  have hgb : ∀ k s, ¬ (g k s = true ∧ b k s = true) := by
    intro k s
    simp only [g, b, goodK, badK]
    cases matches' k r s <;> cases checkSig C ctx owner r k 0 skip s <;> simp
  have hnb : ∀ s ∈ sigs, nbad b U s = (badKeys C ctx owner r s).length := by
    intro s hs
    unfold nbad badKeys
    simp only [U, List.filter_filter]
    congr 1
    apply List.filter_congr
    intro k hk
    by_cases ht : Tried ctx.apex owner r.type k
    · have hkU := (hU k).2 ⟨hk, ht⟩
      have h1 := hbad k hkU s hs
      have h2 := (keyUsed_iff ctx owner r.type k).2 ht
      rw [h2, Bool.and_true]
      cases hb : b k s
      · have : ¬ (Names k r s ∧ ¬ (C.verify k owner r s = true ∧ Fresh ctx.now 0 s)) := fun h => by
          rw [h1.2 h] at hb; cases hb
        symm
        rw [decide_eq_false_iff_not]
        exact fun h => this h.2
      · symm
        rw [decide_eq_true_iff]
        exact ⟨ht, h1.1 hb⟩
    · have h2 : keyUsed ctx owner r.type k = false := by
        cases hx : keyUsed ctx owner r.type k
        · rfl
        · exact absurd ((keyUsed_iff ..).1 hx) ht
      simp [h2, ht]
  have hag : ∀ s ∈ sigs, (anyGood g U s = true ↔ ∃ k ∈ ctx.keys, Tried ctx.apex owner r.type k ∧ Good C ctx.now 0 owner r k s) := by
    intro s hs
    unfold anyGood
    rw [List.any_eq_true]
    constructor
    · rintro ⟨k, hk, h⟩
      exact ⟨k, ((hU k).1 hk).1, ((hU k).1 hk).2, (hgood k hk s hs).1 h⟩
    · rintro ⟨k, hk, ht, h⟩
      exact ⟨k, (hU k).2 ⟨hk, ht⟩, (hgood k ((hU k).2 ⟨hk, ht⟩) s hs).2 h⟩
  have hinit : VInv g b ctx.now sigs [] (sigs.map (fun s => (s, 0))) false 0 := by
    refine ⟨by simp [Function.comp_def], ?_, .inr ⟨?_, ?_⟩, fun h => (by cases h), fun _ => rfl⟩
    · intro p hp
      obtain ⟨s, _, rfl⟩ := List.mem_map.1 hp
      exact ⟨Nat.zero_lt_succ _, by simp [bads]⟩
    · intro p hp
      obtain ⟨s, _, rfl⟩ := List.mem_map.1 hp
      rfl
    · intro _ s _; rfl
  have I := vloop_inv g b hgb ctx.now sigs U [] _ _ _ (by simpa using hUlen) hinit
  simp only [List.nil_append] at I
  have heq := validLoop_eq C ctx owner r skip ctx.keys (sigs.map (fun s => (s, 0))) false 0
  have hval : validateRR C ctx owner r sigs skip =
      (do mapResult (vloop g b ctx.now U (sigs.map (fun s => (s, 0))) false 0).1
          if (vloop g b ctx.now U (sigs.map (fun s => (s, 0))) false 0).2.1 then
            .ok (vloop g b ctx.now U (sigs.map (fun s => (s, 0))) false 0).2.2 else .err .enosig) := by
    unfold validateRR
    dsimp only
    rw [heq]
  generalize vloop g b ctx.now U (sigs.map (fun s => (s, 0))) false 0 = x at I hval
  obtain ⟨m, found, u0⟩ := x
  dsimp only at I hval
  have hok : ∀ u, validateRR C ctx owner r sigs skip = .ok u ↔ mapResult m = .ok () ∧ found = true ∧ u = u0 := by
    intro u
    rw [hval]
    cases hm : mapResult m with
    | err e => simp
    | ub => simp
    | ok y =>
      cases found
      · simp
      · simp only [Res.bind_ok, if_true, Res.ok.injEq, true_and]
        exact eq_comm
  have hmres : mapResult m = .ok () ∧ found = true ↔ ValidSet C ctx owner r sigs := by
    rw [mapResult_iff]
    constructor
    · rintro ⟨h1, h2⟩
      rcases I.exact with ⟨p, hp, h3⟩ | ⟨he, _⟩
      · have := (h1 p hp).2; omega
      · obtain ⟨s, hs, hg, _⟩ := I.witness h2
        refine ⟨⟨s, hs, (hag s hs).1 hg⟩, ?_⟩
        intro s hs hne
        have hs' := hs
        rw [← I.kept] at hs'
        obtain ⟨p, hp, rfl⟩ := List.mem_map.1 hs'
        have hv := he p hp
        have hlen := hnb p.1 hs
        have hpos : 0 < (badKeys C ctx owner r p.1).length := List.length_pos_iff.2 hne
        have h4 := h1 p hp
        have h5 : nbad b U p.1 < 128 := by
          have : nbad b U p.1 ≤ U.length := List.length_filter_le _ _
          omega
        have hbnd : nbad b U p.1 < 3 := by
          have := h4.2
          unfold bads at this
          rw [hv] at this
          split at this <;> omega
        refine ⟨by omega, (hag p.1 hs).1 ?_⟩
        cases hg : anyGood g U p.1
        · rw [hg] at hv
          simp only [Bool.false_eq_true, if_false, Nat.add_zero] at hv
          exact absurd (by omega) h4.1
        · rfl
    · intro hV
      have hno : ∀ p ∈ m, p.1 ∈ sigs := fun p hp => I.kept ▸ List.mem_map_of_mem hp
      have hcount : ∀ p ∈ m, (badKeys C ctx owner r p.1).length ≤ 2 := by
        intro p hp
        by_cases hne : badKeys C ctx owner r p.1 = []
        · simp [hne]
        · exact (hV.every p.1 (hno p hp) hne).1
      have hn3 : ∀ p ∈ m, bads p < 3 := by
        intro p hp
        have h1 := (I.small p hp).2
        have h2 := hcount p hp
        rw [hnb p.1 (hno p hp)] at h1
        omega
      rcases I.exact with ⟨p, hp, h3⟩ | ⟨he, hf⟩
      · have := hn3 p hp; omega
      · refine ⟨fun p hp => ⟨?_, hn3 p hp⟩, ?_⟩
        · rintro ⟨h1, h2⟩
          have hv := he p hp
          cases hg : anyGood g U p.1
          · rw [hg] at hv
            simp only [Bool.false_eq_true, if_false, Nat.add_zero] at hv
            have hlen := hnb p.1 (hno p hp)
            have hne : badKeys C ctx owner r p.1 ≠ [] := by
              intro h0
              rw [h0] at hlen
              simp only [List.length_nil] at hlen
              omega
            have := (hag p.1 (hno p hp)).2 (hV.every p.1 (hno p hp) hne).2
            rw [hg] at this
            cases this
          · rw [hg] at hv
            simp only [if_true] at hv
            omega
        · cases hfd : found
          · obtain ⟨s, hs, hx⟩ := hV.some
            have h1 := hf hfd s hs
            rw [(hag s hs).2 hx] at h1
            cases h1
          · rfl
  refine ⟨?_, ?_⟩
  · rw [← hmres]
    constructor
    · rintro ⟨u, hu⟩
      have := (hok u).1 hu
      exact ⟨this.1, this.2.1⟩
    · rintro ⟨h1, h2⟩
      exact ⟨u0, (hok u0).2 ⟨h1, h2, rfl⟩⟩
  · intro u hu
    obtain ⟨h1, h2, rfl⟩ := (hok u).1 hu
    obtain ⟨s, hs, hg, hl⟩ := I.witness h2
    obtain ⟨k, hk, ht, hgd⟩ := (hag s hs).1 hg
    refine ⟨s, hs, k, hk, ht, hgd, ?_⟩
    have htm := hK.timely s hs
    have hteq := timeFromU32_eq s.expiration ctx.now htm.bits.1 hK.now htm.half.1 (by have := htm.expiration; omega)
    refine NotAfter.mono hl ⟨?_, ?_⟩
    · have := htm.expiration; omega
    · omega

end Knot.Zonesign
