import Verif.Trie.Lemmas5
/-!
# Lemmas about the wildcard search
-/
namespace Knot.Trie
open Knot.OrdMap (ClosedAt)
variable {V : Type}

theorem take_prefix_agree (n : Nat) (k t : Key) (hn : n ≤ k.length) : (k.take n <+: t) ↔ Agree (2 * n) k t := by
  induction n generalizing k t with
  | zero => simp [Agree]
  | succ n ih =>
    cases k with
    | nil => simp at hn
    | cons a k =>
      cases t with
      | nil =>
        simp only [List.take_succ_cons, List.prefix_nil, reduceCtorEq, false_iff]
        intro h
        have := h 0 (by omega)
        rw [keybit_nil, keybit_cons_0] at this
        omega
      | cons b t =>
        simp only [List.take_succ_cons, List.cons_prefix_cons]
        simp only [List.length_cons] at hn
        rw [ih k t (by omega)]
        constructor
        · rintro ⟨rfl, h⟩ j hj
          match j with
          | 0 => rw [keybit_cons_0, keybit_cons_0]
          | 1 => rw [keybit_cons_1, keybit_cons_1]
          | j + 2 => rw [keybit_cons, keybit_cons]; exact h j (by omega)
        · intro h
          have h0 := h 0 (by omega)
          have h1 := h 1 (by omega)
          rw [keybit_cons_0, keybit_cons_0] at h0
          rw [keybit_cons_1, keybit_cons_1] at h1
          refine ⟨UInt8.toNat_inj.mp (by omega), fun j hj => ?_⟩
          have := h (j + 2) (by omega)
          rwa [keybit_cons, keybit_cons] at this

/-- The leaf found by following the key agrees with it at least as far as any other entry. -/
theorem descend_longest {t : Node V} (hw : WF t) (up : List (Node V × Nat)) (key : Key) (s : Stk V) (k : Key) (v : V)
    (h : descend t up key = .ok s) (hs : s.top = .leaf k v) (e : Key × V) (he : e ∈ toList t) (n : Nat) (ha : Agree n key e.1) :
    Agree n key k ∧ (k, v) ∈ toList t := by
  fun_induction descend t up key generalizing e n with
  | case1 up k' v' =>
    cases h
    cases hs
    simp only [toList, List.mem_singleton] at he
    subst he
    exact ⟨ha, by simp [toList]⟩
  | case2 up i bmp tw c hc ih =>
    obtain ⟨hg, _⟩ := twig_get hc
    cases hw with
    | branch hl h2 hcw hag hb =>
      have hcm := List.mem_of_getElem? hg
      have hwc := hcw c hcm
      obtain ⟨e1, he1⟩ := hwc.nonempty
      have hkv := (ih hwc h e1 he1 0 (by intro j hj; omega)).2
      have hmem : (k, v) ∈ toListL tw := (mem_toListL _ _).mpr ⟨c, hcm, hkv⟩
      refine ⟨?_, by simpa only [toList] using hmem⟩
      simp only [toList] at he
      by_cases hni : n ≤ i
      · exact Agree.trans ha ((hag e he (k, v) hmem).mono hni)
      · obtain ⟨c', hc', he'⟩ := (mem_toListL _ _).mp he
        obtain ⟨m, hm⟩ := List.getElem?_of_mem hc'
        have hbm := hb m c' hm e he'
        rw [← ha i (by omega)] at hbm
        obtain ⟨t1, t2, t3⟩ := twigoff_of_bits bmp m _ hbm
        have : chosen bmp (keybit i key) = m := by unfold chosen; rw [if_pos t2, t3]
        rw [this, hm] at hg
        cases hg
        exact (ih hwc h e he' n ha).1
  | case3 => cases h

theorem lastZero_spec (s t : Key) (len i : Nat) (lmz : Int) (hl : len = i + s.length) :
    (lastZero len s t i lmz = lmz ∧ ∀ j, j + 1 < s.length → s[j]? = some 0 → ¬ (s.take (j + 1) <+: t)) ∨
    ∃ j, j + 1 < s.length ∧ s[j]? = some 0 ∧ (s.take (j + 1) <+: t) ∧ lastZero len s t i lmz = ((i + j : Nat) : Int) ∧
      ∀ j', j' + 1 < s.length → s[j']? = some 0 → (s.take (j' + 1) <+: t) → j' ≤ j := by
  induction s generalizing t i lmz with
  | nil => left; exact ⟨by cases t <;> rfl, by simp⟩
  | cons a s ih =>
    cases t with
    | nil => left; exact ⟨rfl, by simp⟩
    | cons b t =>
      simp only [lastZero, beq_iff_eq]
      simp only [List.length_cons] at hl
      by_cases hab : a = b
      · subst hab
        rw [if_pos rfl]
        rcases ih t (i + 1) (if a = 0 ∧ i < len - 1 then (i : Int) else lmz) (by omega) with ⟨h1, h2⟩ | ⟨j, h1, h2, h3, h4, h5⟩
        · rw [h1]
          by_cases h0 : a = 0 ∧ i < len - 1
          · right
            rw [if_pos h0]
            refine ⟨0, by simp only [List.length_cons]; omega, by simp [h0.1], by simp, by simp, ?_⟩
            intro j' hj h hp
            cases j' with
            | zero => omega
            | succ j' =>
              simp only [List.length_cons, List.getElem?_cons_succ, List.take_succ_cons, List.cons_prefix_cons, true_and] at hj h hp
              exact absurd hp (h2 j' (by omega) h)
          · left
            rw [if_neg h0]
            refine ⟨rfl, ?_⟩
            intro j' hj h hp
            cases j' with
            | zero =>
              simp only [List.length_cons, List.getElem?_cons_zero, Option.some.injEq] at hj h
              exact h0 ⟨h, by omega⟩
            | succ j' =>
              simp only [List.length_cons, List.getElem?_cons_succ, List.take_succ_cons, List.cons_prefix_cons, true_and] at hj h hp
              exact h2 j' (by omega) h hp
        · right
          refine ⟨j + 1, by simp only [List.length_cons]; omega, by simpa using h2, by simpa using h3, by rw [h4]; congr 1; omega, ?_⟩
          intro j' hj h hp
          cases j' with
          | zero => omega
          | succ j' =>
            simp only [List.length_cons, List.getElem?_cons_succ, List.take_succ_cons, List.cons_prefix_cons, true_and] at hj h hp
            have := h5 j' (by omega) h hp
            omega
      · left
        rw [if_neg hab]
        refine ⟨rfl, ?_⟩
        intro j hj h hp
        simp only [List.take_succ_cons, List.cons_prefix_cons] at hp
        exact hab hp.1

end Knot.Trie
