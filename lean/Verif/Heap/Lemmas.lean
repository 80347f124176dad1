import Verif.Heap.Model
/-!
# Lemmas about the binary heap
-/
namespace Knot.Heap

/-- `lt` is a strict weak order (comparison function of a total preorder). -/
structure StrictWeak (lt : Nat → Nat → Bool) : Prop where
  asymm : ∀ a b, lt a b = true → lt b a = false
  trans : ∀ a b c, lt b a = false → lt c b = false → lt c a = false

/-- The stored positions are right: slot `i` holds an element that knows it is in slot `i`, and an
element whose stored position is not zero is in that slot. -/
structure PosOk (h : H) : Prop where
  slot : ∀ i, 1 ≤ i → i ≤ h.num → h.pos (h.data i) = i
  elem : ∀ e, h.pos e ≠ 0 → h.pos e ≤ h.num ∧ h.data (h.pos e) = e

/-- Heap order. -/
def Ordered (lt : Nat → Nat → Bool) (h : H) : Prop :=
  ∀ i, 2 ≤ i → i ≤ h.num → lt (h.data i) (h.data (i / 2)) = false

@[simp] theorem swap_num (h : H) (i j : Nat) : (swap h i j).num = h.num := by
  unfold swap; split <;> rfl
@[simp] theorem swap_max (h : H) (i j : Nat) : (swap h i j).maxSize = h.maxSize := by
  unfold swap; split <;> rfl

theorem swap_data (h : H) (i j x : Nat) :
    (swap h i j).data x = if x = i then h.data j else if x = j then h.data i else h.data x := by
  unfold swap
  split
  · grind
  · simp only [upd]; grind

theorem swap_posOk (h : H) (i j : Nat) (hp : PosOk h) (hi : 1 ≤ i) (hi2 : i ≤ h.num) (hj : 1 ≤ j)
    (hj2 : j ≤ h.num) : PosOk (swap h i j) ∧ ∀ e, (swap h i j).pos e = 0 ↔ h.pos e = 0 := by
  by_cases hij : i = j
  · unfold swap; rw [if_pos hij]; exact ⟨hp, fun _ => Iff.rfl⟩
  · have s1 := hp.slot i hi hi2
    have s2 := hp.slot j hj hj2
    have hne : h.data i ≠ h.data j := by intro he; rw [he] at s1; omega
    have hpos : ∀ e, (swap h i j).pos e =
        if e = h.data i then j else if e = h.data j then i else h.pos e := by
      intro e
      unfold swap
      rw [if_neg hij]
      simp only [upd]
      grind
    have hdata := swap_data h i j
    refine ⟨⟨?_, ?_⟩, ?_⟩
    · intro k hk hk2
      rw [swap_num] at hk2
      have := hp.slot k hk hk2
      rw [hpos, hdata]
      grind
    · intro e he
      rw [swap_num]
      rw [hpos] at he ⊢
      have := hp.elem e
      rw [hdata]
      grind
    · intro e
      rw [hpos]
      grind

/-- What the bubbling functions preserve. -/
structure Same (h h' : H) : Prop where
  num : h'.num = h.num
  max : h'.maxSize = h.maxSize
  zero : ∀ e, h'.pos e = 0 ↔ h.pos e = 0

theorem bubbleDown_spec (lt : Nat → Nat → Bool) (hlt : StrictWeak lt) (h : H) (e : Nat) (he : 1 ≤ e)
    (hp : PosOk h)
    (h1 : ∀ i, 2 ≤ i → i ≤ h.num → i / 2 ≠ e → lt (h.data i) (h.data (i / 2)) = false)
    (h2 : ∀ i, 2 ≤ i → i ≤ h.num → i / 2 = e → 2 ≤ e → lt (h.data i) (h.data (e / 2)) = false) :
    Ordered lt (bubbleDown lt h e) ∧ PosOk (bubbleDown lt h e) ∧ Same h (bubbleDown lt h e) := by
  fun_induction bubbleDown lt h e with
  | case1 => omega
  | case2 h e he0 hgt =>
    refine ⟨?_, hp, ⟨rfl, rfl, fun _ => Iff.rfl⟩⟩
    intro i hi hi2
    exact h1 i hi hi2 (by omega)
  | case3 h e he0 hgt hc =>
    refine ⟨?_, hp, ⟨rfl, rfl, fun _ => Iff.rfl⟩⟩
    intro i hi hi2
    by_cases hie : i / 2 = e
    · simp only [Bool.and_eq_true, Bool.or_eq_true, beq_iff_eq] at hc
      have hi3 : i = 2 * e ∨ i = 2 * e + 1 := by omega
      rw [hie]
      rcases hi3 with rfl | rfl
      · exact hlt.asymm _ _ hc.1
      · rcases hc.2 with hc2 | hc2
        · omega
        · exact hlt.asymm _ _ hc2
    · exact h1 i hi hi2 hie
  | case4 h e he0 hgt hc e1 ih =>
    have hnum := swap_num h e e1
    -- the chosen child
    have he1 : e1 = 2 * e ∨ (e1 = 2 * e + 1 ∧ 2 * e + 1 ≤ h.num) := by
      simp only [e1]
      split
      · rename_i hx
        simp only [Bool.and_eq_true, bne_iff_ne] at hx
        right; omega
      · left; rfl
    have hle1 : e1 ≤ h.num := by omega
    have hsib : ∀ i, i / 2 = e → i ≤ h.num → i ≠ e1 → lt (h.data i) (h.data e1) = false := by
      intro i hi hi2 hne
      have hi3 : i = 2 * e ∨ i = 2 * e + 1 := by omega
      simp only [e1] at hne ⊢
      split
      · rename_i hx
        rw [dif_pos hx] at hne
        simp only [Bool.and_eq_true, bne_iff_ne] at hx
        have : i = 2 * e := by omega
        subst this
        exact hlt.asymm _ _ hx.2
      · rename_i hx
        rw [dif_neg hx] at hne
        have : i = 2 * e + 1 := by omega
        subst this
        have h2n : 2 * e ≠ h.num := by omega
        simp only [Bool.and_eq_true, bne_iff_ne, not_and, Bool.not_eq_true] at hx
        exact hx h2n
    have hself : lt (h.data e) (h.data e1) = false := by
      simp only [Bool.and_eq_true, Bool.or_eq_true, beq_iff_eq, not_and, not_or] at hc
      simp only [e1]
      split
      · rename_i hx
        simp only [Bool.and_eq_true, bne_iff_ne] at hx
        have hx2 := hlt.asymm _ _ hx.2
        by_cases hl : lt (h.data e) (h.data (2 * e)) = true
        · have := (hc hl).2
          simpa using this
        · exact hlt.trans _ (h.data (2 * e)) _ hx2 (by simpa using hl)
      · rename_i hx
        by_cases hl : lt (h.data e) (h.data (2 * e)) = true
        · have hcc := hc hl
          simp only [Bool.and_eq_true, bne_iff_ne, not_and, Bool.not_eq_true] at hx
          exact hlt.trans _ (h.data (2 * e + 1)) _ (hx hcc.1) (by simpa using hcc.2)
        · simpa using hl
    obtain ⟨hp', hz⟩ := swap_posOk h e e1 hp he (by omega) (by omega) hle1
    have hdata := swap_data h e e1
    obtain ⟨r1, r2, r3⟩ := ih (by omega) hp' (by
      intro i hi hi2 hne
      rw [hnum] at hi2
      rw [hdata i, hdata (i / 2)]
      by_cases hie : i = e
      · subst hie
        rw [if_pos rfl, if_neg (by omega), if_neg (by omega)]
        exact h2 e1 (by omega) hle1 (by omega) (by omega)
      · rw [if_neg hie]
        by_cases hie1 : i = e1
        · rw [if_pos hie1, if_pos (by omega)]
          exact hself
        · rw [if_neg hie1]
          by_cases hpe : i / 2 = e
          · rw [if_pos hpe]
            exact hsib i hpe hi2 hie1
          · rw [if_neg hpe, if_neg hne]
            exact h1 i hi hi2 hpe) (by
      intro i hi hi2 hie1 _
      rw [hnum] at hi2
      rw [hdata i, hdata (e1 / 2), if_neg (by omega), if_neg (by omega), if_pos (by omega)]
      have := h1 i hi hi2 (by omega)
      rw [hie1] at this
      exact this)
    refine ⟨r1, r2, ⟨by rw [r3.num, hnum], by rw [r3.max, swap_max], ?_⟩⟩
    intro x
    rw [r3.zero, hz]

theorem bubbleUp_spec (lt : Nat → Nat → Bool) (hlt : StrictWeak lt) (h : H) (e : Nat) (he : 1 ≤ e)
    (hen : e ≤ h.num) (hp : PosOk h)
    (h1 : ∀ i, 2 ≤ i → i ≤ h.num → i ≠ e → lt (h.data i) (h.data (i / 2)) = false)
    (h2 : ∀ i, 2 ≤ i → i ≤ h.num → i / 2 = e → 2 ≤ e → lt (h.data i) (h.data (e / 2)) = false) :
    Ordered lt (bubbleUp lt h e) ∧ PosOk (bubbleUp lt h e) ∧ Same h (bubbleUp lt h e) := by
  fun_induction bubbleUp lt h e with
  | case1 h e hgt hl =>
    refine ⟨?_, hp, ⟨rfl, rfl, fun _ => Iff.rfl⟩⟩
    intro i hi hi2
    by_cases hie : i = e
    · rw [hie]; exact hlt.asymm _ _ hl
    · exact h1 i hi hi2 hie
  | case3 h e hle =>
    refine ⟨?_, hp, ⟨rfl, rfl, fun _ => Iff.rfl⟩⟩
    intro i hi hi2
    exact h1 i hi hi2 (by omega)
  | case2 h e hgt hl ih =>
    have hl' : lt (h.data (e / 2)) (h.data e) = false := by simpa using hl
    have hnum := swap_num h e (e / 2)
    obtain ⟨hp', hz⟩ := swap_posOk h e (e / 2) hp he hen (by omega) (by omega)
    have hdata := swap_data h e (e / 2)
    obtain ⟨r1, r2, r3⟩ := ih (by omega) (by rw [hnum]; omega) hp' (by
      intro i hi hi2 hne
      rw [hnum] at hi2
      rw [hdata i, hdata (i / 2)]
      by_cases hie : i = e
      · subst hie
        rw [if_pos rfl, if_neg (by omega), if_pos rfl]
        exact hl'
      · rw [if_neg hie, if_neg hne]
        by_cases hpe : i / 2 = e
        · rw [if_pos hpe]
          exact h2 i hi hi2 hpe (by omega)
        · rw [if_neg hpe]
          by_cases hpe2 : i / 2 = e / 2
          · rw [if_pos hpe2]
            have h3 := h1 i hi hi2 hie
            rw [hpe2] at h3
            exact hlt.trans _ _ _ hl' h3
          · rw [if_neg hpe2]
            exact h1 i hi hi2 hie) (by
      intro i hi hi2 hie h2e
      rw [hnum] at hi2
      rw [hdata i, hdata (e / 2 / 2), if_neg (show e / 2 / 2 ≠ e by omega),
        if_neg (show e / 2 / 2 ≠ e / 2 by omega)]
      have hpar := h1 (e / 2) h2e (by omega) (by omega)
      by_cases hie2 : i = e
      · rw [if_pos hie2]
        exact hpar
      · rw [if_neg hie2, if_neg (by omega)]
        have h3 := h1 i hi hi2 hie2
        rw [hie] at h3
        exact hlt.trans _ _ _ hpar h3)
    refine ⟨r1, r2, ⟨by rw [r3.num, hnum], by rw [r3.max, swap_max], ?_⟩⟩
    intro x
    rw [r3.zero, hz]

theorem ordered_min (lt : Nat → Nat → Bool) (hlt : StrictWeak lt) (h : H) (ho : Ordered lt h) (i : Nat)
    (hi : 1 ≤ i) (hi2 : i ≤ h.num) : lt (h.data i) (h.data 1) = false := by
  induction i using Nat.strongRecOn with
  | _ i ih =>
    by_cases h1 : i = 1
    · subst h1
      cases hc : lt (h.data 1) (h.data 1) with
      | false => rfl
      | true => have := hlt.asymm _ _ hc; rw [hc] at this; cases this
    · exact hlt.trans _ _ _ (ih (i / 2) (by omega) (by omega) (by omega)) (ho i (by omega) hi2)

end Knot.Heap
