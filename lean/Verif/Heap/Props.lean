import Verif.Heap.Lemmas
/-!
# C37: heap and binary search
-/
namespace Knot
open Heap

namespace Heap

/-- A heap holding exactly the elements `S`: they are in heap order, every element stores its own
position, elements outside have position 0, and the array is large enough. -/
structure Holds (lt : Nat → Nat → Bool) (h : H) (S : Nat → Prop) : Prop where
  ordered : Ordered lt h
  posOk : PosOk h
  mem : ∀ e, h.pos e ≠ 0 ↔ S e
  room : h.num ≤ h.maxSize
  alloc : 1 ≤ h.maxSize

end Heap

/-- C37. A new heap is empty. -/
theorem C37_init (lt : Nat → Nat → Bool) (n : Nat) (data pos : Nat → Nat) (h0 : ∀ e, pos e = 0) :
    Holds lt (Heap.init n data pos) (fun _ => False) where
  ordered := by intro i hi hi2; simp [Heap.init] at hi2; omega
  posOk := ⟨by intro i hi hi2; simp [Heap.init] at hi2; omega, by intro e he; exact absurd (h0 e) he⟩
  mem := by intro e; simp [Heap.init, h0]
  room := Nat.zero_le _
  alloc := by simp only [Heap.init]; split <;> omega

/-- C37. The head of a non-empty heap is an element of it and minimal. -/
theorem C37_min (lt : Nat → Nat → Bool) (hlt : StrictWeak lt) (h : H) (S : Nat → Prop) (hh : Holds lt h S)
    (hn : h.num ≠ 0) : S (h.data 1) ∧ ∀ e, S e → lt e (h.data 1) = false := by
  constructor
  · rw [← hh.mem, hh.posOk.slot 1 (by omega) (by omega)]; omega
  · intro e he
    have := (hh.mem e).mpr he
    obtain ⟨h1, h2⟩ := hh.posOk.elem e this
    rw [← h2]
    exact ordered_min lt hlt h hh.ordered _ (by omega) h1

/-- C37. The heap is empty exactly if it holds no element. -/
theorem C37_empty (lt : Nat → Nat → Bool) (h : H) (S : Nat → Prop) (hh : Holds lt h S) :
    h.num = 0 ↔ ∀ e, ¬ S e := by
  constructor
  · intro h0 e he
    have h1 := (hh.mem e).mpr he
    have := hh.posOk.elem e h1
    omega
  · intro hall
    by_cases h0 : h.num = 0
    · exact h0
    · exfalso
      apply hall (h.data 1)
      rw [← hh.mem, hh.posOk.slot 1 (by omega) (by omega)]; omega

/-- C37. The stored position of every element is its slot, or 0 if it is not in the heap. -/
theorem C37_find (lt : Nat → Nat → Bool) (h : H) (S : Nat → Prop) (hh : Holds lt h S) (e : Nat) :
    (S e → 1 ≤ Heap.find h e ∧ Heap.find h e ≤ h.num ∧ h.data (Heap.find h e) = e) ∧
    (¬ S e → Heap.find h e = 0) := by
  constructor
  · intro he
    have h1 := (hh.mem e).mpr he
    have := hh.posOk.elem e h1
    simp only [Heap.find]
    omega
  · intro he
    by_cases h0 : h.pos e = 0
    · exact h0
    · exact absurd ((hh.mem e).mp h0) he

/-- C37. Inserting adds exactly the new element. -/
theorem C37_insert (lt : Nat → Nat → Bool) (hlt : StrictWeak lt) (h : H) (S : Nat → Prop)
    (hh : Holds lt h S) (e : Nat) (he : ¬ S e) :
    ∃ h', Heap.insert lt h e = .ok h' ∧ Holds lt h' (fun x => S x ∨ x = e) := by
  obtain ⟨ho, hp, hm, hr, ha⟩ := hh
  have he0 : h.pos e = 0 := by
    by_cases h0 : h.pos e = 0
    · exact h0
    · exact absurd ((hm e).mp h0) he
  -- the heap after the optional enlargement
  obtain ⟨h1, hh1, e1, e2, e3, e4⟩ : ∃ h1 : H, (if h.num = h.maxSize then
      { h with maxSize := h.maxSize * 2 } else h) = h1 ∧ h1.num = h.num ∧ h1.data = h.data ∧
      h1.pos = h.pos ∧ h.num < h1.maxSize := by
    refine ⟨_, rfl, ?_⟩
    split
    · exact ⟨rfl, rfl, rfl, by simp only; omega⟩
    · exact ⟨rfl, rfl, rfl, by omega⟩
  simp only [Heap.insert, hh1]
  rw [if_neg (by omega)]
  have hne : ∀ i, 1 ≤ i → i ≤ h.num → h.data i ≠ e := by
    intro i hi hi2 hc
    have := hp.slot i hi hi2
    rw [hc, he0] at this
    omega
  obtain ⟨r1, r2, r3⟩ := bubbleUp_spec lt hlt
    { num := h1.num + 1, maxSize := h1.maxSize, data := upd h1.data (h1.num + 1) e,
      pos := upd h1.pos e (h1.num + 1) } (h1.num + 1) (by omega) (Nat.le_refl _) (by
      refine ⟨?_, ?_⟩
      · intro i hi hi2
        simp only [upd, e1, e2, e3] at hi2 ⊢
        by_cases hx : i = h.num + 1
        · simp [hx]
        · rw [if_neg hx, if_neg (hne i hi (by omega))]
          exact hp.slot i hi (by omega)
      · intro x hx
        simp only [upd, e1, e2, e3] at hx ⊢
        by_cases hxe : x = e
        · simp [hxe]
        · rw [if_neg hxe] at hx ⊢
          have := hp.elem x hx
          rw [if_neg (by omega)]
          exact ⟨by omega, this.2⟩) (by
      intro i hi hi2 hne2
      simp only [upd, e1, e2] at hi2 hne2 ⊢
      rw [if_neg hne2, if_neg (by omega)]
      exact ho i hi (by omega)) (by
      intro i hi hi2 hi3 _
      simp only [e1] at hi2 hi3
      omega)
  refine ⟨_, rfl, r1, r2, ?_, ?_, ?_⟩
  · intro x
    rw [Ne, r3.zero]
    simp only [upd, e1, e3]
    by_cases hxe : x = e
    · simp [hxe]
    · rw [if_neg hxe]
      have := hm x
      simp only [hxe, or_false]
      exact this
  · rw [r3.num, r3.max]; simp only; omega
  · rw [r3.max]; simp only; omega

/-- Removing the element of slot `i` by moving the last one there: shared part of the two removals. -/
theorem Heap.removed_posOk (h : H) (hp : PosOk h) (i : Nat) (hi : 1 ≤ i) (hi2 : i ≤ h.num) :
    ∃ h2 : H, (⟨(swap h i h.num).num - 1, (swap h i h.num).maxSize, (swap h i h.num).data,
      upd (swap h i h.num).pos ((swap h i h.num).data (swap h i h.num).num) 0⟩ : H) = h2 ∧ PosOk h2 ∧ (∀ e, h2.pos e = 0 ↔ h.pos e = 0 ∨ e = h.data i) ∧ h2.num = h.num - 1 ∧
      h2.maxSize = h.maxSize ∧
      ∀ x, h2.data x = if x = i then h.data h.num else if x = h.num then h.data i else h.data x := by
  obtain ⟨hp', hz⟩ := swap_posOk h i h.num hp hi hi2 (by omega) (Nat.le_refl _)
  have hdata := swap_data h i h.num
  have hn := swap_num h i h.num
  have hlast : (swap h i h.num).data (swap h i h.num).num = h.data i := by
    rw [hn, hdata]; split
    · rename_i hc; rw [hc]
    · rw [if_pos rfl]
  refine ⟨_, rfl, ⟨?_, ?_⟩, ?_, by simp only [hn], by simp only [swap_max], hdata⟩
  · intro k hk hk2
    simp only [hn] at hk2
    have := hp'.slot k hk (by rw [hn]; omega)
    simp only [upd]
    rw [if_neg, this]
    intro hc
    rw [hc, hp'.slot _ (by rw [hn]; omega) (Nat.le_refl _), hn] at this
    omega
  · intro e he
    simp only [upd] at he ⊢
    split at he
    · exact absurd rfl he
    · rename_i hne
      rw [if_neg hne]
      have := hp'.elem e he
      refine ⟨?_, this.2⟩
      have h3 : (swap h i h.num).pos e ≠ (swap h i h.num).num := by
        intro hc
        rw [hc] at this
        exact hne this.2.symm
      omega
  · intro e
    simp only [upd, hlast]
    split
    · rename_i hc; simp [hc]
    · rename_i hc; rw [hz]; simp [hc]

/-- C37. Removing the minimum removes exactly the head element; on an empty heap nothing happens. -/
theorem C37_delmin (lt : Nat → Nat → Bool) (hlt : StrictWeak lt) (h : H) (S : Nat → Prop)
    (hh : Holds lt h S) :
    Holds lt (delmin lt h) (fun x => S x ∧ (h.num ≠ 0 → x ≠ h.data 1)) := by
  obtain ⟨ho, hp, hm, hr, ha⟩ := hh
  unfold delmin
  by_cases h0 : h.num = 0
  · rw [if_pos h0]
    exact ⟨ho, hp, fun e => by rw [hm]; simp [h0], hr, ha⟩
  · rw [if_neg h0]
    have hsw : (if h.num > 1 then swap h 1 h.num else h) = swap h 1 h.num := by
      split
      · rfl
      · have : h.num = 1 := by omega
        rw [this]; unfold swap; simp
    simp only [hsw]
    obtain ⟨g, hg, p1, p2, p3, p4, p5⟩ := removed_posOk h hp 1 (by omega) (by omega)
    rw [hg]
    obtain ⟨r1, r2, r3⟩ := bubbleDown_spec lt hlt g 1 (by omega) p1 (by
      intro i hi hi2 hne
      rw [p3] at hi2
      rw [p5 i, p5 (i / 2), if_neg (by omega), if_neg (by omega), if_neg hne, if_neg (by omega)]
      exact ho i hi (by omega)) (by intros; omega)
    refine ⟨r1, r2, ?_, ?_, ?_⟩
    · intro e
      rw [Ne, r3.zero, p2, ← hm]
      simp only [ne_eq, h0, not_false_eq_true, true_implies, not_or]
    · rw [r3.num, r3.max, p3, p4]; omega
    · rw [r3.max, p4]; exact ha

/-- C37. Deleting the element found at its stored position removes exactly that element. -/
theorem C37_delete (lt : Nat → Nat → Bool) (hlt : StrictWeak lt) (h : H) (S : Nat → Prop)
    (hh : Holds lt h S) (e : Nat) (he : S e) :
    ∃ h', delete lt h (Heap.find h e) = .ok h' ∧ Holds lt h' (fun x => S x ∧ x ≠ e) := by
  obtain ⟨f1, f2, f3⟩ := (C37_find lt h S hh e).1 he
  obtain ⟨ho, hp, hm, hr, ha⟩ := hh
  generalize hi : Heap.find h e = i at *
  unfold delete
  rw [if_neg (by omega)]
  obtain ⟨g, hg, p1, p2, p3, p4, p5⟩ := removed_posOk h hp i f1 f2
  simp only
  rw [hg]
  have hgn : g.num + 1 = h.num := by omega
  have hgd : (swap h i h.num).data = g.data := by rw [← hg]
  have hgnum : (swap h i h.num).num - 1 = g.num := by rw [← hg]
  have hdi : g.data i = h.data h.num := by rw [p5, if_pos rfl]
  have hdl : g.data (g.num + 1) = h.data i := by
    rw [hgn, p5]; split
    · rename_i hc; rw [hc]
    · rw [if_pos rfl]
  rw [hgd, hgnum]
  have key : ∃ g', (if lt (g.data i) (g.data (g.num + 1)) = true then bubbleUp lt g i else bubbleDown lt g i)
      = g' ∧ Ordered lt g' ∧ PosOk g' ∧ Same g g' := by
    refine ⟨_, rfl, ?_⟩
    rw [hdi, hdl]
    by_cases hin : i = h.num
    · -- the last slot: nothing moves
      have hirr : lt (h.data h.num) (h.data i) = false := by
        rw [hin]
        cases hc : lt (h.data h.num) (h.data h.num) with
        | false => rfl
        | true => have := hlt.asymm _ _ hc; rw [hc] at this; cases this
      rw [if_neg (by simp [hirr])]
      refine bubbleDown_spec lt hlt g i f1 p1 ?_ ?_
      · intro k hk hk2 hne
        rw [p5 k, p5 (k / 2), if_neg (by omega), if_neg (by omega), if_neg (by omega), if_neg (by omega)]
        exact ho k hk (by omega)
      · intro k hk hk2 hke; omega
    · split
      · rename_i hl
        refine bubbleUp_spec lt hlt g i f1 (by omega) p1 ?_ ?_
        · intro k hk hk2 hne
          rw [p5 k, p5 (k / 2), if_neg hne, if_neg (by omega)]
          have := ho k hk (by omega)
          by_cases hkk : k / 2 = i
          · rw [if_pos hkk]
            rw [hkk] at this
            exact hlt.trans _ _ _ (hlt.asymm _ _ hl) this
          · rw [if_neg hkk, if_neg (by omega)]
            exact this
        · intro k hk hk2 hki h2i
          rw [p5 k, p5 (i / 2), if_neg (by omega), if_neg (by omega), if_neg (by omega), if_neg (by omega)]
          have a1 := ho k hk (by omega)
          rw [hki] at a1
          exact hlt.trans _ _ _ (ho i h2i f2) a1
      · rename_i hl
        have hl' : lt (h.data h.num) (h.data i) = false := by simpa using hl
        refine bubbleDown_spec lt hlt g i f1 p1 ?_ ?_
        · intro k hk hk2 hne
          rw [p5 k, p5 (k / 2), if_neg hne, if_neg (show k / 2 ≠ h.num by omega)]
          by_cases hki : k = i
          · rw [if_pos hki]
            have := ho i (by omega) f2
            rw [hki]
            exact hlt.trans _ _ _ this hl'
          · rw [if_neg hki, if_neg (by omega)]
            exact ho k hk (by omega)
        · intro k hk hk2 hki h2i
          rw [p5 k, p5 (i / 2), if_neg (by omega), if_neg (by omega), if_neg (by omega), if_neg (by omega)]
          have a1 := ho k hk (by omega)
          rw [hki] at a1
          exact hlt.trans _ _ _ (ho i h2i f2) a1
  obtain ⟨g', hg', o1, o2, o3⟩ := key
  simp only [hg']
  have hmem : ∀ x, g'.pos x ≠ 0 ↔ S x ∧ x ≠ e := by
    intro x
    rw [Ne, o3.zero, p2, ← hm, f3]
    simp only [not_or, ne_eq]
  refine ⟨_, rfl, ?_⟩
  have hn' := o3.num
  have hm' := o3.max
  split
  · exact ⟨o1, ⟨o2.slot, o2.elem⟩, hmem, by simp only; omega, by simp only; omega⟩
  · exact ⟨o1, o2, hmem, by omega, by omega⟩

/-- C37. Repositioning after the key of one element changed: `lt` is the order before, `lt'` the
order after the change; they agree on all other elements. -/
theorem C37_replace (lt lt' : Nat → Nat → Bool) (hlt : StrictWeak lt) (hlt' : StrictWeak lt') (h : H)
    (S : Nat → Prop) (hh : Holds lt h S) (e : Nat) (he : S e)
    (hsame : ∀ a b, a ≠ e → b ≠ e → lt' a b = lt a b) :
    ∃ h', replace lt' h (Heap.find h e) e = .ok h' ∧ Holds lt' h' S := by
  obtain ⟨f1, f2, f3⟩ := (C37_find lt h S hh e).1 he
  obtain ⟨ho, hp, hm, hr, ha⟩ := hh
  have hpe : h.pos e = Heap.find h e := rfl
  generalize hi : Heap.find h e = i at *
  unfold replace
  rw [if_neg (by omega)]
  have hself : ({ h with data := upd h.data i e, pos := upd h.pos e i } : H) = h := by
    obtain ⟨n, m, d, p⟩ := h
    simp only at *
    congr 1
    · funext x; simp only [upd]; split
      · rename_i hc; rw [hc, f3]
      · rfl
    · funext x; simp only [upd]; split
      · rename_i hc; rw [hc, hpe]
      · rfl
  simp only [hself]
  have hne : ∀ k, 1 ≤ k → k ≤ h.num → k ≠ i → h.data k ≠ e := by
    intro k hk hk2 hki hc
    have := hp.slot k hk hk2
    rw [hc, hpe] at this
    exact hki this.symm
  have hedge : ∀ k, 2 ≤ k → k ≤ h.num → k ≠ i → k / 2 ≠ i → lt' (h.data k) (h.data (k / 2)) = false := by
    intro k hk hk2 h1 h2
    rw [hsame _ _ (hne k (by omega) hk2 h1) (hne (k / 2) (by omega) (by omega) h2)]
    exact ho k hk hk2
  have hgrand : ∀ k, 2 ≤ k → k ≤ h.num → k / 2 = i → 2 ≤ i → lt' (h.data k) (h.data (i / 2)) = false := by
    intro k hk hk2 hki h2i
    rw [hsame _ _ (hne k (by omega) hk2 (by omega)) (hne (i / 2) (by omega) (by omega) (by omega))]
    have a1 := ho k hk hk2
    rw [hki] at a1
    exact hlt.trans _ _ _ (ho i h2i f2) a1
  have key : ∃ h', (if (i == 1 || lt' (h.data (i / 2)) e) = true then bubbleDown lt' h i else bubbleUp lt' h i)
      = h' ∧ Ordered lt' h' ∧ PosOk h' ∧ Same h h' := by
    refine ⟨_, rfl, ?_⟩
    split
    · rename_i hc
      refine bubbleDown_spec lt' hlt' h i f1 hp ?_ hgrand
      intro k hk hk2 hne2
      by_cases hki : k = i
      · simp only [Bool.or_eq_true, beq_iff_eq] at hc
        rcases hc with hc | hc
        · omega
        · rw [hki, f3]
          exact hlt'.asymm _ _ hc
      · exact hedge k hk hk2 hki hne2
    · rename_i hc
      simp only [Bool.or_eq_true, beq_iff_eq, not_or, Bool.not_eq_true] at hc
      refine bubbleUp_spec lt' hlt' h i f1 f2 hp ?_ hgrand
      intro k hk hk2 hne2
      by_cases hki : k / 2 = i
      · have h1 := hgrand k hk hk2 hki (by omega)
        rw [hki, f3]
        exact hlt'.trans _ _ _ hc.2 h1
      · exact hedge k hk hk2 hne2 hki
  obtain ⟨h', e1, o1, o2, o3⟩ := key
  have hd : upd h.data i e = h.data := congrArg H.data hself
  refine ⟨h', by rw [hd, e1], o1, o2, ?_, by rw [o3.num, o3.max]; exact hr, by rw [o3.max]; exact ha⟩
  intro x
  rw [Ne, o3.zero, ← hm]

/-! ## Histories -/

namespace Heap

/-- A heap operation: insert an element, remove an element found by its stored position, remove
the minimum. -/
inductive Op | insert (e : Nat) | delete (e : Nat) | delmin

/-- One operation as a user performs it: elements already in the heap are not inserted again,
elements not in the heap are not deleted. -/
def apply (lt : Nat → Nat → Bool) (h : H) : Op → Res H
  | .insert e => if Heap.find h e = 0 then Heap.insert lt h e else .ok h
  | .delete e => if Heap.find h e = 0 then .ok h else Heap.delete lt h (Heap.find h e)
  | .delmin => .ok (delmin lt h)

/-- Specification of an operation on the set of elements; the minimum removed is any minimal element. -/
def Spec (lt : Nat → Nat → Bool) (S : Nat → Prop) : Op → (Nat → Prop) → Prop
  | .insert e, S' => ∀ x, S' x ↔ S x ∨ x = e
  | .delete e, S' => ∀ x, S' x ↔ S x ∧ x ≠ e
  | .delmin, S' => ((∀ x, ¬ S x) ∧ ∀ x, ¬ S' x) ∨
      ∃ m, S m ∧ (∀ x, S x → lt x m = false) ∧ ∀ x, S' x ↔ S x ∧ x ≠ m

/-- A run of the heap along a list of operations. -/
def run (lt : Nat → Nat → Bool) (h : H) : List Op → Res H
  | [] => .ok h
  | o :: os => match apply lt h o with
    | .ok h' => run lt h' os
    | .err e => .err e
    | .ub => .ub

/-- A run of the specification. -/
inductive SpecRun (lt : Nat → Nat → Bool) : (Nat → Prop) → List Op → (Nat → Prop) → Prop
  | nil (S) : SpecRun lt S [] S
  | cons (S S' S'' o os) : Spec lt S o S' → SpecRun lt S' os S'' → SpecRun lt S (o :: os) S''

end Heap

theorem Heap.Holds.congr {lt : Nat → Nat → Bool} {h : H} {S S' : Nat → Prop} (hh : Holds lt h S)
    (e : ∀ x, S x ↔ S' x) : Holds lt h S' :=
  ⟨hh.ordered, hh.posOk, fun x => (hh.mem x).trans (e x), hh.room, hh.alloc⟩

/-- C37. Every history of operations on the heap is defined (no access out of the allocated array)
and behaves as the same history of a priority queue: a set from which a minimal element is taken. -/
theorem C37_histories (lt : Nat → Nat → Bool) (hlt : StrictWeak lt) (os : List Heap.Op) (h : H)
    (S : Nat → Prop) (hh : Holds lt h S) :
    ∃ h' S', Heap.run lt h os = .ok h' ∧ SpecRun lt S os S' ∧ Holds lt h' S' := by
  induction os generalizing h S with
  | nil => exact ⟨h, S, rfl, .nil S, hh⟩
  | cons o os ih =>
    have step : ∃ h1 S1, Heap.apply lt h o = .ok h1 ∧ Spec lt S o S1 ∧ Holds lt h1 S1 := by
      cases o with
      | insert e =>
        simp only [Heap.apply]
        split
        · rename_i h0
          have hne : ¬ S e := fun hs => (hh.mem e).mpr hs h0
          obtain ⟨h1, a, b⟩ := C37_insert lt hlt h S hh e hne
          exact ⟨h1, _, a, fun x => Iff.rfl, b⟩
        · rename_i h0
          have hs : S e := (hh.mem e).mp h0
          refine ⟨h, S, rfl, ?_, hh⟩
          intro x
          constructor
          · exact Or.inl
          · rintro (hx | rfl)
            · exact hx
            · exact hs
      | delete e =>
        simp only [Heap.apply]
        split
        · rename_i h0
          have hne : ¬ S e := fun hs => (hh.mem e).mpr hs h0
          refine ⟨h, S, rfl, ?_, hh⟩
          intro x
          constructor
          · intro hx
            exact ⟨hx, fun hc => hne (hc ▸ hx)⟩
          · exact fun hx => hx.1
        · rename_i h0
          obtain ⟨h1, a, b⟩ := C37_delete lt hlt h S hh e ((hh.mem e).mp h0)
          exact ⟨h1, _, a, fun x => Iff.rfl, b⟩
      | delmin =>
        refine ⟨_, _, rfl, ?_, C37_delmin lt hlt h S hh⟩
        by_cases h0 : h.num = 0
        · left
          have := (C37_empty lt h S hh).mp h0
          exact ⟨this, fun x hx => this x hx.1⟩
        · right
          obtain ⟨m1, m2⟩ := C37_min lt hlt h S hh h0
          refine ⟨h.data 1, m1, m2, ?_⟩
          intro x
          simp [h0]
    obtain ⟨h1, S1, a, b, c⟩ := step
    obtain ⟨h', S', r1, r2, r3⟩ := ih h1 S1 c
    exact ⟨h', S', by simp only [Heap.run, a]; exact r1, .cons _ _ _ _ _ b r2, r3⟩

/-! ## Binary search -/

/-- C37. On any array whose elements less than the key come first, the search returns the first
index that is not less than the key (the array length if there is none). -/
theorem C37_binsearch (p : Nat → Bool) (n : Nat)
    (mono : ∀ i j, i ≤ j → j < n → p j = true → p i = true) :
    binSearch p 0 n ≤ n ∧ (∀ i < binSearch p 0 n, p i = true) ∧
      (binSearch p 0 n < n → p (binSearch p 0 n) = false) := by
  have gen : ∀ l r, l ≤ r → r ≤ n → (∀ i < l, p i = true) → (r < n → p r = false) →
      l ≤ binSearch p l r ∧ binSearch p l r ≤ r ∧ (∀ i < binSearch p l r, p i = true) ∧
      (binSearch p l r < n → p (binSearch p l r) = false) := by
    intro l r
    fun_induction binSearch p l r with
    | case1 l r hlr hp ih =>
      intro _ hrn hl hr
      have := ih (by omega) hrn (by
        intro i hi
        exact mono i ((l + r) / 2) (by omega) (by omega) hp) hr
      exact ⟨by omega, this.2.1, this.2.2⟩
    | case2 l r hlr hp ih =>
      intro _ hrn hl hr
      have := ih (by omega) (by omega) hl (by intro _; simpa using hp)
      exact ⟨this.1, by omega, this.2.2⟩
    | case3 l r hlr =>
      intro h1 hrn hl hr
      have : l = r := by omega
      subst this
      exact ⟨Nat.le_refl _, Nat.le_refl _, hl, hr⟩
  have := gen 0 n (Nat.zero_le _) (Nat.le_refl _) (by omega) (by omega)
  exact this.2

/-- C37. The equality search on a sorted array returns the first index of the key, or -1 if the
key does not occur. -/
theorem C37_binsearch_eq (ary : List Nat) (x : Nat)
    (sorted : ∀ i j, i ≤ j → j < ary.length → ary.getD i 0 ≤ ary.getD j 0) (r : Nat) :
    searchEq ary x = some r ↔ (r < ary.length ∧ ary.getD r 0 = x ∧ ∀ i < r, ary.getD i 0 ≠ x) := by
  have h := C37_binsearch (fun i => decide (ary.getD i 0 < x)) ary.length (by
    intro i j hij hj hp
    have := sorted i j hij hj
    simp only [decide_eq_true_eq] at hp ⊢
    omega)
  have hse : ∀ b, firstGe ary x = b → searchEq ary x =
      if b ≥ ary.length ∨ ary.getD b 0 ≠ x then none else some b := by
    intro b hb
    simp only [searchEq, hb]
  obtain ⟨b, hb⟩ : ∃ b, firstGe ary x = b := ⟨_, rfl⟩
  rw [hse b hb]
  clear hse
  simp only [firstGe] at hb
  rw [hb] at h
  obtain ⟨h1, h2, h3⟩ := h
  simp only [decide_eq_true_eq, decide_eq_false_iff_not] at h2 h3
  constructor
  · intro he
    split at he
    · cases he
    · rename_i hc
      cases he
      refine ⟨by omega, by omega, ?_⟩
      intro i hi hix
      have := h2 i hi
      omega
  · rintro ⟨g1, g2, g3⟩
    have hrb : b = r := by
      rcases Nat.lt_trichotomy b r with hlt | heq | hgt
      · have a := h3 (by omega)
        have c := sorted b r (by omega) g1
        have := g3 b hlt
        omega
      · exact heq
      · have := h2 r hgt
        omega
    subst hrb
    rw [if_neg (by omega)]

example : StrictWeak (fun a b => decide (a % 10 < b % 10)) :=
  ⟨by intro a b h; simp at *; omega, by intro a b c h1 h2; simp at *; omega⟩
example : (match (do
    let h ← Heap.insert (fun a b => decide (a < b)) (Heap.init 0 (fun _ => 0) (fun _ => 0)) 7
    let h ← Heap.insert (fun a b => decide (a < b)) h 3
    Heap.insert (fun a b => decide (a < b)) h 5) with
    | .ok h => h.data 1 == 3 && h.pos 7 == 2 | _ => false) = true := by decide +kernel
example : searchEq [1, 3, 3, 8] 3 = some 1 := by decide +kernel

end Knot
