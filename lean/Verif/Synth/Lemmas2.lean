import Verif.Synth.Lemmas
/-!
# Lemmas: reverse names are read as their addresses
-/
namespace Knot.Synth
open Sockaddr (Addr Fam Bytes)
open Spec

theorem comprLoop_congr {short : Bool} {b b' : List Bytes} (h : ∀ i : Nat, zeroBlock b[i]? = zeroBlock b'[i]?) :
    ∀ n i start stop, comprLoop short b n i start stop = comprLoop short b' n i start stop
  | 0, _, _, _ => rfl
  | n + 1, i, start, stop => by
    rw [comprLoop, comprLoop, h i, h (i + 1), comprLoop_congr h n, comprLoop_congr h n]

/-- A block that is zero or not. -/
def like (z : Bool) : Bytes := if z then [48, 48, 48, 48] else []

theorem compr_table : ∀ a b c d e f g h : Bool,
    let r := comprLoop true [like a, like b, like c, like d, like e, like f, like g, like h] 8 0 none none
    r = (none, none) ∨ (c && d) && r = (some 2, some 3) ∨ (c && d && e) && r = (some 2, some 4) ∨
    (c && d && e && f) && r = (some 2, some 5) ∨ (c && d && e && f && g) && r = (some 2, some 6) ∨
    (d && e) && r = (some 3, some 4) ∨ (d && e && f) && r = (some 3, some 5) ∨ (d && e && f && g) && r = (some 3, some 6) ∨
    (e && f) && r = (some 4, some 5) ∨ (e && f && g) && r = (some 4, some 6) ∨ (f && g) && r = (some 5, some 6) := by
  decide +kernel

/-- The text of an IPv6 address written from its blocks. -/
theorem text6_form (short : Bool) (a0 a1 b0 b1 c0 c1 d0 d1 e0 e1 f0 f1 g0 g1 h0 h1 : UInt8) :
    ∃ l r : List (Bytes × UInt8 × UInt8), (∀ g ∈ l, Good g.1 g.2) ∧ (∀ g ∈ r, Good g.1 g.2) ∧
      ((l.length = 8 ∧ octs l = [a0, a1, b0, b1, c0, c1, d0, d1, e0, e1, f0, f1, g0, g1, h0, h1] ∧
        text6 short (digits a0 a1 ++ digits b0 b1 ++ digits c0 c1 ++ digits d0 d1 ++ digits e0 e1 ++ digits f0 f1 ++ digits g0 g1 ++
          digits h0 h1) = join 58 (l.map (·.1)) ++ [0]) ∨
       (l ≠ [] ∧ r ≠ [] ∧ l.length + r.length ≤ 7 ∧ short = true ∧
        octs l ++ List.replicate (16 - 2 * l.length - 2 * r.length) 0 ++ octs r =
          [a0, a1, b0, b1, c0, c1, d0, d1, e0, e1, f0, f1, g0, g1, h0, h1] ∧
        text6 short (digits a0 a1 ++ digits b0 b1 ++ digits c0 c1 ++ digits d0 d1 ++ digits e0 e1 ++ digits f0 f1 ++ digits g0 g1 ++
          digits h0 h1) = join 58 (l.map (·.1)) ++ 58 :: 58 :: join 58 (r.map (·.1)) ++ [0])) := by
  have hb : blocksOf 8 ((digits a0 a1 ++ digits b0 b1 ++ digits c0 c1 ++ digits d0 d1 ++ digits e0 e1 ++ digits f0 f1 ++ digits g0 g1 ++
      digits h0 h1) ++ List.replicate (32 - (digits a0 a1 ++ digits b0 b1 ++ digits c0 c1 ++ digits d0 d1 ++ digits e0 e1 ++
      digits f0 f1 ++ digits g0 g1 ++ digits h0 h1).length) 48) =
      [digits a0 a1, digits b0 b1, digits c0 c1, digits d0 d1, digits e0 e1, digits f0 f1, digits g0 g1, digits h0 h1] := by
    simp [blocksOf, digits]
  unfold text6
  rw [hb]
  have hz : ∀ x y : UInt8, zeroBlock (some (digits x y)) = decide (x = 0 ∧ y = 0) := by
    intro x y
    unfold zeroBlock
    rw [decide_eq_decide, Option.some.injEq, zero_digits]
  cases short with
  | false =>
    refine ⟨[(digits a0 a1, a0, a1), (digits b0 b1, b0, b1), (digits c0 c1, c0, c1), (digits d0 d1, d0, d1), (digits e0 e1, e0, e1),
      (digits f0 f1, f0, f1), (digits g0 g1, g0, g1), (digits h0 h1, h0, h1)], [], ?_, by simp, .inl ⟨rfl, rfl, ?_⟩⟩
    · intro g hg
      simp only [List.mem_cons, List.not_mem_nil, or_false] at hg
      rcases hg with rfl | rfl | rfl | rfl | rfl | rfl | rfl | rfl <;> exact good_digits _ _
    · simp [comprLoop, writeLoop, join]
  | true =>
    have hc : comprLoop true [digits a0 a1, digits b0 b1, digits c0 c1, digits d0 d1, digits e0 e1, digits f0 f1, digits g0 g1,
        digits h0 h1] 8 0 none none = comprLoop true [like (decide (a0 = 0 ∧ a1 = 0)), like (decide (b0 = 0 ∧ b1 = 0)),
        like (decide (c0 = 0 ∧ c1 = 0)), like (decide (d0 = 0 ∧ d1 = 0)), like (decide (e0 = 0 ∧ e1 = 0)),
        like (decide (f0 = 0 ∧ f1 = 0)), like (decide (g0 = 0 ∧ g1 = 0)), like (decide (h0 = 0 ∧ h1 = 0))] 8 0 none none := by
      apply comprLoop_congr
      have hl : ∀ z, zeroBlock (some (like z)) = z := by decide
      intro i
      rcases i with _ | _ | _ | _ | _ | _ | _ | _ | i <;> simp only [List.getElem?_cons_zero, List.getElem?_cons_succ, hz, hl,
        List.getElem?_nil]
    dsimp only
    rw [hc]
    have ht := compr_table (decide (a0 = 0 ∧ a1 = 0)) (decide (b0 = 0 ∧ b1 = 0)) (decide (c0 = 0 ∧ c1 = 0)) (decide (d0 = 0 ∧ d1 = 0))
      (decide (e0 = 0 ∧ e1 = 0)) (decide (f0 = 0 ∧ f1 = 0)) (decide (g0 = 0 ∧ g1 = 0)) (decide (h0 = 0 ∧ h1 = 0))
    dsimp only at ht
    generalize comprLoop true _ 8 0 none none = res at ht ⊢
    simp only [Bool.and_eq_true, decide_eq_true_eq] at ht
    have items : ∀ g ∈ [(blockWrite (digits a0 a1), a0, a1), (blockWrite (digits b0 b1), b0, b1), (blockWrite (digits c0 c1), c0, c1),
        (blockWrite (digits d0 d1), d0, d1), (blockWrite (digits e0 e1), e0, e1), (blockWrite (digits f0 f1), f0, f1),
        (blockWrite (digits g0 g1), g0, g1), (blockWrite (digits h0 h1), h0, h1)], Good g.1 g.2 := by
      intro g hg
      simp only [List.mem_cons, List.not_mem_nil, or_false] at hg
      rcases hg with rfl | rfl | rfl | rfl | rfl | rfl | rfl | rfl <;> exact good_write _ _
    rcases ht with rfl | ht
    · exact ⟨_, [], items, by simp, .inl ⟨rfl, rfl, by simp [writeLoop, join]⟩⟩
    generalize hW : [(blockWrite (digits a0 a1), a0, a1), (blockWrite (digits b0 b1), b0, b1), (blockWrite (digits c0 c1), c0, c1),
        (blockWrite (digits d0 d1), d0, d1), (blockWrite (digits e0 e1), e0, e1), (blockWrite (digits f0 f1), f0, f1),
        (blockWrite (digits g0 g1), g0, g1), (blockWrite (digits h0 h1), h0, h1)] = W at items
    have il : ∀ n, ∀ g ∈ W.take n, Good g.1 g.2 := fun n g hg => items g (List.mem_of_mem_take hg)
    have ir : ∀ n, ∀ g ∈ W.drop n, Good g.1 g.2 := fun n g hg => items g (List.mem_of_mem_drop hg)
    suffices fin : ∃ s e, s ≠ 0 ∧ s ≤ 8 ∧ e < 7 ∧ s < e + 1 ∧ res = (some s, some e) ∧
        octs (W.take s) ++ List.replicate (16 - 2 * s - 2 * (7 - e)) 0 ++ octs (W.drop (e + 1)) =
          [a0, a1, b0, b1, c0, c1, d0, d1, e0, e1, f0, f1, g0, g1, h0, h1] ∧
        writeLoop true (some s) (some e) 0 [digits a0 a1, digits b0 b1, digits c0 c1, digits d0 d1, digits e0 e1, digits f0 f1,
          digits g0 g1, digits h0 h1] = join 58 ((W.take s).map (·.1)) ++ 58 :: 58 :: join 58 ((W.drop (e + 1)).map (·.1)) by
      obtain ⟨s, e, h1, h2, h3, h4, hr, ho, hw⟩ := fin
      have hlen : W.length = 8 := by rw [← hW]; rfl
      have t1 : (W.take s).length = s := by simp [hlen, h2]
      have t2 : (W.drop (e + 1)).length = 7 - e := by simp [hlen]
      refine ⟨W.take s, W.drop (e + 1), il s, ir _, .inr ⟨?_, ?_, by rw [t1, t2]; omega, rfl, ?_, ?_⟩⟩
      · intro h; rw [h] at t1; simp at t1; omega
      · intro h; rw [h] at t2; simp at t2; omega
      · rw [t1, t2]; exact ho
      · rw [hr]; dsimp only; rw [hw]
    rcases ht with h | h | h | h | h | h | h | h | h | h
    all_goals (obtain ⟨h, hr⟩ := h)
    · exact ⟨2, 3, by decide, by decide, by decide, by decide, hr, (by rw [← hW]; simp [octs, h]), (by rw [← hW]; simp [writeLoop, join])⟩
    · exact ⟨2, 4, by decide, by decide, by decide, by decide, hr, (by rw [← hW]; simp [octs, h]), (by rw [← hW]; simp [writeLoop, join])⟩
    · exact ⟨2, 5, by decide, by decide, by decide, by decide, hr, (by rw [← hW]; simp [octs, h]), (by rw [← hW]; simp [writeLoop, join])⟩
    · exact ⟨2, 6, by decide, by decide, by decide, by decide, hr, (by rw [← hW]; simp [octs, h]), (by rw [← hW]; simp [writeLoop, join])⟩
    · exact ⟨3, 4, by decide, by decide, by decide, by decide, hr, (by rw [← hW]; simp [octs, h]), (by rw [← hW]; simp [writeLoop, join])⟩
    · exact ⟨3, 5, by decide, by decide, by decide, by decide, hr, (by rw [← hW]; simp [octs, h]), (by rw [← hW]; simp [writeLoop, join])⟩
    · exact ⟨3, 6, by decide, by decide, by decide, by decide, hr, (by rw [← hW]; simp [octs, h]), (by rw [← hW]; simp [writeLoop, join])⟩
    · exact ⟨4, 5, by decide, by decide, by decide, by decide, hr, (by rw [← hW]; simp [octs, h]), (by rw [← hW]; simp [writeLoop, join])⟩
    · exact ⟨4, 6, by decide, by decide, by decide, by decide, hr, (by rw [← hW]; simp [octs, h]), (by rw [← hW]; simp [writeLoop, join])⟩
    · exact ⟨5, 6, by decide, by decide, by decide, by decide, hr, (by rw [← hW]; simp [octs, h]), (by rw [← hW]; simp [writeLoop, join])⟩

end Knot.Synth
