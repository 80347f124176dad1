import Verif.Synth.Spec
/-!
# Lemmas: texts of addresses
-/
namespace Knot.Synth
open Sockaddr (Addr Fam Bytes)
open Spec

/-- Texts put together with a separator. -/
def join (sep : UInt8) : List Bytes → Bytes
  | [] => []
  | [g] => g
  | g :: h :: gs => g ++ sep :: join sep (h :: gs)

theorem fields_no {sep : UInt8} {g : Bytes} (h : sep ∉ g) : fields sep g = [g] := by
  induction g with
  | nil => rfl
  | cons c s ih =>
    simp only [List.mem_cons, not_or] at h
    rw [fields, if_neg (fun e => h.1 e.symm), ih h.2]

theorem fields_sep {sep : UInt8} {g : Bytes} (h : sep ∉ g) (s : Bytes) : fields sep (g ++ sep :: s) = g :: fields sep s := by
  induction g with
  | nil => simp [fields]
  | cons c g ih =>
    simp only [List.mem_cons, not_or] at h
    rw [List.cons_append, fields, if_neg (fun e => h.1 e.symm), ih h.2]

theorem fields_join {sep : UInt8} : ∀ {gs : List Bytes}, gs ≠ [] → (∀ g ∈ gs, sep ∉ g) → fields sep (join sep gs) = gs
  | [g], _, h => fields_no (h g (by simp))
  | g :: g' :: gs, _, h => by
    rw [join, fields_sep (h g (by simp)), fields_join (by simp) (fun x hx => h x (by simp [hx]))]

theorem decimal_facts : ∀ n < 256, octet (decimal n.toUInt8) = some n.toUInt8 ∧ 46 ∉ decimal n.toUInt8 ∧ 45 ∉ decimal n.toUInt8 ∧
    0 ∉ decimal n.toUInt8 ∧ (decimal n.toUInt8).head? ≠ some 105 ∧ 1 ≤ (decimal n.toUInt8).length ∧
    (decimal n.toUInt8).length ≤ 3 ∧ (decimal n.toUInt8).map lower = decimal n.toUInt8 ∧ (decimal n.toUInt8).head? ≠ some 45 := by
  decide +kernel

theorem decimal_fact (b : UInt8) : octet (decimal b) = some b ∧ 46 ∉ decimal b ∧ 45 ∉ decimal b ∧ 0 ∉ decimal b ∧
    (decimal b).head? ≠ some 105 ∧ 1 ≤ (decimal b).length ∧ (decimal b).length ≤ 3 ∧ (decimal b).map lower = decimal b ∧
    (decimal b).head? ≠ some 45 := by
  have := decimal_facts b.toNat b.toNat_lt
  simpa using this

/-- The text of an IPv4 address. -/
def dotted (raw : Bytes) : Bytes := join 46 (raw.map decimal)

theorem pton4_dotted (a b c d : UInt8) : pton4 (dotted [a, b, c, d]) = some [a, b, c, d] := by
  unfold pton4 dotted
  rw [fields_join (by simp) (by
    intro g hg
    simp only [List.map_cons, List.map_nil, List.mem_cons, List.not_mem_nil, or_false] at hg
    rcases hg with rfl | rfl | rfl | rfl <;> exact (decimal_fact _).2.1)]
  simp [(decimal_fact _).1]

/-! ## Blocks of IPv6 -/

theorem nibble_facts : ∀ n < 16, hexDigit (nibble n) = some n ∧ (nibble n = 48 ↔ n = 0) ∧ nibble n ≠ 58 ∧ nibble n ≠ 46 ∧ nibble n ≠ 45 ∧
    nibble n ≠ 0 ∧ nibble n ≠ 105 ∧ lower (nibble n) = nibble n := by
  decide +kernel

/-- The four digits of two octets. -/
def digits (x y : UInt8) : Bytes := [nibble (x.toNat / 16), nibble (x.toNat % 16), nibble (y.toNat / 16), nibble (y.toNat % 16)]

/-- A text is a group of two octets. -/
def Good (w : Bytes) (xy : UInt8 × UInt8) : Prop :=
  group w = some [xy.1, xy.2] ∧ w ≠ [] ∧ ∀ c ∈ w, c ≠ 58 ∧ c ≠ 46 ∧ c ≠ 45 ∧ c ≠ 0 ∧ lower c = c

theorem good_of {w : Bytes} {x y : UInt8} (h0 : w ≠ []) (h4 : w.length ≤ 4) (hm : ∀ c ∈ w, ∃ n < 16, c = nibble n)
    (hv : number 16 hexDigit w = some (x.toNat * 256 + y.toNat)) : Good w (x, y) := by
  have hx := x.toNat_lt
  have hy := y.toNat_lt
  refine ⟨?_, h0, ?_⟩
  · unfold group
    rw [if_neg (by rintro (h | h); exact h0 (List.eq_nil_of_length_eq_zero h); omega), hv]
    simp only [Option.map_some, Option.some.injEq, List.cons.injEq, and_true]
    constructor
    · rw [show (x.toNat * 256 + y.toNat) / 256 = x.toNat by omega]; simp
    · rw [show (x.toNat * 256 + y.toNat) % 256 = y.toNat by omega]; simp
  · intro c hc
    obtain ⟨n, hn, rfl⟩ := hm c hc
    have := nibble_facts n hn
    exact ⟨this.2.2.1, this.2.2.2.1, this.2.2.2.2.1, this.2.2.2.2.2.1, this.2.2.2.2.2.2.2⟩

theorem good_digits (x y : UInt8) : Good (digits x y) (x, y) := by
  have hx := x.toNat_lt
  have hy := y.toNat_lt
  have a := (nibble_facts (x.toNat / 16) (by omega)).1
  have b := (nibble_facts (x.toNat % 16) (by omega)).1
  have c := (nibble_facts (y.toNat / 16) (by omega)).1
  have d := (nibble_facts (y.toNat % 16) (by omega)).1
  refine good_of (by simp [digits]) (by simp [digits]) ?_ ?_
  · intro c hc
    simp only [digits, List.mem_cons, List.not_mem_nil, or_false] at hc
    rcases hc with rfl | rfl | rfl | rfl <;> exact ⟨_, by omega, rfl⟩
  · simp only [digits, number, List.foldl_cons, List.foldl_nil, a, b, c, d]
    simp
    omega

theorem good_write (x y : UInt8) : Good (blockWrite (digits x y)) (x, y) := by
  have hx := x.toNat_lt
  have hy := y.toNat_lt
  have a := nibble_facts (x.toNat / 16) (by omega)
  have b := nibble_facts (x.toNat % 16) (by omega)
  have c := nibble_facts (y.toNat / 16) (by omega)
  have d := nibble_facts (y.toNat % 16) (by omega)
  have hmem : ∀ e ∈ blockWrite (digits x y), ∃ n < 16, e = nibble n := by
    intro e he
    have : e ∈ digits x y := by
      simp only [digits, blockWrite] at he ⊢
      grind
    simp only [digits, List.mem_cons, List.not_mem_nil, or_false] at this
    rcases this with rfl | rfl | rfl | rfl <;> exact ⟨_, by omega, rfl⟩
  refine good_of ?_ ?_ hmem ?_
  · simp [digits, blockWrite]
  · simp only [digits, blockWrite]; grind
  · simp only [digits, blockWrite]
    by_cases h1 : x.toNat / 16 = 0
    · have e1 := a.2.1.2 h1
      by_cases h2 : x.toNat % 16 = 0
      · have e2 := b.2.1.2 h2
        by_cases h3 : y.toNat / 16 = 0
        · have e3 := c.2.1.2 h3
          simp [e1, e2, e3, number, d.1]; omega
        · have e3 : nibble (y.toNat / 16) ≠ 48 := fun e => h3 (c.2.1.1 e)
          simp [e1, e2, e3, number, c.1, d.1]; omega
      · have e2 : nibble (x.toNat % 16) ≠ 48 := fun e => h2 (b.2.1.1 e)
        simp [e1, e2, number, b.1, c.1, d.1]; omega
    · have e1 : nibble (x.toNat / 16) ≠ 48 := fun e => h1 (a.2.1.1 e)
      simp [e1, number, a.1, b.1, c.1, d.1]; omega

theorem zero_digits (x y : UInt8) : digits x y = [48, 48, 48, 48] ↔ x = 0 ∧ y = 0 := by
  have hx := x.toNat_lt
  have hy := y.toNat_lt
  have a := nibble_facts (x.toNat / 16) (by omega)
  have b := nibble_facts (x.toNat % 16) (by omega)
  have c := nibble_facts (y.toNat / 16) (by omega)
  have d := nibble_facts (y.toNat % 16) (by omega)
  simp only [digits, List.cons.injEq, and_true, a.2.1, b.2.1, c.2.1, d.2.1]
  rw [← UInt8.toNat_inj, ← UInt8.toNat_inj]
  simp; omega

/-! ## Texts of IPv6 -/

theorem groups_good : ∀ (l : List (Bytes × UInt8 × UInt8)), (∀ g ∈ l, Good g.1 g.2) →
    groups (l.map (·.1)) = some (l.flatMap fun g => [g.2.1, g.2.2])
  | [], _ => rfl
  | [g], h => by
    have := h g (by simp)
    have hn : 46 ∉ g.1 := fun hm => (this.2.2 _ hm).2.1 rfl
    simp [groups, hn, this.1]
  | g :: g' :: l, h => by
    have h1 := h g (by simp)
    have h2 := groups_good (g' :: l) (fun x hx => h x (by simp [hx]))
    simp only [List.map_cons] at h2 ⊢
    rw [groups, h1.1, h2]
    · simp
    · intro e; cases e

theorem double_skip {g : Bytes} (h : 58 ∉ g) (s : Bytes) : double (g ++ s) = (double s).map fun x => (g ++ x.1, x.2) := by
  induction g with
  | nil => cases hs : double s <;> simp [hs]
  | cons c g ih =>
    simp only [List.mem_cons, not_or] at h
    cases hs : g ++ s with
    | nil =>
      rw [List.append_eq_nil_iff] at hs
      rw [hs.1, hs.2]; rfl
    | cons d r =>
      rw [List.cons_append, hs, double, if_neg (fun e => h.1 e.1.symm), ← hs, ih h.2]
      cases double s <;> simp

theorem double_colon {g : Bytes} (h : 58 ∉ g) (h0 : g ≠ []) (s : Bytes) :
    double (58 :: (g ++ s)) = (double (g ++ s)).map fun x => (58 :: x.1, x.2) := by
  cases g with
  | nil => exact absurd rfl h0
  | cons d g =>
    simp only [List.mem_cons, not_or] at h
    rw [List.cons_append, double, if_neg (fun e => h.1 e.2.symm)]

theorem join_ne {sep : UInt8} (g : Bytes) (gs : List Bytes) : ∃ s, join sep (g :: gs) = g ++ s := by
  cases gs with
  | nil => exact ⟨[], by simp [join]⟩
  | cons h gs => exact ⟨_, rfl⟩

theorem double_join_none : ∀ {gs : List Bytes}, gs ≠ [] → (∀ g ∈ gs, 58 ∉ g ∧ g ≠ []) → double (join 58 gs) = none
  | [g], _, h => by
    have := double_skip (h g (by simp)).1 []
    rw [List.append_nil] at this
    rw [join, this]; rfl
  | g :: g' :: gs, _, h => by
    have h3 := double_join_none (gs := g' :: gs) (by simp) (fun x hx => h x (by simp [hx]))
    rw [join, double_skip (h g (by simp)).1]
    obtain ⟨s, hs⟩ := join_ne (sep := 58) g' gs
    have h4 := double_colon (h g' (by simp)).1 (h g' (by simp)).2 s
    rw [← hs, h3] at h4
    rw [h4]; rfl

theorem double_join_some : ∀ {gs : List Bytes}, gs ≠ [] → (∀ g ∈ gs, 58 ∉ g ∧ g ≠ []) → ∀ s,
    double (join 58 gs ++ 58 :: 58 :: s) = some (join 58 gs, s)
  | [g], _, h, s => by rw [join, double_skip (h g (by simp)).1]; simp [double]
  | g :: g' :: gs, _, h, s => by
    have h3 := double_join_some (gs := g' :: gs) (by simp) (fun x hx => h x (by simp [hx])) s
    rw [join, List.append_assoc, double_skip (h g (by simp)).1]
    obtain ⟨r, hs⟩ := join_ne (sep := 58) g' gs
    rw [List.cons_append]
    have h4 := double_colon (h g' (by simp)).1 (h g' (by simp)).2 (r ++ 58 :: 58 :: s)
    rw [← List.append_assoc, ← hs] at h4
    rw [h4, h3]
    simp

theorem good_sep {l : List (Bytes × UInt8 × UInt8)} (h : ∀ g ∈ l, Good g.1 g.2) : ∀ g ∈ l.map (·.1), 58 ∉ g ∧ g ≠ [] := by
  intro g hg
  obtain ⟨x, hx, rfl⟩ := List.mem_map.1 hg
  exact ⟨fun hm => ((h x hx).2.2 _ hm).1 rfl, (h x hx).2.1⟩

/-- The octets of groups. -/
def octs (l : List (Bytes × UInt8 × UInt8)) : Bytes := l.flatMap fun g => [g.2.1, g.2.2]

theorem octs_length (l : List (Bytes × UInt8 × UInt8)) : (octs l).length = 2 * l.length := by
  induction l with
  | nil => rfl
  | cons a l ih => simp [octs] at ih ⊢; omega

theorem pton6_full {l : List (Bytes × UInt8 × UInt8)} (h : ∀ g ∈ l, Good g.1 g.2) (hl : l.length = 8) :
    pton6 (join 58 (l.map (·.1))) = some (octs l) := by
  have h0 : l.map (·.1) ≠ [] := by intro e; rw [List.map_eq_nil_iff] at e; rw [e] at hl; cases hl
  unfold pton6
  rw [double_join_none h0 (good_sep h)]
  dsimp only
  rw [fields_join h0 (fun g hg => (good_sep h g hg).1), groups_good l h]
  have := octs_length l
  simp only [Option.bind_some]
  rw [if_pos (by unfold octs at this; omega)]; rfl

theorem dot_join {l : List (Bytes × UInt8 × UInt8)} (h : ∀ g ∈ l, Good g.1 g.2) : 46 ∉ join 58 (l.map (·.1)) := by
  induction l with
  | nil => simp [join]
  | cons a l ih =>
    have ha : 46 ∉ a.1 := fun hm => ((h a (by simp)).2.2 _ hm).2.1 rfl
    cases l with
    | nil => simpa [join] using ha
    | cons b l =>
      have := ih (fun g hg => h g (by simp [hg]))
      simp only [List.map_cons, join, List.mem_append, List.mem_cons, not_or] at this ⊢
      exact ⟨ha, by decide, this⟩

theorem pton6_short {l r : List (Bytes × UInt8 × UInt8)} (hl : ∀ g ∈ l, Good g.1 g.2) (hr : ∀ g ∈ r, Good g.1 g.2)
    (l0 : l ≠ []) (r0 : r ≠ []) (hn : l.length + r.length ≤ 7) :
    pton6 (join 58 (l.map (·.1)) ++ 58 :: 58 :: join 58 (r.map (·.1))) =
      some (octs l ++ List.replicate (16 - 2 * l.length - 2 * r.length) 0 ++ octs r) := by
  have l1 : l.map (·.1) ≠ [] := by simpa using l0
  have r1 : r.map (·.1) ≠ [] := by simpa using r0
  have side_good : ∀ (m : List (Bytes × UInt8 × UInt8)), (∀ g ∈ m, Good g.1 g.2) → m ≠ [] → side (join 58 (m.map (·.1))) = some (octs m) := by
    intro m hm m0
    unfold side
    have m1 : m.map (·.1) ≠ [] := by simpa using m0
    rw [if_neg, fields_join m1 (fun g hg => (good_sep hm g hg).1), groups_good m hm]; rfl
    cases m with
    | nil => exact absurd rfl m0
    | cons a m =>
      obtain ⟨s, hs⟩ := join_ne (sep := 58) a.1 (m.map (·.1))
      rw [List.map_cons, hs]
      intro e
      rw [List.append_eq_nil_iff] at e
      exact (hm a (by simp)).2.1 e.1
  unfold pton6
  rw [double_join_some l1 (good_sep hl)]
  dsimp only
  rw [if_neg (dot_join hl), side_good l hl l0, side_good r hr r0]
  have e1 := octs_length l
  have e2 := octs_length r
  simp only [Option.bind_eq_bind, Option.bind_some]
  rw [if_pos (by omega), e1, e2]

end Knot.Synth
