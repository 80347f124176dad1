import Verif.Baseenc.LemmasDec
namespace Knot.Baseenc
open Knot.Dname (lexCmp byteCmp)

abbrev natCmp (a b : Nat) : Ordering := compare a b

theorem lexCmp_append {α : Type} (c : α → α → Ordering) (a a' b b' : List α)
    (h : a.length = a'.length) :
    lexCmp c (a ++ b) (a' ++ b') = (lexCmp c a a').then (lexCmp c b b') := by
  induction a generalizing a' with
  | nil =>
    have : a' = [] := List.eq_nil_of_length_eq_zero h.symm
    subst this; simp [lexCmp]
  | cons x s ih =>
    cases a' with
    | nil => simp at h
    | cons y t =>
      simp only [List.cons_append, lexCmp]
      cases c x y <;> simp [Ordering.then, ih t (by simpa using h)]

theorem lexCmp_refl {α : Type} (c : α → α → Ordering) (hc : ∀ a, c a a = .eq) (a : List α) :
    lexCmp c a a = .eq := by
  induction a with
  | nil => rfl
  | cons x s ih => simp [lexCmp, hc, ih]

theorem lexCmp_map {α β : Type} (c : α → α → Ordering) (d : β → β → Ordering) (f : α → β)
    (P : α → Prop) (hf : ∀ a b, P a → P b → d (f a) (f b) = c a b) (x y : List α)
    (hx : ∀ a ∈ x, P a) (hy : ∀ a ∈ y, P a) :
    lexCmp d (x.map f) (y.map f) = lexCmp c x y := by
  induction x generalizing y with
  | nil => cases y <;> simp [lexCmp]
  | cons a s ih =>
    cases y with
    | nil => simp [lexCmp]
    | cons b t =>
      simp only [List.map_cons, lexCmp, hf a b (hx a (by simp)) (hy b (by simp))]
      rw [ih t (fun z hz => hx z (by simp [hz])) (fun z hz => hy z (by simp [hz]))]

def IsBits (l : List Nat) : Prop := ∀ b ∈ l, b < 2

theorem foldl_lt (x y : List Nat) (hx : IsBits x) (hl : x.length = y.length) (a b : Nat) (h : a < b) :
    x.foldl (fun a b => 2 * a + b) a < y.foldl (fun a b => 2 * a + b) b := by
  induction x generalizing y a b with
  | nil =>
    have : y = [] := List.eq_nil_of_length_eq_zero hl.symm
    subst this; exact h
  | cons p s ih =>
    cases y with
    | nil => simp at hl
    | cons q t =>
      have := hx p (by simp)
      exact ih t (fun z hz => hx z (by simp [hz])) (by simpa using hl) _ _ (by show 2 * a + p < 2 * b + q; omega)

theorem foldl_cmp (x y : List Nat) (hx : IsBits x) (hy : IsBits y) (hl : x.length = y.length) (a : Nat) :
    natCmp (x.foldl (fun a b => 2 * a + b) a) (y.foldl (fun a b => 2 * a + b) a) = lexCmp natCmp x y := by
  induction x generalizing y a with
  | nil =>
    have : y = [] := List.eq_nil_of_length_eq_zero hl.symm
    subst this; simp [lexCmp]
  | cons p s ih =>
    cases y with
    | nil => simp at hl
    | cons q t =>
      have hs : IsBits s := fun z hz => hx z (by simp [hz])
      have ht : IsBits t := fun z hz => hy z (by simp [hz])
      have hl' : s.length = t.length := by simpa using hl
      simp only [List.foldl_cons, lexCmp]
      rcases Nat.lt_trichotomy p q with h | h | h
      · rw [show natCmp p q = .lt from Nat.compare_eq_lt.mpr h]
        exact Nat.compare_eq_lt.mpr (foldl_lt s t hs hl' _ _ (by omega))
      · subst h
        rw [show natCmp p p = .eq from Nat.compare_eq_eq.mpr rfl]
        exact ih t hs ht hl' _
      · rw [show natCmp p q = .gt from Nat.compare_eq_gt.mpr h]
        exact Nat.compare_eq_gt.mpr (foldl_lt t s ht hl'.symm _ _ (by omega))

theorem ofBits_cmp (x y : List Nat) (hx : IsBits x) (hy : IsBits y) (hl : x.length = y.length) :
    natCmp (ofBits x) (ofBits y) = lexCmp natCmp x y := foldl_cmp x y hx hy hl 0

theorem isBits_toBits (w n : Nat) : IsBits (toBits w n) := by
  induction w with
  | zero => intro b hb; cases hb
  | succ w ih =>
    intro b hb
    rcases List.mem_cons.mp hb with rfl | hb
    · exact Nat.mod_lt _ (by decide)
    · exact ih b hb

theorem length_toBits (w n : Nat) : (toBits w n).length = w := by
  induction w with
  | zero => rfl
  | succ w ih => simp [toBits, ih]

theorem ofBits_toBits8 (a : UInt8) : ofBits (toBits 8 a.toNat) = a.toNat :=
  forall_byte (P := fun a => ofBits (toBits 8 a.toNat) = a.toNat) (by decide +kernel) a

theorem byteCmp_bits (a b : UInt8) :
    byteCmp a b = lexCmp natCmp (toBits 8 a.toNat) (toBits 8 b.toNat) := by
  rw [← ofBits_cmp _ _ (isBits_toBits _ _) (isBits_toBits _ _) (by simp [length_toBits]),
    ofBits_toBits8, ofBits_toBits8]
  rfl

theorem length_bitsOf (x : Bytes) : (bitsOf x).length = 8 * x.length := by
  induction x with
  | nil => rfl
  | cons a t ih =>
    simp only [bitsOf, List.flatMap_cons, List.length_append, length_toBits, List.length_cons] at *
    omega

theorem isBits_bitsOf (x : Bytes) : IsBits (bitsOf x) := by
  intro b hb
  obtain ⟨a, -, h⟩ := List.mem_flatMap.mp hb
  exact isBits_toBits _ _ b h

theorem lexCmp_bitsOf (x y : Bytes) (h : x.length = y.length) :
    lexCmp byteCmp x y = lexCmp natCmp (bitsOf x) (bitsOf y) := by
  induction x generalizing y with
  | nil =>
    have : y = [] := List.eq_nil_of_length_eq_zero h.symm
    subst this; rfl
  | cons a s ih =>
    cases y with
    | nil => simp at h
    | cons b t =>
      simp only [bitsOf, List.flatMap_cons] at ih ⊢
      rw [lexCmp_append _ _ _ _ _ (by simp [length_toBits]), ← byteCmp_bits, ← ih t (by simpa using h)]
      simp only [lexCmp]
      cases byteCmp a b <;> rfl

theorem groups_cmp (k n : Nat) (x y : List Nat) (hx : IsBits x) (hy : IsBits y)
    (hl : x.length = y.length) (hn : x.length ≤ n * k) :
    lexCmp natCmp (groups k n x) (groups k n y) = lexCmp natCmp x y := by
  induction n generalizing x y with
  | zero =>
    have e1 : x = [] := List.eq_nil_of_length_eq_zero (by omega)
    have e2 : y = [] := List.eq_nil_of_length_eq_zero (by omega)
    subst e1; subst e2; rfl
  | succ n ih =>
    simp only [groups, lexCmp]
    have hz : IsBits (List.replicate k 0) := by
      intro b hb; rw [List.mem_replicate] at hb; omega
    have hx' : IsBits ((x ++ List.replicate k 0).take k) := by
      intro b hb
      rcases List.mem_append.mp (List.mem_of_mem_take hb) with h | h
      · exact hx b h
      · exact hz b h
    have hy' : IsBits ((y ++ List.replicate k 0).take k) := by
      intro b hb
      rcases List.mem_append.mp (List.mem_of_mem_take hb) with h | h
      · exact hy b h
      · exact hz b h
    have hlen : ((x ++ List.replicate k 0).take k).length = ((y ++ List.replicate k 0).take k).length := by
      simp [hl]
    have key : lexCmp natCmp ((x ++ List.replicate k 0).take k) ((y ++ List.replicate k 0).take k)
        = lexCmp natCmp (x.take k) (y.take k) := by
      rw [List.take_append, List.take_append, lexCmp_append _ _ _ _ _ (by simp [hl]), hl,
        lexCmp_refl _ (fun a => Nat.compare_eq_eq.mpr rfl)]
      cases lexCmp natCmp (x.take k) (y.take k) <;> rfl
    rw [ofBits_cmp _ _ hx' hy' hlen, key,
      ih (x.drop k) (y.drop k) (fun b hb => hx b (List.mem_of_mem_drop hb))
        (fun b hb => hy b (List.mem_of_mem_drop hb)) (by simp [hl])
        (by rw [List.length_drop, Nat.sub_le_iff_le_add]; rw [Nat.add_mul] at hn; omega)]
    conv => rhs; rw [← List.take_append_drop k x, ← List.take_append_drop k y]
    rw [lexCmp_append _ _ _ _ _ (by simp [hl])]
    cases lexCmp natCmp (x.take k) (y.take k) <;> rfl

theorem length_groups (k n : Nat) (x : List Nat) : (groups k n x).length = n := by
  induction n generalizing x with
  | zero => rfl
  | succ n ih => simp [groups, ih]

theorem ofBits_lt (x : List Nat) (hx : IsBits x) (a : Nat) :
    x.foldl (fun a b => 2 * a + b) a < (a + 1) * 2 ^ x.length := by
  induction x generalizing a with
  | nil => simp
  | cons p s ih =>
    have := hx p (by simp)
    refine Nat.lt_of_lt_of_le (ih (fun z hz => hx z (by simp [hz])) _) ?_
    rw [List.length_cons, Nat.pow_succ, Nat.mul_comm _ 2, ← Nat.mul_assoc]
    exact Nat.mul_le_mul_right _ (by show 2 * a + p + 1 ≤ _; omega)

theorem groups_lt (k n : Nat) (x : List Nat) (hx : IsBits x) : ∀ v ∈ groups k n x, v < 2 ^ k := by
  induction n generalizing x with
  | zero => intro v hv; cases hv
  | succ n ih =>
    intro v hv
    rcases List.mem_cons.mp hv with rfl | hv
    · have hx' : IsBits ((x ++ List.replicate k 0).take k) := by
        intro b hb
        rcases List.mem_append.mp (List.mem_of_mem_take hb) with h | h
        · exact hx b h
        · rw [List.mem_replicate] at h; omega
      have := ofBits_lt _ hx' 0
      simpa [ofBits] using this
    · exact ih _ (fun b hb => hx b (List.mem_of_mem_drop hb)) v hv

theorem alpha32_mono : ∀ a < 32, ∀ b < 32, byteCmp (alpha32hex a) (alpha32hex b) = natCmp a b := by
  decide +kernel

theorem encodeSpec32_cmp (x y : Bytes) (h : x.length = y.length) :
    lexCmp byteCmp (encodeSpec 5 8 alpha32hex x) (encodeSpec 5 8 alpha32hex y) = lexCmp byteCmp x y := by
  have hb : (encodeBody 5 alpha32hex x).length = (encodeBody 5 alpha32hex y).length := by
    simp [encodeBody, length_groups, h]
  unfold encodeSpec
  simp only [hb]
  rw [lexCmp_append _ _ _ _ _ hb, lexCmp_refl _ Dname.byteCmp_self]
  have : lexCmp byteCmp (encodeBody 5 alpha32hex x) (encodeBody 5 alpha32hex y) = lexCmp byteCmp x y := by
    unfold encodeBody
    rw [lexCmp_map natCmp byteCmp alpha32hex (fun i => i < 32) (fun a b ha hb => alpha32_mono a ha b hb) _ _
      (groups_lt 5 _ _ (isBits_bitsOf x)) (groups_lt 5 _ _ (isBits_bitsOf y)), ← h,
      groups_cmp 5 _ _ _ (isBits_bitsOf x) (isBits_bitsOf y) (by simp [length_bitsOf, h])
        (by rw [length_bitsOf]; omega), ← lexCmp_bitsOf x y h]
  rw [this]
  cases lexCmp byteCmp x y <;> rfl

end Knot.Baseenc
