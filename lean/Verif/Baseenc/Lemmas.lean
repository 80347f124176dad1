import Verif.Baseenc.Model
import Verif.Baseenc.Spec
import Verif.Dname.LemmasText
namespace Knot.Baseenc

theorem enc64_alpha : ∀ i < 64, encAt enc64Tbl i = alpha64 i := by decide +kernel
theorem enc64u_alpha : ∀ i < 64, encAt enc64uTbl i = alpha64url i := by decide +kernel
theorem enc32_alpha : ∀ i < 32, encAt enc32Tbl i = alpha32hex i := by decide +kernel

theorem byteLt (a : UInt8) : a.toNat < 256 := a.toNat_lt

theorem body64_step (α : Nat → UInt8) (a b c : UInt8) (t : Bytes) :
    encodeBody 6 α (a :: b :: c :: t) =
      α (a.toNat / 4) :: α (a.toNat % 4 * 16 + b.toNat / 16) ::
      α (b.toNat % 16 * 4 + c.toNat / 64) :: α (c.toNat % 64) :: encodeBody 6 α t := by
  unfold encodeBody
  have hn : (8 * (a :: b :: c :: t).length + 6 - 1) / 6 = (8 * t.length + 6 - 1) / 6 + 1 + 1 + 1 + 1 := by
    simp only [List.length_cons]; omega
  rw [hn]
  have ha := byteLt a; have hb := byteLt b; have hc := byteLt c
  simp only [groups, bitsOf, List.flatMap_cons, toBits, List.cons_append, List.nil_append, List.take,
    List.drop, ofBits, List.foldl, List.map_cons, List.cons.injEq, and_true]
  refine ⟨?_, ?_, ?_, ?_⟩ <;> congr 1 <;> omega

theorem body64_two (α : Nat → UInt8) (a b : UInt8) :
    encodeBody 6 α [a, b] =
      [α (a.toNat / 4), α (a.toNat % 4 * 16 + b.toNat / 16), α (b.toNat % 16 * 4)] := by
  have ha := byteLt a; have hb := byteLt b
  unfold encodeBody
  have hn : (8 * [a, b].length + 6 - 1) / 6 = 3 := by simp
  rw [hn]
  simp only [groups, bitsOf, List.flatMap_cons, List.flatMap_nil, toBits, List.cons_append,
    List.nil_append, List.take, List.replicate,
    List.drop, ofBits, List.foldl, List.map_cons, List.map_nil, List.cons.injEq, and_true]
  refine ⟨?_, ?_, ?_⟩ <;> congr 1 <;> omega

theorem body64_one (α : Nat → UInt8) (a : UInt8) :
    encodeBody 6 α [a] = [α (a.toNat / 4), α (a.toNat % 4 * 16)] := by
  have ha := byteLt a
  unfold encodeBody
  have hn : (8 * [a].length + 6 - 1) / 6 = 2 := by simp
  rw [hn]
  simp only [groups, bitsOf, List.flatMap_cons, List.flatMap_nil, toBits, List.cons_append,
    List.nil_append, List.take, List.replicate,
    List.drop, ofBits, List.foldl, List.map_cons, List.map_nil, List.cons.injEq, and_true]
  refine ⟨?_, ?_⟩ <;> congr 1 <;> omega

theorem enc64Loop_spec (x : Bytes) : enc64Loop x = encodeSpec 6 4 alpha64 x := by
  fun_induction enc64Loop x with
  | case1 a b c t ih =>
    have ha := byteLt a; have hb := byteLt b; have hc := byteLt c
    rw [ih]
    simp only [encodeSpec, body64_step, List.length_cons, List.cons_append]
    rw [enc64_alpha _ (by omega), enc64_alpha _ (by omega), enc64_alpha _ (by omega),
      enc64_alpha _ (by omega)]
    rw [show ((encodeBody 6 alpha64 t).length + 1 + 1 + 1 + 1) % 4 =
      (encodeBody 6 alpha64 t).length % 4 by omega]
  | case2 a b =>
    have ha := byteLt a; have hb := byteLt b
    simp only [encodeSpec, body64_two]
    rw [enc64_alpha _ (by omega), enc64_alpha _ (by omega), enc64_alpha _ (by omega)]
    rfl
  | case3 a =>
    have ha := byteLt a
    simp only [encodeSpec, body64_one]
    rw [enc64_alpha _ (by omega), enc64_alpha _ (by omega)]
    rfl
  | case4 => rfl

theorem enc64uLoop_spec (x : Bytes) : enc64uLoop x = encodeBody 6 alpha64url x := by
  fun_induction enc64uLoop x with
  | case1 a b c t ih =>
    have ha := byteLt a; have hb := byteLt b; have hc := byteLt c
    rw [ih, body64_step]
    rw [enc64u_alpha _ (by omega), enc64u_alpha _ (by omega), enc64u_alpha _ (by omega),
      enc64u_alpha _ (by omega)]
  | case2 a b =>
    have ha := byteLt a; have hb := byteLt b
    rw [body64_two]
    rw [enc64u_alpha _ (by omega), enc64u_alpha _ (by omega), enc64u_alpha _ (by omega)]
  | case3 a =>
    have ha := byteLt a
    rw [body64_one]
    rw [enc64u_alpha _ (by omega), enc64u_alpha _ (by omega)]
  | case4 => rfl

theorem body32_step (α : Nat → UInt8) (a b c d e : UInt8) (t : Bytes) :
    encodeBody 5 α (a :: b :: c :: d :: e :: t) =
      α (a.toNat / 8) :: α (a.toNat % 8 * 4 + b.toNat / 64) :: α (b.toNat % 64 / 2) ::
      α (b.toNat % 2 * 16 + c.toNat / 16) :: α (c.toNat % 16 * 2 + d.toNat / 128) ::
      α (d.toNat % 128 / 4) :: α (d.toNat % 4 * 8 + e.toNat / 32) :: α (e.toNat % 32) ::
      encodeBody 5 α t := by
  unfold encodeBody
  have hn : (8 * (a :: b :: c :: d :: e :: t).length + 5 - 1) / 5
      = (8 * t.length + 5 - 1) / 5 + 1 + 1 + 1 + 1 + 1 + 1 + 1 + 1 := by
    simp only [List.length_cons]; omega
  rw [hn]
  have ha := byteLt a; have hb := byteLt b; have hc := byteLt c
  have hd := byteLt d; have he := byteLt e
  simp only [groups, bitsOf, List.flatMap_cons, toBits, List.cons_append, List.nil_append, List.take,
    List.drop, ofBits, List.foldl, List.map_cons, List.cons.injEq, and_true]
  refine ⟨?_, ?_, ?_, ?_, ?_, ?_, ?_, ?_⟩ <;> congr 1 <;> omega

theorem body32_4 (a b c d : UInt8) : encodeBody 5 alpha32hex [a, b, c, d] =
  [alpha32hex (a.toNat / 8), alpha32hex (a.toNat % 8 * 4 + b.toNat / 64),
   alpha32hex (b.toNat % 64 / 2),
   alpha32hex (b.toNat % 2 * 16 + c.toNat / 16), alpha32hex (c.toNat % 16 * 2 + d.toNat / 128),
   alpha32hex (d.toNat % 128 / 4), alpha32hex (d.toNat % 4 * 8)] := by
  have ha := byteLt a
  have hb := byteLt b
  have hc := byteLt c
  have hd := byteLt d
  unfold encodeBody
  have hn : (8 * [a, b, c, d].length + 5 - 1) / 5 = 7 := by simp
  rw [hn]
  simp only [groups, bitsOf, List.flatMap_cons, List.flatMap_nil, toBits, List.cons_append,
    List.nil_append, List.take, List.replicate,
    List.drop, ofBits, List.foldl, List.map_cons, List.map_nil, List.cons.injEq, and_true]
  refine ⟨?_, ?_, ?_, ?_, ?_, ?_, ?_⟩ <;> congr 1 <;> omega

theorem body32_3 (a b c : UInt8) : encodeBody 5 alpha32hex [a, b, c] =
  [alpha32hex (a.toNat / 8), alpha32hex (a.toNat % 8 * 4 + b.toNat / 64),
   alpha32hex (b.toNat % 64 / 2),
   alpha32hex (b.toNat % 2 * 16 + c.toNat / 16), alpha32hex (c.toNat % 16 * 2)] := by
  have ha := byteLt a
  have hb := byteLt b
  have hc := byteLt c
  unfold encodeBody
  have hn : (8 * [a, b, c].length + 5 - 1) / 5 = 5 := by simp
  rw [hn]
  simp only [groups, bitsOf, List.flatMap_cons, List.flatMap_nil, toBits, List.cons_append,
    List.nil_append, List.take, List.replicate,
    List.drop, ofBits, List.foldl, List.map_cons, List.map_nil, List.cons.injEq, and_true]
  refine ⟨?_, ?_, ?_, ?_, ?_⟩ <;> congr 1 <;> omega

theorem body32_2 (a b : UInt8) : encodeBody 5 alpha32hex [a, b] =
  [alpha32hex (a.toNat / 8), alpha32hex (a.toNat % 8 * 4 + b.toNat / 64),
   alpha32hex (b.toNat % 64 / 2), alpha32hex (b.toNat % 2 * 16)] := by
  have ha := byteLt a
  have hb := byteLt b
  unfold encodeBody
  have hn : (8 * [a, b].length + 5 - 1) / 5 = 4 := by simp
  rw [hn]
  simp only [groups, bitsOf, List.flatMap_cons, List.flatMap_nil, toBits, List.cons_append,
    List.nil_append, List.take, List.replicate,
    List.drop, ofBits, List.foldl, List.map_cons, List.map_nil, List.cons.injEq, and_true]
  refine ⟨?_, ?_, ?_, ?_⟩ <;> congr 1 <;> omega

theorem body32_1 (a : UInt8) : encodeBody 5 alpha32hex [a] =
  [alpha32hex (a.toNat / 8), alpha32hex (a.toNat % 8 * 4)] := by
  have ha := byteLt a
  unfold encodeBody
  have hn : (8 * [a].length + 5 - 1) / 5 = 2 := by simp
  rw [hn]
  simp only [groups, bitsOf, List.flatMap_cons, List.flatMap_nil, toBits, List.cons_append,
    List.nil_append, List.take, List.replicate,
    List.drop, ofBits, List.foldl, List.map_cons, List.map_nil, List.cons.injEq, and_true]
  refine ⟨?_, ?_⟩ <;> congr 1 <;> omega

theorem enc32Loop_spec (x : Bytes) : enc32Loop x = encodeSpec 5 8 alpha32hex x := by
  fun_induction enc32Loop x with
  | case1 a b c d e t ih =>
    have ha := byteLt a; have hb := byteLt b; have hc := byteLt c
    have hd := byteLt d; have he := byteLt e
    rw [ih]
    simp only [encodeSpec, body32_step, List.length_cons, List.cons_append]
    rw [enc32_alpha _ (by omega), enc32_alpha _ (by omega), enc32_alpha _ (by omega),
      enc32_alpha _ (by omega), enc32_alpha _ (by omega), enc32_alpha _ (by omega),
      enc32_alpha _ (by omega), enc32_alpha _ (by omega)]
    rw [show ((encodeBody 5 alpha32hex t).length + 1 + 1 + 1 + 1 + 1 + 1 + 1 + 1) % 8 =
      (encodeBody 5 alpha32hex t).length % 8 by omega]
  | case2 a b c d =>
    have ha := byteLt a; have hb := byteLt b; have hc := byteLt c
    have hd := byteLt d
    simp only [encodeSpec, body32_4]
    rw [enc32_alpha _ (by omega), enc32_alpha _ (by omega), enc32_alpha _ (by omega),
      enc32_alpha _ (by omega), enc32_alpha _ (by omega), enc32_alpha _ (by omega),
      enc32_alpha _ (by omega)]
    rfl
  | case3 a b c =>
    have ha := byteLt a; have hb := byteLt b; have hc := byteLt c
    simp only [encodeSpec, body32_3]
    rw [enc32_alpha _ (by omega), enc32_alpha _ (by omega), enc32_alpha _ (by omega),
      enc32_alpha _ (by omega), enc32_alpha _ (by omega)]
    rfl
  | case4 a b =>
    have ha := byteLt a; have hb := byteLt b
    simp only [encodeSpec, body32_2]
    rw [enc32_alpha _ (by omega), enc32_alpha _ (by omega), enc32_alpha _ (by omega),
      enc32_alpha _ (by omega)]
    rfl
  | case5 a =>
    have ha := byteLt a
    simp only [encodeSpec, body32_1]
    rw [enc32_alpha _ (by omega), enc32_alpha _ (by omega)]
    rfl
  | case6 => rfl

end Knot.Baseenc
