import Verif.Baseenc.Lemmas
namespace Knot.Baseenc

/-- Letter case is ignored by base32hex decoding. -/
def lower (c : UInt8) : UInt8 := if 65 ≤ c.toNat ∧ c.toNat ≤ 90 then c + 32 else c

theorem forall_byte {P : UInt8 → Prop} (h : ∀ n < 256, P (UInt8.ofNat n)) (c : UInt8) : P c := by
  have := h c.toNat (byteLt c)
  rwa [UInt8.ofNat_toNat] at this

theorem val64_dec (c : UInt8) :
    value 6 alpha64 c = if decAt dec64Tbl c < 64 then some (decAt dec64Tbl c) else none :=
  forall_byte (P := fun c => value 6 alpha64 c =
    if decAt dec64Tbl c < 64 then some (decAt dec64Tbl c) else none) (by decide +kernel) c
theorem pad64_dec (c : UInt8) : c = 61 ↔ decAt dec64Tbl c = 64 :=
  forall_byte (P := fun c => c = 61 ↔ decAt dec64Tbl c = 64) (by decide +kernel) c
theorem val64u_dec (c : UInt8) :
    value 6 alpha64url c = if decAt dec64uTbl c < 64 then some (decAt dec64uTbl c) else none :=
  forall_byte (P := fun c => value 6 alpha64url c =
    if decAt dec64uTbl c < 64 then some (decAt dec64uTbl c) else none) (by decide +kernel) c
theorem pad64u_dec (c : UInt8) : c = 0 ↔ decAt dec64uTbl c = 64 :=
  forall_byte (P := fun c => c = 0 ↔ decAt dec64uTbl c = 64) (by decide +kernel) c
theorem val32_dec (c : UInt8) :
    value 5 alpha32hex (lower c) = if decAt dec32Tbl c < 32 then some (decAt dec32Tbl c) else none :=
  forall_byte (P := fun c => value 5 alpha32hex (lower c) =
    if decAt dec32Tbl c < 32 then some (decAt dec32Tbl c) else none) (by decide +kernel) c
theorem pad32_dec (c : UInt8) : c = 61 ↔ decAt dec32Tbl c = 32 :=
  forall_byte (P := fun c => c = 61 ↔ decAt dec32Tbl c = 32) (by decide +kernel) c

theorem dec64_enc : ∀ i < 64, decAt dec64Tbl (encAt enc64Tbl i) = i := by decide +kernel
theorem dec64u_enc : ∀ i < 64, decAt dec64uTbl (encAt enc64uTbl i) = i := by decide +kernel
theorem dec32_enc : ∀ i < 32, decAt dec32Tbl (encAt enc32Tbl i) = i := by decide +kernel
theorem dec64_pad : decAt dec64Tbl padChar = 64 := by decide +kernel
theorem dec32_pad : decAt dec32Tbl padChar = 32 := by decide +kernel

theorem ofNat_of_eq {n : Nat} {a : UInt8} (h : n % 256 = a.toNat) : UInt8.ofNat n = a := by
  apply UInt8.toNat_inj.mp
  simp only [UInt8.toNat_ofNat']
  simpa using h

/-! ## bytes written by values -/

set_option maxHeartbeats 1000000 in
theorem bytes64_step (a b c d : Nat) (t : List Nat) (ha : a < 64) (hb : b < 64) (hc : c < 64)
    (hd : d < 64) :
    bytesOf 6 (a :: b :: c :: d :: t) = out64 0 a b c d ++ bytesOf 6 t := by
  unfold bytesOf out64
  have hn : 6 * (a :: b :: c :: d :: t).length / 8 = 6 * t.length / 8 + 1 + 1 + 1 := by
    simp only [List.length_cons]; omega
  rw [hn]
  simp only [groups, List.flatMap_cons, toBits, List.cons_append, List.nil_append, List.take,
    List.drop, ofBits, List.foldl, List.map_cons, List.cons.injEq, and_true]
  refine ⟨?_, ?_, ?_⟩ <;> apply UInt8.toNat_inj.mp <;> simp only [UInt8.toNat_ofNat'] <;> omega

theorem bytes64_three (a b c d : Nat) (ha : a < 64) (hb : b < 64) (hc : c < 64) :
    bytesOf 6 [a, b, c] = out64 1 a b c d := by
  unfold bytesOf out64
  have hn : 6 * [a, b, c].length / 8 = 2 := by simp
  rw [hn]
  simp only [groups, List.flatMap_cons, List.flatMap_nil, toBits, List.cons_append, List.nil_append,
    List.take, List.drop, ofBits, List.foldl, List.map_cons, List.map_nil, List.cons.injEq, and_true]
  refine ⟨?_, ?_⟩ <;> apply UInt8.toNat_inj.mp <;> simp only [UInt8.toNat_ofNat'] <;> omega

theorem bytes64_two (a b c d : Nat) (ha : a < 64) (hb : b < 64) :
    bytesOf 6 [a, b] = out64 2 a b c d := by
  unfold bytesOf out64
  have hn : 6 * [a, b].length / 8 = 1 := by simp
  rw [hn]
  simp only [groups, List.flatMap_cons, List.flatMap_nil, toBits, List.cons_append, List.nil_append,
    List.take, List.drop, ofBits, List.foldl, List.map_cons, List.map_nil, List.cons.injEq, and_true]
  apply UInt8.toNat_inj.mp; simp only [UInt8.toNat_ofNat']; omega

set_option maxHeartbeats 1000000 in
theorem bytes32_step (a b c d e f g h : Nat) (t : List Nat) (ha : a < 32) (hb : b < 32) (hc : c < 32)
    (hd : d < 32) (he : e < 32) (hf : f < 32) (hg : g < 32) (hh : h < 32) :
    bytesOf 5 (a :: b :: c :: d :: e :: f :: g :: h :: t) = out32 0 a b c d e f g h ++ bytesOf 5 t := by
  unfold bytesOf out32
  have hn : 5 * (a :: b :: c :: d :: e :: f :: g :: h :: t).length / 8
      = 5 * t.length / 8 + 1 + 1 + 1 + 1 + 1 := by
    simp only [List.length_cons]; omega
  rw [hn]
  simp only [groups, List.flatMap_cons, toBits, List.cons_append, List.nil_append, List.take,
    List.drop, ofBits, List.foldl, List.map_cons, List.cons.injEq, and_true]
  refine ⟨?_, ?_, ?_, ?_, ?_⟩ <;> apply UInt8.toNat_inj.mp <;> simp only [UInt8.toNat_ofNat'] <;> omega

set_option maxHeartbeats 1000000 in
theorem bytes32_7 (a b c d e f g h : Nat) (ha : a < 32) (hb : b < 32) (hc : c < 32)
    (hd : d < 32) (he : e < 32) (hf : f < 32) (hg : g < 32) :
    bytesOf 5 [a, b, c, d, e, f, g] = out32 1 a b c d e f g h := by
  unfold bytesOf out32
  have hn : 5 * [a, b, c, d, e, f, g].length / 8 = 4 := by simp
  rw [hn]
  simp only [groups, List.flatMap_cons, List.flatMap_nil, toBits, List.cons_append, List.nil_append,
    List.take, List.drop, ofBits, List.foldl, List.map_cons, List.map_nil, List.cons.injEq, and_true]
  refine ⟨?_, ?_, ?_, ?_⟩ <;> apply UInt8.toNat_inj.mp <;> simp only [UInt8.toNat_ofNat'] <;> omega

theorem bytes32_5 (a b c d e f g h : Nat) (ha : a < 32) (hb : b < 32) (hc : c < 32)
    (hd : d < 32) (he : e < 32) :
    bytesOf 5 [a, b, c, d, e] = out32 3 a b c d e f g h := by
  unfold bytesOf out32
  have hn : 5 * [a, b, c, d, e].length / 8 = 3 := by simp
  rw [hn]
  simp only [groups, List.flatMap_cons, List.flatMap_nil, toBits, List.cons_append, List.nil_append,
    List.take, List.drop, ofBits, List.foldl, List.map_cons, List.map_nil, List.cons.injEq, and_true]
  refine ⟨?_, ?_, ?_⟩ <;> apply UInt8.toNat_inj.mp <;> simp only [UInt8.toNat_ofNat'] <;> omega

theorem bytes32_4 (a b c d e f g h : Nat) (ha : a < 32) (hb : b < 32) (hc : c < 32) (hd : d < 32) :
    bytesOf 5 [a, b, c, d] = out32 4 a b c d e f g h := by
  unfold bytesOf out32
  have hn : 5 * [a, b, c, d].length / 8 = 2 := by simp
  rw [hn]
  simp only [groups, List.flatMap_cons, List.flatMap_nil, toBits, List.cons_append, List.nil_append,
    List.take, List.drop, ofBits, List.foldl, List.map_cons, List.map_nil, List.cons.injEq, and_true]
  refine ⟨?_, ?_⟩ <;> apply UInt8.toNat_inj.mp <;> simp only [UInt8.toNat_ofNat'] <;> omega

theorem bytes32_2 (a b c d e f g h : Nat) (ha : a < 32) (hb : b < 32) :
    bytesOf 5 [a, b] = out32 6 a b c d e f g h := by
  unfold bytesOf out32
  have hn : 5 * [a, b].length / 8 = 1 := by simp
  rw [hn]
  simp only [groups, List.flatMap_cons, List.flatMap_nil, toBits, List.cons_append, List.nil_append,
    List.take, List.drop, ofBits, List.foldl, List.map_cons, List.map_nil, List.cons.injEq, and_true]
  apply UInt8.toNat_inj.mp; simp only [UInt8.toNat_ofNat']; omega

/-! ## round trips -/

theorem dec64_round (x : Bytes) : dec64Loop 0 (enc64Loop x) = .ok x := by
  fun_induction enc64Loop x with
  | case1 a b c t ih =>
    have ha := byteLt a; have hb := byteLt b; have hc := byteLt c
    simp only [dec64Loop]
    rw [dec64_enc _ (by omega), dec64_enc _ (by omega), dec64_enc _ (by omega),
      dec64_enc _ (by omega)]
    rw [if_neg (by omega), if_neg (by omega)]
    simp only [show ¬ (c.toNat % 64 ≥ 64) by omega, show ¬ (b.toNat % 16 * 4 + c.toNat / 64 ≥ 64) by omega,
      if_false]
    rw [if_neg (by omega), ih]
    simp only [Res.bind_ok, out64]
    congr 1
    rw [ofNat_of_eq (a := a) (by omega), ofNat_of_eq (a := b) (by omega), ofNat_of_eq (a := c) (by omega)]
    rfl
  | case2 a b =>
    have ha := byteLt a; have hb := byteLt b
    simp only [dec64Loop, dec64_pad]
    rw [dec64_enc _ (by omega), dec64_enc _ (by omega), dec64_enc _ (by omega)]
    simp only [show ¬ (b.toNat % 16 * 4 ≥ 64) by omega]
    rw [if_neg (by simp), if_neg (by simp), if_neg (by omega)]
    simp only [Res.bind_ok, out64, ge_iff_le, Nat.le_refl, if_true, if_false, List.append_nil]
    rw [ofNat_of_eq (a := a) (by omega), ofNat_of_eq (a := b) (by omega)]
  | case3 a =>
    have ha := byteLt a
    simp only [dec64Loop, dec64_pad]
    rw [dec64_enc _ (by omega), dec64_enc _ (by omega)]
    rw [if_neg (by simp), if_neg (by simp), if_neg (by omega)]
    simp only [Res.bind_ok, out64, ge_iff_le, Nat.le_refl, if_true, List.append_nil]
    rw [ofNat_of_eq (a := a) (by omega)]
  | case4 => rfl

end Knot.Baseenc
