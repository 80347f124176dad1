import Verif.Baseenc.LemmasUrl
import Verif.Baseenc.LemmasOrd
/-!
# C10, C11: base64, base64url and base32hex
-/
namespace Knot
open Baseenc
open Knot.Dname (lexCmp byteCmp)

/-! ## base64 -/

/-- C10. The encoder writes exactly the RFC 4648 text whenever the input is not too long and the
output buffer is large enough, and fails with a range error otherwise. -/
theorem C10_base64_encode (x : Baseenc.Bytes) (outLen : Nat) :
    encode64 x outLen = if x.length ≤ 1610612733 ∧ (x.length + 2) / 3 * 4 ≤ outLen
      then .ok (encodeSpec 6 4 alpha64 x) else .err .erange := by
  unfold encode64
  rw [enc64Loop_spec]
  split <;> split <;> first | rfl | omega

/-- C10. The text is as long as documented. -/
theorem C10_base64_length (x : Baseenc.Bytes) :
    (encodeSpec 6 4 alpha64 x).length = (x.length + 2) / 3 * 4 := by
  unfold encodeSpec encodeBody
  simp only [List.length_append, List.length_map, length_groups, List.length_replicate]
  omega

/-- C10. Decoding the encoder's output returns the original data. -/
theorem C10_base64_roundtrip (x t : Baseenc.Bytes) (n m : Nat) (h : encode64 x n = .ok t)
    (hm : t.length / 4 * 3 ≤ m) : decode64 t m = .ok x := by
  rw [C10_base64_encode] at h
  split at h
  · rename_i hx
    cases h
    have hl := C10_base64_length x
    unfold decode64
    rw [if_neg (by omega), if_neg (by omega), ← enc64Loop_spec, dec64_round]
  · cases h

/-- C10. The decoder's checks: the outcome for every input in terms of the input length. It is
never undefined. -/
theorem C10_base64_decode_total (t : Baseenc.Bytes) (m : Nat) :
    (∃ x, decode64 t m = .ok x ∧ x.length ≤ t.length / 4 * 3 ∧ x.length ≤ m ∧ t.length % 4 = 0 ∧
      ∀ c ∈ t, c = 61 ∨ (value 6 alpha64 c).isSome) ∨
    decode64 t m = .err .erange ∨ decode64 t m = .err .base64Size ∨ decode64 t m = .err .base64Char := by
  unfold decode64
  by_cases h1 : t.length > 2147483647 ∨ m < (t.length + 3) / 4 * 3
  · simp [h1]
  · rw [if_neg h1]
    by_cases h2 : t.length % 4 ≠ 0
    · simp [h2]
    · rw [if_neg h2]
      have key : ∀ n (t : Baseenc.Bytes), t.length = 4 * n → ∀ pad,
          (∃ x, dec64Loop pad t = .ok x ∧ x.length ≤ 3 * n ∧
            ∀ c ∈ t, c = 61 ∨ (value 6 alpha64 c).isSome) ∨
          dec64Loop pad t = .err .base64Char := by
        intro n
        induction n with
        | zero =>
          intro t ht pad
          have : t = [] := List.eq_nil_of_length_eq_zero (by omega)
          subst this
          exact .inl ⟨[], rfl, by simp, by simp⟩
        | succ n ih =>
          intro t ht pad
          match t, ht with
          | i0 :: i1 :: i2 :: i3 :: t, ht =>
            have hv : ∀ c, decAt dec64Tbl c ≤ 64 → c = 61 ∨ (value 6 alpha64 c).isSome = true := by
              intro c hc
              rw [val64_dec]
              by_cases h : decAt dec64Tbl c = 64
              · exact .inl ((pad64_dec c).mpr h)
              · right; rw [if_pos (by omega)]; rfl
            have step : ∀ p q,
                (∃ x, (do let r ← dec64Loop p t
                          Res.ok (out64 q (decAt dec64Tbl i0) (decAt dec64Tbl i1)
                            (decAt dec64Tbl i2) (decAt dec64Tbl i3) ++ r)) = Res.ok x ∧
                    x.length ≤ 3 * (n + 1) ∧
                    ∀ c ∈ t, c = 61 ∨ (value 6 alpha64 c).isSome = true) ∨
                (do let r ← dec64Loop p t
                    Res.ok (out64 q (decAt dec64Tbl i0) (decAt dec64Tbl i1)
                      (decAt dec64Tbl i2) (decAt dec64Tbl i3) ++ r)) = Res.err .base64Char := by
              intro p q
              rcases ih t (by simp only [List.length_cons] at ht; omega) p with ⟨x, hx, hlen, hall⟩ | hx
              · left
                rw [hx]
                refine ⟨_, rfl, ?_, hall⟩
                have : (out64 q (decAt dec64Tbl i0) (decAt dec64Tbl i1)
                      (decAt dec64Tbl i2) (decAt dec64Tbl i3)).length ≤ 3 := by
                  unfold out64
                  split <;> simp
                rw [List.length_append]
                omega
              · right
                rw [hx]; rfl
            simp only [dec64Loop]
            generalize hp : (if decAt dec64Tbl i3 ≥ 64 then 1 else pad) = p
            by_cases g4 : decAt dec64Tbl i3 ≥ 64 ∧ ¬(decAt dec64Tbl i3 = 64 ∧ pad = 0)
            · rw [if_pos g4]; exact .inr rfl
            · rw [if_neg g4]
              by_cases g3 : decAt dec64Tbl i2 ≥ 64 ∧ ¬(decAt dec64Tbl i2 = 64 ∧ p = 1)
              · rw [if_pos g3]; exact .inr rfl
              · rw [if_neg g3]
                by_cases g2 : decAt dec64Tbl i1 ≥ 64 ∨ decAt dec64Tbl i0 ≥ 64
                · rw [if_pos g2]; exact .inr rfl
                · rw [if_neg g2]
                  rcases step (if decAt dec64Tbl i2 ≥ 64 then 2 else p)
                      (if decAt dec64Tbl i2 ≥ 64 then 2 else p) with ⟨x, h1, h3, h4⟩ | h1
                  · refine .inl ⟨x, h1, h3, ?_⟩
                    intro c hc
                    simp only [List.mem_cons] at hc
                    rcases hc with rfl | rfl | rfl | rfl | hc
                    · exact hv _ (by omega)
                    · exact hv _ (by omega)
                    · exact hv _ (by omega)
                    · exact hv _ (by omega)
                    · exact h4 c hc
                  · exact .inr h1
      rcases key (t.length / 4) t (by omega) 0 with ⟨x, hx, hl, hc⟩ | hx
      · exact .inl ⟨x, hx, by omega, by omega, by omega, hc⟩
      · exact .inr (.inr (.inr hx))

/-- C10, the full claim for the decoder would be: it accepts exactly the RFC 4648 texts. This
holds for texts whose padding characters, if any, are within the last four characters. -/
theorem C10_base64_decode_exact_partial (t : Baseenc.Bytes) (m : Nat) (hl : t.length ≤ 2147483647)
    (hm : (t.length + 3) / 4 * 3 ≤ m) (hp : 61 ∉ t.take (t.length - 4)) (x : Baseenc.Bytes) :
    decode64 t m = .ok x ↔ decodeSpec 6 4 (value 6 alpha64) t = some x := by
  unfold decode64
  rw [if_neg (by omega)]
  by_cases h2 : t.length % 4 ≠ 0
  · rw [if_pos h2]
    simp [decodeSpec, h2]
  · rw [if_neg h2]
    rcases dec64_exact (t.length / 4) t (by omega) hp with ⟨y, h1, h3⟩ | ⟨h1, h3⟩
    · rw [h1, h3]; simp
    · rw [h1, h3]; simp

/-- C10. Why the exactness theorem is partial: padding in the middle of the text is accepted, and
the groups behind it are silently shortened. -/
theorem C10_base64_inner_padding_accepted :
    ∃ t x, decode64 t t.length = .ok x ∧ decodeSpec 6 4 (value 6 alpha64) t = none ∧ x.length = 4 :=
  -- "QUI=QUJD" decodes to "ABAB" although the second group stands for "ABC"
  ⟨[81, 85, 73, 61, 81, 85, 74, 68], [65, 66, 65, 66], by decide +kernel, by decide +kernel, rfl⟩

example : encode64 [102, 111, 111, 98] 8 = .ok [90, 109, 57, 118, 89, 103, 61, 61] := by decide +kernel
example : decode64 [90, 109, 57, 118, 89, 103, 61, 61] 6 = .ok [102, 111, 111, 98] := by decide +kernel

/-! ## base64url -/

/-- C10. base64url encoding is RFC 4648 section 5 without padding. -/
theorem C10_base64url_encode (x : Baseenc.Bytes) (outLen : Nat) :
    encode64u x outLen = if x.length ≤ 1610612733 ∧ (x.length + 2) / 3 * 4 ≤ outLen
      then .ok (encodeBody 6 alpha64url x) else .err .erange := by
  unfold encode64u
  rw [enc64uLoop_spec]
  split <;> split <;> first | rfl | omega

/-- C10. Decoding the base64url encoder's output, NUL-terminated as the encoder leaves it whenever
the length is not a multiple of three, returns the original data. The byte `z` behind the text can
be any byte outside the alphabet. -/
theorem C10_base64url_roundtrip (x t rest : Baseenc.Bytes) (z : UInt8) (n m : Nat)
    (h : encode64u x n = .ok t) (hz : value 6 alpha64url z = none)
    (hm : (t.length + 3) / 4 * 3 ≤ m) : decode64u (t ++ z :: rest) t.length m = .ok x := by
  unfold encode64u at h
  split at h
  · cases h
  · rename_i hx
    cases h
    have hz' : 64 ≤ du z := by
      rw [val64u_dec] at hz
      split at hz
      · cases hz
      · simp only [du]; omega
    have hlen : (enc64uLoop x).length ≤ 2147483647 := by
      rw [enc64uLoop_spec]
      unfold encodeBody
      simp only [List.length_map, length_groups]
      omega
    have hpct : 37 ∉ enc64uLoop x := by
      rw [enc64uLoop_spec]
      unfold encodeBody
      intro hm
      obtain ⟨i, hi, he⟩ := List.mem_map.mp hm
      have := groups_lt 6 _ _ (isBits_bitsOf x) i hi
      have k : ∀ i < 64, alpha64url i ≠ 37 := by decide +kernel
      exact k i this he
    unfold decode64u
    rw [List.take_left, cut3d_nopct _ (by simpa using hpct)]
    simp only [Nat.mul_zero, Nat.sub_zero]
    rw [if_neg (by omega), dec64u_round x rest z hz']
    simp

/-- The texts base64url decoding has to accept: a run of alphabet characters that an encoder can
produce, followed by at most as many percent-encoded padding characters as padding would need. -/
def Baseenc.UrlText (t x : Baseenc.Bytes) : Prop :=
  ∃ body sufs vals, t = body ++ List.flatten sufs ∧ (∀ s ∈ sufs, s = [37, 51, 100] ∨ s = [37, 51, 68]) ∧
    sufs.length ≤ (4 - body.length % 4) % 4 ∧ body.length % 4 ≠ 1 ∧
    body.mapM (value 6 alpha64url) = some vals ∧ x = bytesOf 6 vals

/-- C10. On NUL-terminated texts without other NUL bytes the base64url decoder accepts exactly
those texts, and decodes them as specified. -/
theorem C10_base64url_decode_exact (t rest : Baseenc.Bytes) (m : Nat) (h0 : 0 ∉ t)
    (hl : t.length ≤ 2147483647) (hm : (t.length + 3) / 4 * 3 ≤ m) (x : Baseenc.Bytes) :
    decode64u (t ++ 0 :: rest) t.length m = .ok x ↔ UrlText t x := by
  have hz : ∀ z, value 6 alpha64url z = none → 64 ≤ du z := by
    intro z h
    rw [val64u_dec] at h
    split at h
    · cases h
    · simp only [du]; omega
  have hmap : ∀ body : Baseenc.Bytes, body.mapM (value 6 alpha64url) =
      if ∀ c ∈ body, du c < 64 then some (body.map du) else none :=
    mapM_some2 64 du val64u_dec
  have run : ∀ (body : Baseenc.Bytes) (sufs : List Baseenc.Bytes), t = body ++ List.flatten sufs →
      (∀ s ∈ sufs, IsPct s) →
      cut3d t.reverse [100, 51, 37, 100, 51, 37] = sufs.length →
      decode64u (t ++ 0 :: rest) t.length m =
        if body.length % 4 ≠ 1 ∧ (∀ c ∈ body, du c < 64) ∧ sufs.length ≤ (4 - body.length % 4) % 4 then
          .ok (bytesOf 6 (body.map du)) else .err .base64Char := by
    intro body sufs ht hs hc
    have hfl := flatten_len sufs hs
    have hlen : t.length = body.length + 3 * sufs.length := by rw [ht, List.length_append, hfl]
    unfold decode64u
    rw [List.take_left, hc]
    simp only
    rw [if_neg (by omega), show t.length - 3 * sufs.length = body.length by omega]
    have hmem : ∃ z mem, t ++ 0 :: rest = body ++ z :: mem ∧ value 6 alpha64url z = none := by
      cases sufs with
      | nil =>
        refine ⟨0, rest, by rw [ht]; simp, by decide +kernel⟩
      | cons s u =>
        refine ⟨37, ?_⟩
        rcases hs s (by simp) with rfl | rfl
        · exact ⟨_, by rw [ht]; simp; rfl, by decide +kernel⟩
        · exact ⟨_, by rw [ht]; simp; rfl, by decide +kernel⟩
    obtain ⟨z, mem, he, hv⟩ := hmem
    rw [he, dec64uLoop_spec body (fun h => h0 (by rw [ht]; simp [h])) z mem (hz z hv)]
    by_cases hg : body.length % 4 ≠ 1 ∧ ∀ c ∈ body, du c < 64
    · rw [if_pos hg]
      simp only [Res.bind_ok]
      by_cases hp : sufs.length ≤ (4 - body.length % 4) % 4
      · rw [if_neg (by omega), if_pos ⟨hg.1, hg.2, hp⟩]
      · rw [if_pos (by omega), if_neg (fun h => hp h.2.2)]
    · rw [if_neg hg, if_neg (fun h => hg ⟨h.1, h.2.1⟩)]
      rfl
  constructor
  · intro h
    obtain ⟨body, sufs, ht, hs, hl2, hc⟩ := cut3d_decompose t
    rw [run body sufs ht hs hc] at h
    split at h
    · rename_i hg
      cases h
      exact ⟨body, sufs, body.map du, ht, hs, hg.2.2, hg.1, by rw [hmap, if_pos hg.2.1], rfl⟩
    · cases h
  · rintro ⟨body, sufs, vals, ht, hs, hn, h1, hv, rfl⟩
    rw [hmap] at hv
    split at hv
    · rename_i hall
      cases hv
      have hb : 37 ∉ body := by
        intro hh
        have := hall 37 hh
        revert this; decide +kernel
      have hc : cut3d t.reverse [100, 51, 37, 100, 51, 37] = sufs.length := by
        rw [ht]; exact cut3d_spec body hb sufs hs (by omega)
      rw [run body sufs ht hs hc, if_pos ⟨h1, hall, hn⟩]
    · cases hv

/-- C10. Without a byte behind the text the base64url decoder reads out of bounds: the length check
of the input is missing for the second character of a group. -/
theorem C10_base64url_overread :
    ∃ t : Baseenc.Bytes, decode64u t t.length 100 = .ub :=
  ⟨[65], by decide +kernel⟩

example : UrlText [90, 109, 56, 37, 51, 68] [102, 111] :=
  ⟨[90, 109, 56], [[37, 51, 68]], [25, 38, 60], rfl, by decide, by decide, by decide, by decide +kernel,
    by decide +kernel⟩

/-! ## base32hex -/

/-- C11. The encoder writes exactly the RFC 4648 text (lower-case extended hex alphabet). -/
theorem C11_base32hex_encode (x : Baseenc.Bytes) (outLen : Nat) :
    encode32 x outLen = if x.length ≤ 1342177275 ∧ (x.length + 4) / 5 * 8 ≤ outLen
      then .ok (encodeSpec 5 8 alpha32hex x) else .err .erange := by
  unfold encode32
  rw [enc32Loop_spec]
  split <;> split <;> first | rfl | omega

/-- C11. The text is as long as documented. -/
theorem C11_base32hex_length (x : Baseenc.Bytes) :
    (encodeSpec 5 8 alpha32hex x).length = (x.length + 4) / 5 * 8 := by
  unfold encodeSpec encodeBody
  simp only [List.length_append, List.length_map, length_groups, List.length_replicate]
  omega

/-- C11. Decoding the encoder's output returns the original data. -/
theorem C11_base32hex_roundtrip (x t : Baseenc.Bytes) (n m : Nat) (h : encode32 x n = .ok t)
    (hm : t.length / 8 * 5 ≤ m) : decode32 t m = .ok x := by
  rw [C11_base32hex_encode] at h
  split at h
  · rename_i hx
    cases h
    have hl := C11_base32hex_length x
    unfold decode32
    rw [if_neg (by omega), if_neg (by omega), ← enc32Loop_spec, dec32_round]
  · cases h

/-- C11. For inputs of equal length (such as NSEC3 hashes) the order of the texts is the order of
the data. -/
theorem C11_base32hex_order (x y tx ty : Baseenc.Bytes) (n m : Nat) (hl : x.length = y.length)
    (hx : encode32 x n = .ok tx) (hy : encode32 y m = .ok ty) :
    lexCmp byteCmp tx ty = lexCmp byteCmp x y := by
  rw [C11_base32hex_encode] at hx hy
  split at hx
  · split at hy
    · cases hx; cases hy
      exact encodeSpec32_cmp x y hl
    · cases hy
  · cases hx

/-- C11. The equal-length condition is needed: a prefix can sort behind its extension. -/
theorem C11_order_needs_equal_length : ∃ x y tx ty n,
    encode32 x n = .ok tx ∧ encode32 y n = .ok ty ∧ lexCmp byteCmp x y = .lt ∧
      lexCmp byteCmp tx ty = .gt :=
  ⟨[0], [0, 0], [48, 48, 61, 61, 61, 61, 61, 61], [48, 48, 48, 48, 61, 61, 61, 61], 8,
    by decide +kernel, by decide +kernel, by decide +kernel, by decide +kernel⟩

/-- C11. Decoder exactness (beyond the property): for texts whose padding is within the last eight
characters the decoder accepts exactly the RFC 4648 texts, in either letter case. -/
theorem C11_base32hex_decode_exact (t : Baseenc.Bytes) (m : Nat) (hl : t.length ≤ 2147483647)
    (hm : (t.length + 7) / 8 * 5 ≤ m) (hp : 61 ∉ t.take (t.length - 8)) (x : Baseenc.Bytes) :
    decode32 t m = .ok x ↔
      decodeSpec 5 8 (fun c => value 5 alpha32hex
        (if 65 ≤ c.toNat ∧ c.toNat ≤ 90 then c + 32 else c)) t = some x := by
  unfold decode32
  rw [if_neg (by omega)]
  by_cases h2 : t.length % 8 ≠ 0
  · rw [if_pos h2]
    simp [decodeSpec, h2]
  · rw [if_neg h2]
    show dec32Loop 0 t = .ok x ↔ decodeSpec 5 8 val32 t = some x
    rcases dec32_exact (t.length / 8) t (by omega) hp with ⟨y, h1, h3⟩ | ⟨h1, h3⟩
    · rw [h1, h3]; simp
    · rw [h1, h3]; simp

/-- C11. As with base64, padding in the middle of the text is accepted. -/
theorem C11_inner_padding_accepted :
    ∃ t x, decode32 t t.length = .ok x ∧
      decodeSpec 5 8 (fun c => value 5 alpha32hex
        (if 65 ≤ c.toNat ∧ c.toNat ≤ 90 then c + 32 else c)) t = none :=
  ⟨[48, 48, 48, 48, 48, 48, 48, 61, 48, 48, 48, 48, 48, 48, 48, 48], [0, 0, 0, 0, 0, 0, 0, 0],
    by decide +kernel, by decide +kernel⟩

example : encode32 [102, 111, 111, 98, 97] 8 = .ok [99, 112, 110, 109, 117, 111, 106, 49] := by
  decide +kernel
example : decode32 [67, 112, 110, 109, 117, 111, 106, 49] 5 = .ok [102, 111, 111, 98, 97] := by
  decide +kernel

end Knot
