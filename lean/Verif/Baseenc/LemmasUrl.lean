import Verif.Baseenc.LemmasDec3
namespace Knot.Baseenc

abbrev du (c : UInt8) : Nat := decAt dec64uTbl c

theorem dec64uLoop_nil (mem : Bytes) : dec64uLoop mem 0 = .ok ([], 0) := by
  unfold dec64uLoop; simp

theorem dec64uLoop_four (a b c d : UInt8) (mem : Bytes) (n : Nat) :
    dec64uLoop (a :: b :: c :: d :: mem) (n + 4) =
      if du a < 64 ∧ du b < 64 ∧ du c < 64 ∧ du d < 64 then do
        let (r, p) ← dec64uLoop mem n
        .ok (out64 0 (du a) (du b) (du c) (du d) ++ r, p)
      else .err .base64Char := by
  rw [dec64uLoop]
  have h2 : 2 < n + 4 := by omega
  have h3 : 3 < n + 4 := by omega
  simp only [Nat.add_eq_zero_iff, Nat.succ_ne_self, and_false, dite_false, Res.rd, List.getElem?_cons_zero,
    List.getElem?_cons_succ, Res.bind_ok, h2, h3, if_true, List.drop_succ_cons, List.drop_zero,
    Nat.add_sub_cancel]
  simp only [du]
  generalize decAt dec64uTbl a = c1
  generalize decAt dec64uTbl b = c2
  generalize decAt dec64uTbl c = c3
  generalize decAt dec64uTbl d = c4
  generalize dec64uLoop mem n = R
  by_cases k1 : c1 < 64 <;> by_cases k2 : c2 < 64 <;> by_cases k3 : c3 < 64 <;> by_cases k4 : c4 < 64 <;>
    simp [k1, k2, k3, k4, Nat.not_le_of_lt, Nat.le_of_not_lt] <;> grind

theorem dec64uLoop_one (a z : UInt8) (mem : Bytes) (hz : 64 ≤ du z) :
    dec64uLoop (a :: z :: mem) 1 = .err .base64Char := by
  rw [dec64uLoop]
  simp [Res.rd]
  intro _
  exact hz

theorem dec64uLoop_two (a b : UInt8) (mem : Bytes) :
    dec64uLoop (a :: b :: mem) 2 =
      if du a < 64 ∧ du b < 64 then .ok (out64 2 (du a) (du b) 64 64, 2) else .err .base64Char := by
  rw [dec64uLoop]
  simp only [Res.rd, List.getElem?_cons_zero, List.getElem?_cons_succ, Res.bind_ok]
  simp
  grind

theorem dec64uLoop_three (a b c : UInt8) (mem : Bytes) (hc : c ≠ 0) :
    dec64uLoop (a :: b :: c :: mem) 3 =
      if du a < 64 ∧ du b < 64 ∧ du c < 64 then .ok (out64 1 (du a) (du b) (du c) 64, 1)
      else .err .base64Char := by
  have hp := mt (pad64u_dec c).mpr hc
  rw [dec64uLoop]
  simp only [Res.rd, List.getElem?_cons_zero, List.getElem?_cons_succ, Res.bind_ok]
  simp
  grind

/-- The decoding loop on NUL-free text followed by a byte that is not in the alphabet. -/
theorem dec64uLoop_spec (t : Bytes) (h0 : 0 ∉ t) (z : UInt8) (mem : Bytes) (hz : 64 ≤ du z) :
    dec64uLoop (t ++ z :: mem) t.length =
      if t.length % 4 ≠ 1 ∧ ∀ c ∈ t, du c < 64 then
        .ok (bytesOf 6 (t.map du), (4 - t.length % 4) % 4)
      else .err .base64Char := by
  match t, h0 with
  | [], _ => simp [dec64uLoop_nil, bytesOf, groups]
  | [a], _ => simp [dec64uLoop_one a z mem hz]
  | [a, b], _ =>
    have := dec64uLoop_two a b (z :: mem)
    simp only [List.cons_append, List.nil_append, List.length_cons, List.length_nil, Nat.zero_add,
      Nat.reduceAdd, this]
    by_cases h : du a < 64 ∧ du b < 64
    · rw [if_pos h, if_pos (by simpa using h)]
      simp [bytes64_two _ _ 64 64 h.1 h.2]
    · rw [if_neg h, if_neg (by simpa using h)]
  | [a, b, c], h0 =>
    have := dec64uLoop_three a b c (z :: mem) (fun h => h0 (by simp [h]))
    simp only [List.cons_append, List.nil_append, List.length_cons, List.length_nil, Nat.zero_add,
      Nat.reduceAdd, this]
    by_cases h : du a < 64 ∧ du b < 64 ∧ du c < 64
    · rw [if_pos h, if_pos (by simpa using h)]
      simp [bytes64_three _ _ _ 64 h.1 h.2.1 h.2.2]
    · rw [if_neg h, if_neg (by simpa using h)]
  | a :: b :: c :: d :: t, h0 =>
    have ih := dec64uLoop_spec t (fun h => h0 (by simp [h])) z mem hz
    simp only [List.cons_append, List.length_cons, dec64uLoop_four, ih]
    have e : (t.length + 1 + 1 + 1 + 1) % 4 = t.length % 4 := by omega
    rw [e]
    by_cases h : du a < 64 ∧ du b < 64 ∧ du c < 64 ∧ du d < 64
    · rw [if_pos h]
      by_cases h' : t.length % 4 ≠ 1 ∧ ∀ c ∈ t, du c < 64
      · rw [if_pos h', if_pos ⟨h'.1, by simpa [h] using h'.2⟩]
        simp [bytes64_step _ _ _ _ _ h.1 h.2.1 h.2.2.1 h.2.2.2]
      · rw [if_neg h', if_neg (fun hh => h' ⟨hh.1, fun c hc => hh.2 c (by simp [hc])⟩)]
        rfl
    · rw [if_neg h, if_neg]
      intro hh
      exact h ⟨hh.2 a (by simp), hh.2 b (by simp), hh.2 c (by simp), hh.2 d (by simp)⟩

/-- A percent-encoded padding character. -/
def IsPct (s : Bytes) : Prop := s = [37, 51, 100] ∨ s = [37, 51, 68]

theorem tolower_100 (c : UInt8) : tolower c = 100 ↔ c = 100 ∨ c = 68 :=
  forall_byte (P := fun c => tolower c = 100 ↔ c = 100 ∨ c = 68) (by decide +kernel) c
theorem tolower_51 (c : UInt8) : tolower c = 51 ↔ c = 51 :=
  forall_byte (P := fun c => tolower c = 51 ↔ c = 51) (by decide +kernel) c
theorem tolower_37 (c : UInt8) : tolower c = 37 ↔ c = 37 :=
  forall_byte (P := fun c => tolower c = 37 ↔ c = 37) (by decide +kernel) c

theorem IsPct.rev {s : Bytes} (h : IsPct s) : ∃ d, s.reverse = [d, 51, 37] ∧ tolower d = 100 := by
  rcases h with rfl | rfl
  · exact ⟨100, rfl, rfl⟩
  · exact ⟨68, rfl, rfl⟩

/-- What is cut is a run of complete escapes. -/
theorem cut3d_one (r : Bytes) (ps : Bytes) (hps : ∀ r, 37 ∉ r → cut3d r ps = 0) :
    (cut3d r ([100, 51, 37] ++ ps) = 0) ∨
    ∃ s r', IsPct s ∧ r = s.reverse ++ r' ∧ cut3d r ([100, 51, 37] ++ ps) = 1 + cut3d r' ps := by
  have e1 : ((100 : UInt8) = 37) = False := by decide
  have e2 : ((51 : UInt8) = 37) = False := by decide
  cases r with
  | nil => left; rfl
  | cons x r =>
    by_cases hx : tolower x = 100
    · cases r with
      | nil => left; simp [cut3d]
      | cons y r =>
        by_cases hy : tolower y = 51
        · cases r with
          | nil => left; simp [cut3d]
          | cons w r =>
            by_cases hw : tolower w = 37
            · right
              have hy' := (tolower_51 y).mp hy
              have hw' := (tolower_37 w).mp hw
              subst hy'; subst hw'
              refine ⟨[37, 51, x], r, ?_, rfl, ?_⟩
              · rcases (tolower_100 x).mp hx with rfl | rfl
                · exact .inl rfl
                · exact .inr rfl
              · simp [cut3d, hx, hy, hw]
            · left; simp [cut3d, hw]
        · left; simp [cut3d, hy]
    · left; simp [cut3d, hx]

theorem cut3d_nil (r : Bytes) : cut3d r [] = 0 := by cases r <;> rfl

theorem cut3d_nopct (r : Bytes) (h : 37 ∉ r) : ∀ ps, cut3d r ps = 0 := by
  induction r with
  | nil => intro ps; cases ps <;> rfl
  | cons x r ih =>
    intro ps
    cases ps with
    | nil => rfl
    | cons p ps =>
      simp only [cut3d]
      split
      · rename_i hx
        have : p ≠ 37 := by
          rintro rfl
          exact h (by simp [(tolower_37 x).mp hx])
        simp [this, ih (fun hh => h (by simp [hh]))]
      · rfl

theorem cut3d_pct {s : Bytes} (hs : IsPct s) (r ps : Bytes) :
    cut3d (s.reverse ++ r) ([100, 51, 37] ++ ps) = 1 + cut3d r ps := by
  rcases hs with rfl | rfl
  · have e1 : tolower 100 = 100 := by decide
    have e2 : tolower 51 = 51 := by decide
    have e3 : tolower 37 = 37 := by decide
    simp [cut3d, e1, e2, e3]
  · have e1 : tolower 68 = 100 := by decide
    have e2 : tolower 51 = 51 := by decide
    have e3 : tolower 37 = 37 := by decide
    simp [cut3d, e1, e2, e3]

/-- The number of cut escapes of a text whose body holds no percent sign. -/
theorem cut3d_spec (body : Bytes) (hb : 37 ∉ body) (sufs : List Bytes) (hs : ∀ s ∈ sufs, IsPct s)
    (hl : sufs.length ≤ 2) :
    cut3d (body ++ sufs.flatten).reverse [100, 51, 37, 100, 51, 37] = sufs.length := by
  have hr : 37 ∉ body.reverse := by simpa using hb
  match sufs, hl with
  | [], _ => simp [cut3d_nopct _ hr]
  | [s], _ =>
    have := cut3d_pct (hs s (by simp)) body.reverse [100, 51, 37]
    rw [cut3d_nopct _ hr] at this
    simpa using this
  | [s, s'], _ =>
    have h1 := cut3d_pct (hs s' (by simp)) (s.reverse ++ body.reverse) [100, 51, 37]
    have h2 := cut3d_pct (hs s (by simp)) body.reverse []
    rw [cut3d_nopct _ hr] at h2
    simp only [List.append_nil] at h2
    rw [h2] at h1
    simpa using h1

/-- Conversely, what is cut consists of that many escapes. -/
theorem cut3d_decompose (t : Bytes) : ∃ body sufs, t = body ++ List.flatten sufs ∧
    (∀ s ∈ sufs, IsPct s) ∧ sufs.length ≤ 2 ∧
    cut3d t.reverse [100, 51, 37, 100, 51, 37] = sufs.length := by
  rcases cut3d_one t.reverse [100, 51, 37] (fun r h => cut3d_nopct r h _) with h | ⟨s, r, hs, hr, hc⟩
  · exact ⟨t, [], by simp, by simp, by simp, by simpa using h⟩
  · rcases cut3d_one r [] (fun r _ => cut3d_nil r) with h | ⟨s', r', hs', hr', hc'⟩
    · refine ⟨r.reverse, [s], ?_, by simpa using hs, by simp, ?_⟩
      · have := congrArg List.reverse hr
        simpa using this
      · have : cut3d r [100, 51, 37] = 0 := by simpa using h
        simp only [List.cons_append, List.nil_append] at hc
        rw [hc, this]; rfl
    · refine ⟨r'.reverse, [s', s], ?_, by simp [hs, hs'], by simp, ?_⟩
      · have := congrArg List.reverse hr
        rw [hr'] at this
        simpa using this
      · have : cut3d r [100, 51, 37] = 1 := by
          have : cut3d r [100, 51, 37] = 1 + cut3d r' [] := by simpa using hc'
          rw [this, cut3d_nil]
        simp only [List.cons_append, List.nil_append] at hc
        rw [hc, this]; rfl

theorem isPct_len {s : Bytes} (h : IsPct s) : s.length = 3 := by rcases h with rfl | rfl <;> rfl

theorem flatten_len (sufs : List Bytes) (hs : ∀ s ∈ sufs, IsPct s) :
    sufs.flatten.length = 3 * sufs.length := by
  induction sufs with
  | nil => rfl
  | cons s t ih =>
    simp only [List.flatten_cons, List.length_append, List.length_cons, isPct_len (hs s (by simp)),
      ih (fun x hx => hs x (by simp [hx]))]
    omega

theorem dec64u_round (x : Bytes) (mem : Bytes) (z : UInt8) (hz : 64 ≤ du z) :
    dec64uLoop (enc64uLoop x ++ z :: mem) (enc64uLoop x).length =
      .ok (x, (4 - (enc64uLoop x).length % 4) % 4) := by
  have hz' : ∀ i < 64, encAt enc64uTbl i ≠ 0 := by decide +kernel
  fun_induction enc64uLoop x with
  | case1 a b c t ih =>
    have ha := byteLt a; have hb := byteLt b; have hc := byteLt c
    simp only [List.cons_append, List.length_cons, dec64uLoop_four]
    simp only [du]
    rw [dec64u_enc _ (by omega), dec64u_enc _ (by omega), dec64u_enc _ (by omega),
      dec64u_enc _ (by omega), if_pos (by omega), ih]
    simp only [Res.bind_ok, out64]
    rw [ofNat_of_eq (a := a) (by omega), ofNat_of_eq (a := b) (by omega), ofNat_of_eq (a := c) (by omega)]
    rw [show ((enc64uLoop t).length + 1 + 1 + 1 + 1) % 4 = (enc64uLoop t).length % 4 by omega]
    rfl
  | case2 a b =>
    have ha := byteLt a; have hb := byteLt b
    simp only [List.cons_append, List.nil_append, List.length_cons, List.length_nil, Nat.zero_add]
    rw [dec64uLoop_three _ _ _ _ (hz' _ (by omega))]
    simp only [du]
    rw [dec64u_enc _ (by omega), dec64u_enc _ (by omega), dec64u_enc _ (by omega), if_pos (by omega)]
    simp only [out64]
    rw [ofNat_of_eq (a := a) (by omega), ofNat_of_eq (a := b) (by omega)]
  | case3 a =>
    have ha := byteLt a
    simp only [List.cons_append, List.nil_append, List.length_cons, List.length_nil, Nat.zero_add]
    rw [dec64uLoop_two]
    simp only [du]
    rw [dec64u_enc _ (by omega), dec64u_enc _ (by omega), if_pos (by omega)]
    simp only [out64]
    rw [ofNat_of_eq (a := a) (by omega)]
  | case4 => simp [dec64uLoop_nil]

end Knot.Baseenc
