import Verif.Tcp.Model
/-!
# C28: segmentation of a TCP stream does not change the messages
-/
namespace Knot
open Tcp

namespace Tcp

/-! ## Specification -/

/-- A message on the stream: two bytes of length and the message (RFC 1035, 4.2.2). -/
def frame (m : Bytes) : Bytes := [UInt8.ofNat (m.length / 256), UInt8.ofNat (m.length % 256)] ++ m

/-- A sequence of messages on the stream. -/
def frames (ms : List Bytes) : Bytes := ms.flatMap frame

/-- The beginning of a message that is not complete (possibly empty). -/
def Incomplete (r : Bytes) : Prop := r.length < 2 ∨ r.length < 2 + payloadLen r

/-! ## Lemmas -/

theorem frame_length (m : Bytes) : (frame m).length = 2 + m.length := by simp [frame]; omega

theorem payloadLen_lt (b : Bytes) : payloadLen b < 65536 := by
  unfold payloadLen
  split
  · rename_i hi lo _
    have := hi.toNat_lt
    have := lo.toNat_lt
    omega
  · omega

theorem payloadLen_frame (m rest : Bytes) (h : m.length < 65536) : payloadLen (frame m ++ rest) = m.length := by
  simp only [frame, List.cons_append, payloadLen, List.nil_append]
  rw [UInt8.toNat_ofNat', UInt8.toNat_ofNat']
  omega

theorem bytes_of_payload (hi lo : UInt8) :
    [UInt8.ofNat ((hi.toNat * 256 + lo.toNat) / 256), UInt8.ofNat ((hi.toNat * 256 + lo.toNat) % 256)] = [hi, lo] := by
  have h1 := hi.toNat_lt
  have h2 := lo.toNat_lt
  congr 1
  · apply UInt8.toNat_inj.mp; rw [UInt8.toNat_ofNat']; omega
  · congr 1
    apply UInt8.toNat_inj.mp; rw [UInt8.toNat_ofNat']; omega

/-- A complete message at the front is a frame. -/
theorem frame_split (b : Bytes) (h2 : 2 ≤ b.length) (h : 2 + payloadLen b ≤ b.length) :
    b = frame ((b.drop 2).take (payloadLen b)) ++ (b.drop 2).drop (payloadLen b) := by
  match b, h2 with
  | hi :: lo :: t, _ =>
    simp only [payloadLen, List.drop_succ_cons, List.drop_zero] at *
    simp only [List.length_cons] at h
    have hl : (t.take (hi.toNat * 256 + lo.toNat)).length = hi.toNat * 256 + lo.toNat := by simp; omega
    unfold frame
    rw [hl, bytes_of_payload]
    simp

theorem frames_cons (m : Bytes) (ms : List Bytes) : frames (m :: ms) = frame m ++ frames ms := by simp [frames]
theorem frames_append (a b : List Bytes) : frames (a ++ b) = frames a ++ frames b := by simp [frames]

/-- The division of a stream into messages is unique. -/
theorem parse_unique (ms ms' : List Bytes) (r r' : Bytes) (hm : ∀ m ∈ ms, m.length < 65536) (hm' : ∀ m ∈ ms', m.length < 65536)
    (hr : Incomplete r) (hr' : Incomplete r') (h : frames ms ++ r = frames ms' ++ r') : ms = ms' ∧ r = r' := by
  have key : ∀ (m : Bytes) (t x : Bytes), m.length < 65536 → Incomplete x → frame m ++ t = x → False := by
    intro m t x hl hx he
    have h1 := congrArg List.length he
    have h2 := payloadLen_frame m t hl
    rw [he] at h2
    rw [List.length_append, frame_length] at h1
    unfold Incomplete at hx
    omega
  induction ms generalizing ms' with
  | nil =>
    cases ms' with
    | nil => exact ⟨rfl, by simpa [frames] using h⟩
    | cons m' t' =>
      exfalso
      rw [frames_cons, List.append_assoc] at h
      exact key m' (frames t' ++ r') r (hm' m' (by simp)) hr (by simpa [frames] using h.symm)
  | cons m t ih =>
    cases ms' with
    | nil =>
      exfalso
      rw [frames_cons, List.append_assoc] at h
      exact key m (frames t ++ r) r' (hm m (by simp)) hr' (by simpa [frames] using h)
    | cons m' t' =>
      rw [frames_cons, frames_cons, List.append_assoc, List.append_assoc] at h
      have p1 := payloadLen_frame m (frames t ++ r) (hm m (by simp))
      have p2 := payloadLen_frame m' (frames t' ++ r') (hm' m' (by simp))
      rw [h, p2] at p1
      have hinj := List.append_inj h (by rw [frame_length, frame_length]; omega)
      have hmm : m = m' := by
        have := congrArg (List.drop 2) hinj.1
        simpa [frame] using this
      obtain ⟨ht, hrr⟩ := ih t' (fun x hx => hm x (by simp [hx])) (fun x hx => hm' x (by simp [hx])) hinj.2
      exact ⟨by rw [hmm, ht], hrr⟩

theorem smear (x k j : Nat) (hb : ∀ i, k < i → x.testBit i = false) (hw : ∀ i, i ≤ k → k < i + j → x.testBit i = true) :
    (∀ i, k < i → (x ||| x >>> j).testBit i = false) ∧
    (∀ i, i ≤ k → k < i + (j + j) → (x ||| x >>> j).testBit i = true) := by
  constructor
  · intro i hi
    rw [Nat.testBit_or, Nat.testBit_shiftRight, hb i hi, hb (j + i) (by omega)]
    rfl
  · intro i hi hj
    rw [Nat.testBit_or, Nat.testBit_shiftRight]
    by_cases h : k < i + j
    · rw [hw i hi h]; rfl
    · rw [hw (j + i) (by omega) (by omega), Bool.or_true]

/-- The allocation size is the least power of two that is at least 64 and the wanted size. -/
theorem allocSize_spec (n : Nat) (h0 : 0 < n) (h : n ≤ 9223372036854775808) :
    ∃ k, allocSize n = 2 ^ k ∧ 6 ≤ k ∧ n ≤ 2 ^ k ∧ (k = 6 ∨ 2 ^ (k - 1) < n) := by
  unfold allocSize
  rw [if_neg (by omega)]
  generalize hx : (n - 1) ||| 0x3f = x
  have hlt : x < 2 ^ 63 := by
    rw [← hx]; exact Nat.or_lt_two_pow (by omega) (by omega)
  have hge : 63 ≤ x := by rw [← hx]; exact Nat.right_le_or
  have hge2 : n - 1 ≤ x := by rw [← hx]; exact Nat.left_le_or
  have hx0 : x ≠ 0 := by omega
  -- the highest set bit
  have hk1 : 2 ^ x.log2 ≤ x := Nat.log2_self_le hx0
  have hk2 : x < 2 ^ (x.log2 + 1) := Nat.lt_log2_self
  generalize hkk : x.log2 = k at *
  have hk63 : k < 63 := by
    by_cases hc : k < 63
    · exact hc
    · have : 2 ^ 63 ≤ 2 ^ k := Nat.pow_le_pow_right (by omega) (by omega)
      omega
  have hk5 : 5 ≤ k := by
    by_cases hc : 5 ≤ k
    · exact hc
    · have : 2 ^ (k + 1) ≤ 2 ^ 5 := Nat.pow_le_pow_right (by omega) (by omega)
      omega
  have b0 : ∀ i, k < i → x.testBit i = false := by
    intro i hi
    apply Nat.testBit_lt_two_pow
    exact Nat.lt_of_lt_of_le hk2 (Nat.pow_le_pow_right (by omega) (by omega))
  have w0 : ∀ i, i ≤ k → k < i + 1 → x.testBit i = true := by
    intro i hi hj
    have : i = k := by omega
    subst this
    have := (Nat.testBit_of_two_pow_le_and_two_pow_add_one_gt hk1 hk2)
    exact this
  obtain ⟨b1, w1⟩ := smear x k 1 b0 w0
  obtain ⟨b2, w2⟩ := smear _ k 2 b1 w1
  obtain ⟨b3, w3⟩ := smear _ k 4 b2 w2
  obtain ⟨b4, w4⟩ := smear _ k 8 b3 w3
  obtain ⟨b5, w5⟩ := smear _ k 16 b4 w4
  obtain ⟨b6, w6⟩ := smear _ k 32 b5 w5
  simp only
  generalize hy : (x ||| x >>> 1) = x1 at *
  generalize hy2 : (x1 ||| x1 >>> 2) = x2 at *
  generalize hy3 : (x2 ||| x2 >>> 4) = x3 at *
  generalize hy4 : (x3 ||| x3 >>> 8) = x4 at *
  generalize hy5 : (x4 ||| x4 >>> 16) = x5 at *
  generalize hy6 : (x5 ||| x5 >>> 32) = x6 at *
  have hx6 : x6 = 2 ^ (k + 1) - 1 := by
    apply Nat.eq_of_testBit_eq
    intro i
    rw [Nat.testBit_two_pow_sub_one]
    by_cases hi : k < i
    · rw [b6 i hi]; simp; omega
    · rw [w6 i (by omega) (by omega)]; simp; omega
  have hpos : 0 < 2 ^ (k + 1) := Nat.pow_pos (by omega)
  refine ⟨k + 1, by omega, by omega, by omega, ?_⟩
  by_cases hc : k = 5
  · left; omega
  · right
    simp only [Nat.add_sub_cancel]
    -- 2^k ≤ x = (n-1) ||| 63 with k ≥ 6 means 2^k ≤ n - 1
    have hbit : x.testBit k = true := w0 k (by omega) (by omega)
    rw [← hx, Nat.testBit_or] at hbit
    have h63 : (0x3f : Nat).testBit k = false := by
      apply Nat.testBit_lt_two_pow
      have : 2 ^ 6 ≤ 2 ^ k := Nat.pow_le_pow_right (by omega) (by omega)
      omega
    rw [h63, Bool.or_false] at hbit
    have := Nat.ge_two_pow_of_testBit hbit
    omega

theorem allocSize_ge (n : Nat) (h : n ≤ 9223372036854775808) : n ≤ allocSize n := by
  by_cases h0 : n = 0
  · omega
  · obtain ⟨k, e, _, hn, _⟩ := allocSize_spec n (by omega) h
    omega

theorem allocSize_mono (m n : Nat) (hmn : m ≤ n) (h : n ≤ 9223372036854775808) : allocSize m ≤ allocSize n := by
  by_cases h0 : m = 0
  · subst h0; simp [allocSize]
  · obtain ⟨k, e, k6, hn, hmin⟩ := allocSize_spec m (by omega) (by omega)
    obtain ⟨k', e', k6', hn', _⟩ := allocSize_spec n (by omega) h
    rw [e, e']
    apply Nat.pow_le_pow_right (by omega)
    rcases hmin with hmin | hmin
    · omega
    · by_cases hc : k ≤ k'
      · exact hc
      · have : 2 ^ k' ≤ 2 ^ (k - 1) := Nat.pow_le_pow_right (by omega) (by omega)
        omega

theorem collect_count (data : Bytes) : ∀ room : Option Nat, (∀ r, room = some r → (countLoop data).2 ≤ r) →
    ∃ ms rest, collect (countLoop data).1 room data = .ok (ms, rest) ∧ data = frames ms ++ rest ∧ Incomplete rest ∧
      (∀ m ∈ ms, m.length < 65536) := by
  fun_induction countLoop data with
  | case1 hi lo t hle r ih =>
    intro room hroom
    have hp : payloadLen (hi :: lo :: t) = hi.toNat * 256 + lo.toNat := rfl
    obtain ⟨ms, rest, h1, h2, h3, h4⟩ := ih (room.map (· - (hi.toNat * 256 + lo.toNat))) (by
      intro r' hr'
      cases room with
      | none => simp at hr'
      | some q =>
        have := hroom q rfl
        have hr : r = countLoop (t.drop (hi.toNat * 256 + lo.toNat)) := rfl
        rw [← hr]
        simp at hr'
        simp only at this
        omega)
    refine ⟨t.take (hi.toNat * 256 + lo.toNat) :: ms, rest, ?_, ?_, h3, ?_⟩
    · simp only [collect, hp]
      rw [if_neg (by simp), if_neg (by simp; omega), if_neg]
      · simp only [List.drop_succ_cons, List.drop_zero]
        have h1' : collect r.1 (room.map (· - (hi.toNat * 256 + lo.toNat))) (t.drop (hi.toNat * 256 + lo.toNat)) = .ok (ms, rest) := h1
        rw [h1']
        rfl
      · cases room with
        | none => simp
        | some q =>
          have := hroom q rfl
          simp only at this
          simp
          omega
    · have := frame_split (hi :: lo :: t) (by simp) (by simp [payloadLen]; omega)
      rw [hp] at this
      simp only [List.drop_succ_cons, List.drop_zero] at this
      rw [frames_cons, List.append_assoc, ← h2]
      exact this
    · intro m hm
      rcases List.mem_cons.mp hm with rfl | hm
      · have := payloadLen_lt (hi :: lo :: t)
        simp; omega
      · exact h4 m hm
  | case2 hi lo t hle =>
    intro room _
    refine ⟨[], hi :: lo :: t, rfl, rfl, ?_, by simp⟩
    right
    simp only [payloadLen, List.length_cons]
    omega
  | case3 d hd =>
    intro room _
    refine ⟨[], d, rfl, rfl, ?_, by simp⟩
    left
    match d with
    | [] => simp
    | [x] => simp
    | x :: y :: t => exact absurd rfl (hd x y t)

/-- The buffer between two segments: the allocation has the size that follows from its content,
and the content is an incomplete message or an empty message. -/
def Inv (b : InBuf) : Prop := b.cap = allocSize b.bytes.length ∧ (Incomplete b.bytes ∨ b.bytes = [0, 0])

theorem keep_spec (b : InBuf) (data : Bytes) (total : Int) (hcap : b.cap = allocSize b.bytes.length)
    (hsz : b.bytes.length + data.length ≤ 9223372036854775808) :
    keep b data total = .ok (⟨b.bytes ++ data, allocSize (b.bytes ++ data).length⟩,
      total + allocSize (b.bytes ++ data).length - allocSize b.bytes.length) := by
  unfold keep
  have hmono := allocSize_mono b.bytes.length (b.bytes.length + data.length) (by omega) hsz
  have hge := allocSize_ge (b.bytes.length + data.length) hsz
  by_cases hd : data.length > 0
  · rw [if_pos hd]
    simp only [List.length_append]
    by_cases ho : allocSize b.bytes.length < allocSize (b.bytes.length + data.length)
    · rw [if_pos ho, if_pos ho, if_neg (by omega)]
      congr 2
      omega
    · rw [if_neg ho, if_neg ho]
      have : allocSize b.bytes.length = allocSize (b.bytes.length + data.length) := by omega
      rw [if_neg (by omega), hcap, this]
      congr 2
      omega
  · rw [if_neg hd]
    have : data = [] := List.length_eq_zero_iff.mp (by omega)
    subst this
    simp only [List.append_nil]
    rw [← hcap]
    congr 2
    omega

theorem updMain_spec (ab : Bool) (b : InBuf) (data : Bytes) (total : Int) (hi : Inv b) (h1 : b.bytes.length ≠ 1)
    (hd : data ≠ []) (hsz : b.bytes.length + data.length ≤ 9223372036854775808) :
    ∃ b' ms, updMain ab b data total = .ok (b', ms, total + allocSize b'.bytes.length - allocSize b.bytes.length) ∧
      b.bytes ++ data = frames ms ++ b'.bytes ∧ Inv b' ∧ (∀ m ∈ ms, m.length < 65536) := by
  obtain ⟨hcap, hinc⟩ := hi
  unfold updMain
  by_cases h2 : b.bytes.length ≥ 2
  · -- something in the buffer
    have hle : b.bytes.length - 2 ≤ payloadLen b.bytes := by
      rcases hinc with h | h
      · unfold Incomplete at h; omega
      · rw [h]; simp
    by_cases hfit : data.length ≥ payloadLen b.bytes - (b.bytes.length - 2)
    · have hcounts : counts ab b.bytes data = ((countLoop (data.drop (payloadLen b.bytes - (b.bytes.length - 2)))).1 + 1,
          (if ab then (countLoop (data.drop (payloadLen b.bytes - (b.bytes.length - 2)))).2 else 0) + payloadLen b.bytes) := by
        unfold counts; rw [if_pos h2, if_pos ⟨hle, hfit⟩]
      rw [hcounts]
      simp only
      unfold emit
      rw [if_neg (by omega), if_pos h2]
      have hbf : (b.bytes.drop 2).length = b.bytes.length - 2 := by simp
      simp only
      rw [hbf]
      generalize hneed : payloadLen b.bytes - (b.bytes.length - 2) = need at *
      rw [if_neg (by split <;> omega)]
      obtain ⟨ms, rest, c1, c2, c3, c4⟩ := collect_count (data.drop need)
        (if ab then some ((if ab then (countLoop (data.drop need)).2 else 0) + payloadLen b.bytes - (b.bytes.length - 2 + need)) else none)
        (by
          intro r hr
          cases ab with
          | false => simp at hr
          | true => simp at hr; omega)
      rw [Nat.add_sub_cancel, c1]
      simp only [Res.bind_ok]
      have hrl : rest.length ≤ data.length := by
        have := congrArg List.length c2
        simp at this; omega
      rw [keep_spec ⟨[], 0⟩ rest _ (by simp [allocSize]) (by simp; omega)]
      simp only [Res.bind_ok, List.nil_append]
      refine ⟨⟨rest, allocSize rest.length⟩, ((b.bytes.drop 2) ++ data.take need) :: ms, ?_, ?_, ⟨rfl, .inl c3⟩, ?_⟩
      · simp only [allocSize]
        congr 3
        simp; omega
      rotate_left
      · intro m hm
        rcases List.mem_cons.mp hm with rfl | hm
        · have := payloadLen_lt b.bytes
          simp only [List.length_append, hbf, List.length_take]
          omega
        · exact c4 m hm
      · have hsplit := frame_split (b.bytes ++ data) (by simp; omega)
        have hpl : payloadLen (b.bytes ++ data) = payloadLen b.bytes := by
          match hb : b.bytes, h2 with
          | x :: y :: t, _ => rfl
        rw [hpl] at hsplit
        have := hsplit (by simp; omega)
        rw [List.drop_append_of_le_length (by omega)] at this
        rw [frames_cons, List.append_assoc]
        simp only
        rw [← c2, this]
        congr 1
        · rw [List.take_append]
          rw [List.take_of_length_le (by omega : (b.bytes.drop 2).length ≤ payloadLen b.bytes), hbf, hneed]
        · rw [List.drop_append, List.drop_eq_nil_of_le (by omega : (b.bytes.drop 2).length ≤ payloadLen b.bytes), hbf, hneed]
          simp
    · have hcounts : counts ab b.bytes data = (0, 0) := by
        unfold counts; rw [if_pos h2, if_neg (by omega)]
      rw [hcounts]
      simp only
      unfold emit
      rw [if_pos rfl]
      simp only [Res.bind_ok]
      rw [keep_spec b data total hcap hsz]
      simp only [Res.bind_ok]
      refine ⟨_, _, rfl, by simp [frames], ⟨rfl, .inl ?_⟩, by simp⟩
      right
      have hpl : payloadLen (b.bytes ++ data) = payloadLen b.bytes := by
        match hb : b.bytes, h2 with
        | x :: y :: t, _ => rfl
      simp only
      rw [hpl, List.length_append]
      omega
  · -- empty buffer
    have hb : b.bytes = [] := List.length_eq_zero_iff.mp (by omega)
    have hcounts : counts ab b.bytes data = ((countLoop data).1, if ab then (countLoop data).2 else 0) := by
      unfold counts; rw [if_neg h2]
    rw [hcounts]
    simp only
    obtain ⟨ms, rest, c1, c2, c3, c4⟩ := collect_count data
      (if ab then some (if ab then (countLoop data).2 else 0) else none) (by
          intro r hr
          cases ab with
          | false => simp at hr
          | true => simp at hr; omega)
    have hem : emit ab (countLoop data).1 (if ab then (countLoop data).2 else 0) b data total = .ok (b, ms, rest, total) := by
      unfold emit
      by_cases hc0 : (countLoop data).1 = 0
      · rw [if_pos hc0]
        rw [hc0] at c1
        simp only [collect] at c1
        injection c1 with c1
        injection c1 with e1 e2
        rw [← e1, ← e2]
      · rw [if_neg hc0, if_neg h2, c1]
        rfl
    rw [hem]
    simp only [Res.bind_ok]
    have hrl : rest.length ≤ data.length := by
      have := congrArg List.length c2
      simp at this; omega
    rw [keep_spec b rest total hcap (by omega)]
    simp only [Res.bind_ok]
    refine ⟨_, _, rfl, ?_, ⟨rfl, .inl ?_⟩, c4⟩
    · rw [hb]; simpa using c2
    · rw [hb]; simpa using c3

theorem inbufsUpd_spec (ab : Bool) (b : InBuf) (data : Bytes) (total : Int) (hi : Inv b)
    (hsz : b.bytes.length + data.length ≤ 9223372036854775808) :
    ∃ b' ms, inbufsUpd ab b data total = .ok (b', ms, total + allocSize b'.bytes.length - allocSize b.bytes.length) ∧
      b.bytes ++ data = frames ms ++ b'.bytes ∧ Inv b' ∧ (∀ m ∈ ms, m.length < 65536) := by
  cases data with
  | nil =>
    refine ⟨b, [], ?_, by simp [frames], hi, by simp⟩
    simp only [inbufsUpd]
    congr 3
    omega
  | cons d t =>
    unfold inbufsUpd
    simp only
    by_cases h1 : b.bytes.length = 1
    · rw [if_pos h1]
      have ha : allocSize 1 = 64 := by decide
      have ha2 : allocSize 2 = 64 := by decide
      have hcap : b.cap = 64 := by rw [hi.1, h1, ha]
      rw [if_neg (by omega)]
      have hl : (b.bytes ++ [d]).length = 2 := by simp [h1]
      have hincm : Incomplete (b.bytes ++ [d]) ∨ b.bytes ++ [d] = [0, 0] := by
        match hb : b.bytes, h1 with
        | [x], _ =>
          simp only [List.cons_append, List.nil_append]
          by_cases hz : x = 0 ∧ d = 0
          · right; rw [hz.1, hz.2]
          · left; right
            simp only [payloadLen, List.length_cons, List.length_nil]
            have : x.toNat ≠ 0 ∨ d.toNat ≠ 0 := by
              by_cases hx : x.toNat = 0
              · right
                intro hd
                exact hz ⟨UInt8.toNat_inj.mp (by simpa using hx), UInt8.toNat_inj.mp (by simpa using hd)⟩
              · exact .inl hx
            omega
      have hinv : Inv ⟨b.bytes ++ [d], b.cap⟩ := ⟨by simp only; rw [hl, ha2, hcap], hincm⟩
      cases t with
      | nil =>
        refine ⟨⟨b.bytes ++ [d], b.cap⟩, [], ?_, by simp [frames], hinv, by simp⟩
        simp only [hl, h1, ha, ha2]
        congr 3
        omega
      | cons d' t' =>
        simp only
        have hsz' : (⟨b.bytes ++ [d], b.cap⟩ : InBuf).bytes.length + (d' :: t').length ≤ 9223372036854775808 := by
          simp only [List.length_cons, hl] at hsz ⊢; omega
        obtain ⟨b', ms, e1, e2, e3, e4⟩ := updMain_spec ab ⟨b.bytes ++ [d], b.cap⟩ (d' :: t') total hinv
          (by simp only; omega) (by simp) hsz'
        refine ⟨b', ms, ?_, ?_, e3, e4⟩
        · rw [e1]; simp only [hl, h1, ha, ha2]
        · rw [← e2]; simp
    · rw [if_neg h1]
      exact updMain_spec ab b (d :: t) total hi h1 (by simp) hsz

theorem feed_spec (ab : Bool) (segs : List Bytes) : ∀ (b : InBuf) (total : Int), Inv b →
    b.bytes.length + segs.flatten.length ≤ 9223372036854775808 →
    ∃ b' ms, feed ab b total segs = .ok (b', ms, total + allocSize b'.bytes.length - allocSize b.bytes.length) ∧
      b.bytes ++ segs.flatten = frames ms ++ b'.bytes ∧ Inv b' ∧ (∀ m ∈ ms, m.length < 65536) := by
  induction segs with
  | nil =>
    intro b total hi _
    refine ⟨b, [], ?_, by simp [frames], hi, by simp⟩
    simp only [feed]
    congr 3
    omega
  | cons s ss ih =>
    intro b total hi hsz
    simp only [List.flatten_cons, List.length_append] at hsz
    obtain ⟨b1, m1, e1, e2, e3, e4⟩ := inbufsUpd_spec ab b s total hi (by omega)
    have hl := congrArg List.length e2
    simp only [List.length_append] at hl
    obtain ⟨b2, m2, f1, f2, f3, f4⟩ := ih b1 (total + allocSize b1.bytes.length - allocSize b.bytes.length) e3 (by omega)
    refine ⟨b2, m1 ++ m2, ?_, ?_, f3, ?_⟩
    · simp only [feed]
      rw [e1]
      simp only [Res.bind_ok]
      rw [f1]
      simp only [Res.bind_ok]
      congr 3
      omega
    · rw [List.flatten_cons, ← List.append_assoc, e2, List.append_assoc, f2, frames_append, List.append_assoc]
    · intro m hm
      rcases List.mem_append.mp hm with hm | hm
      · exact e4 m hm
      · exact f4 m hm

end Tcp

/-- C28, XDP and QUIC. Let the stream received so far be the messages `msgs` followed by an
incomplete message `rest` (every byte string has exactly one such division). However it was cut into
segments, the messages delivered are exactly `msgs`, in order, and `rest` waits in the buffer — or,
if the last of `msgs` is empty, it may still wait in the buffer. The buffer accounting equals the
size of the allocation. The outcome is never undefined. -/
theorem C28_inbufs (allocBufs : Bool) (segs msgs : List Tcp.Bytes) (rest : Tcp.Bytes) (total : Int)
    (hs : segs.flatten = frames msgs ++ rest) (hm : ∀ m ∈ msgs, m.length < 65536) (hr : Incomplete rest)
    (hsz : segs.flatten.length ≤ 9223372036854775808) :
    ∃ b out, feed allocBufs ⟨[], 0⟩ total segs = .ok (b, out, total + b.cap) ∧
      ((out = msgs ∧ b.bytes = rest) ∨ (out ++ [[]] = msgs ∧ rest = [] ∧ b.bytes = [0, 0])) := by
  have hinc : Incomplete [] := by left; simp
  obtain ⟨b, out, e1, e2, e3, e4⟩ := feed_spec allocBufs segs ⟨[], 0⟩ total ⟨by simp [allocSize], .inl hinc⟩ (by simpa using hsz)
  refine ⟨b, out, ?_, ?_⟩
  · rw [e1, e3.1]
    simp [allocSize]
  · simp only [List.nil_append] at e2
    rcases e3.2 with h | h
    · left
      have := parse_unique out msgs b.bytes rest e4 hm h hr (by rw [← e2, hs])
      exact this
    · right
      have h00 : frames (out ++ [[]]) ++ [] = frames msgs ++ rest := by
        rw [← hs, e2, h, frames_append]
        simp [frames, frame]
      have := parse_unique (out ++ [[]]) msgs [] rest (by
        intro m hm'
        rcases List.mem_append.mp hm' with hx | hx
        · exact e4 m hx
        · simp at hx; subst hx; simp) hm hinc hr h00
      exact ⟨this.1, this.2.symm, h⟩

/-- C28. Without empty messages the division into segments has no influence at all. -/
theorem C28_inbufs_nonempty (allocBufs : Bool) (segs msgs : List Tcp.Bytes) (rest : Tcp.Bytes) (total : Int)
    (hs : segs.flatten = frames msgs ++ rest) (hm : ∀ m ∈ msgs, 0 < m.length ∧ m.length < 65536) (hr : Incomplete rest)
    (hsz : segs.flatten.length ≤ 9223372036854775808) :
    ∃ b, feed allocBufs ⟨[], 0⟩ total segs = .ok (b, msgs, total + b.cap) ∧ b.bytes = rest := by
  obtain ⟨b, out, e1, e2⟩ := C28_inbufs allocBufs segs msgs rest total hs (fun m h => (hm m h).2) hr hsz
  rcases e2 with ⟨rfl, h⟩ | ⟨h, _, _⟩
  · exact ⟨b, e1, h⟩
  · have := (hm [] (by rw [← h]; simp)).1
    simp at this

/-- C28, a witness for the exception in `C28_inbufs`: an empty message cut between its two length
bytes is not delivered until more data come; received in one segment it is. -/
theorem C28_empty_delayed :
    feed false ⟨[], 0⟩ 0 [[0], [0]] = .ok (⟨[0, 0], 64⟩, [], 64) ∧ feed false ⟨[], 0⟩ 0 [[0, 0]] = .ok (⟨[], 0⟩, [[]], 0) := by
  decide +kernel

/-- Every byte string is a sequence of messages and an incomplete message: the hypotheses of
`C28_inbufs` are met by every stream. -/
theorem C28_division (s : Tcp.Bytes) : ∃ msgs rest, s = frames msgs ++ rest ∧ (∀ m ∈ msgs, m.length < 65536) ∧ Incomplete rest := by
  obtain ⟨ms, rest, _, h2, h3, h4⟩ := collect_count s none (by simp)
  exact ⟨ms, rest, h2, h4, h3⟩

example : feed true ⟨[], 0⟩ 0 [[0], [3, 7], [8, 9, 0], [1, 5, 0, 9]] = .ok (⟨[0, 9], 64⟩, [[7, 8, 9], [5]], 64) := by decide +kernel

/-! ## Outgoing data -/

namespace Tcp

theorem addLoop_nil (mss : Nat) (hm : 0 < mss) (hm2 : mss < 65536) (data : Bytes) (hd : data.length ≤ 65535) :
    ∃ segs, addLoop mss [] data = .ok segs ∧ segs.flatMap (·.bytes) = data ∧
      ∀ s ∈ segs, s.len = s.bytes.length ∧ 0 < s.len ∧ s.len ≤ mss ∧ s.sent = false := by
  induction hn : data.length using Nat.strongRecOn generalizing data with
  | ind n ih =>
    unfold addLoop
    by_cases h0 : data = []
    · simp [h0]
    · have hpos : 0 < data.length := List.length_pos_iff.mpr h0
      rw [dif_neg h0]
      simp only [List.length_nil, Nat.add_zero, Nat.sub_zero]
      have hmod : min data.length mss % 65536 = min data.length mss := Nat.mod_eq_of_lt (by omega)
      rw [hmod, if_neg (by omega), dif_neg (by omega)]
      obtain ⟨segs, e1, e2, e3⟩ := ih (data.length - min data.length mss) (by omega) (data.drop (min data.length mss)) (by simp; omega) (by simp)
      rw [e1]
      simp only [Res.bind_ok]
      refine ⟨_, rfl, by simp [e2], ?_⟩
      intro s hs
      rcases List.mem_cons.mp hs with rfl | hs
      · simp; omega
      · exact e3 s hs

end Tcp

/-- C28, XDP, sending. With a segment size between 2 and 65535 a non-empty message is queued as
segments of at most that size, whose concatenation is the length prefix and the message. -/
theorem C28_outbufs (bufs : List Seg) (data : Tcp.Bytes) (mss : Nat) (h2 : 2 ≤ mss) (hm : mss < 65536) (hd : 0 < data.length) :
    if data.length > 65535 then outbufsAdd bufs data mss = .err .elimit
    else ∃ segs, outbufsAdd bufs data mss = .ok (bufs ++ segs) ∧ segs.flatMap (·.bytes) = frame data ∧
      ∀ s ∈ segs, s.len = s.bytes.length ∧ s.len ≤ mss ∧ s.sent = false := by
  split
  · rename_i h; unfold outbufsAdd; rw [if_pos h]
  · rename_i h
    unfold outbufsAdd addLoop
    rw [if_neg h]
    have hne : data ≠ [] := List.length_pos_iff.mp hd
    rw [dif_neg hne]
    simp only [List.length_cons, List.length_nil, Nat.zero_add]
    have hmod : min (data.length + 2) mss % 65536 = min (data.length + 2) mss := Nat.mod_eq_of_lt (by omega)
    simp only [Nat.reduceAdd]
    rw [hmod, if_neg (by omega), dif_neg (by omega)]
    obtain ⟨segs, e1, e2, e3⟩ := addLoop_nil mss (by omega) hm (data.drop (min (data.length + 2) mss - 2)) (by simp; omega)
    rw [e1]
    simp only [Res.bind_ok]
    refine ⟨_, rfl, ?_, ?_⟩
    · simp [e2, frame]
    · intro s hs
      rcases List.mem_cons.mp hs with rfl | hs
      · simp; omega
      · have := e3 s hs; exact ⟨this.1, this.2.2.1, this.2.2.2⟩

/-- C28. The bound on the segment size is needed: the segment length is kept in 16 bits. -/
theorem C28_outbufs_mss_overflow : ∃ data : Tcp.Bytes, data.length = 65535 ∧ outbufsAdd [] data 65537 = .ub := by
  have hl : (List.replicate 65535 (0 : UInt8)).length = 65535 := List.length_replicate
  generalize List.replicate 65535 (0 : UInt8) = d at *
  refine ⟨d, hl, ?_⟩
  unfold outbufsAdd addLoop
  have hne : d ≠ [] := by intro h; rw [h] at hl; exact absurd hl (by decide)
  rw [if_neg (by omega), dif_neg hne]
  simp only [List.length_cons, List.length_nil, hl]
  rw [if_pos (by decide)]
  rfl

/-- C28. Acknowledgement comparison: with 32-bit sequence numbers, `end` is acknowledged by `ackno`
iff `ackno` is ahead of it by less than 2^31 (modulo 2^32). -/
theorem C28_seqno (e ackno : Nat) (he : e < 4294967296) (ha : ackno < 4294967296) :
    seqnoLower e ackno ((ackno + 4294967296 - 2147483647) % 4294967296) = true ↔
      (ackno + 4294967296 - e) % 4294967296 < 2147483648 := by
  unfold seqnoLower
  split <;> simp <;> omega

/-- C28. An acknowledgement removes exactly the longest prefix of sent and acknowledged segments. -/
theorem C28_ack (ackno : Nat) (ha : ackno < 4294967296) (bufs : List Seg) :
    ∃ gone, bufs = gone ++ outbufsAck ackno bufs ∧
      (∀ s ∈ gone, s.sent = true ∧ (ackno + 4294967296 - (s.seqno + s.len) % 4294967296) % 4294967296 < 2147483648) ∧
      ∀ s t, outbufsAck ackno bufs = s :: t →
        ¬ (s.sent = true ∧ (ackno + 4294967296 - (s.seqno + s.len) % 4294967296) % 4294967296 < 2147483648) := by
  induction bufs with
  | nil => exact ⟨[], by simp [outbufsAck], by simp, by simp [outbufsAck]⟩
  | cons s t ih =>
    have hs := C28_seqno ((s.seqno + s.len) % 4294967296) ackno (by omega) ha
    unfold outbufsAck
    split
    · rename_i hc
      obtain ⟨gone, g1, g2, g3⟩ := ih
      rw [Bool.and_eq_true] at hc
      refine ⟨s :: gone, by rw [List.cons_append, ← g1], ?_, g3⟩
      intro x hx
      rcases List.mem_cons.mp hx with rfl | hx
      · exact ⟨hc.1, hs.mp hc.2⟩
      · exact g2 x hx
    · rename_i hc
      refine ⟨[], rfl, by simp, ?_⟩
      intro s' t' he
      injection he with h1 h2
      subst h1
      rw [← hs]
      rwa [Bool.and_eq_true] at hc

/-- C28. Segments selected for sending: without resending exactly the first unsent one and its
successors are considered, and as many are sent as fit into the window after what is in flight. -/
theorem C28_can_send (bufs : List Seg) (window : Int) (resend : Bool) :
    ∃ flight, bufs = flight ++ (canSend bufs window resend).1 ∧
      (∀ s ∈ flight, s.sent = true ∧ resend = false) ∧
      (resend = false → ∀ s t, (canSend bufs window resend).1 = s :: t → s.sent = false) ∧
      (canSend bufs window resend).2 ≤ (canSend bufs window resend).1.length ∧
      ∀ n ≤ (canSend bufs window resend).1.length,
        (n ≤ (canSend bufs window resend).2 ↔
          ∀ m, m < n → ((((flight ++ ((canSend bufs window resend).1.take (m + 1))).map (·.len)).sum : Nat) : Int) ≤ window) := by
  have hskip : ∀ (bufs : List Seg) (w : Int), ∃ flight, bufs = flight ++ (skipSent resend bufs w).1 ∧
      (∀ s ∈ flight, s.sent = true ∧ resend = false) ∧
      (resend = false → ∀ s t, (skipSent resend bufs w).1 = s :: t → s.sent = false) ∧
      (skipSent resend bufs w).2 = w - ((flight.map (·.len)).sum : Nat) := by
    intro bufs
    induction bufs with
    | nil => intro w; exact ⟨[], by simp [skipSent], by simp, by simp [skipSent], by simp [skipSent]⟩
    | cons s t ih =>
      intro w
      unfold skipSent
      split
      · rename_i hc
        obtain ⟨fl, f1, f2, f3, f4⟩ := ih (w - s.len)
        simp only [Bool.and_eq_true, Bool.not_eq_true'] at hc
        refine ⟨s :: fl, by rw [List.cons_append, ← f1], ?_, f3, ?_⟩
        · intro x hx
          rcases List.mem_cons.mp hx with rfl | hx
          · exact hc
          · exact f2 x hx
        · rw [f4]; simp; omega
      · rename_i hc
        refine ⟨[], rfl, by simp, ?_, by simp⟩
        intro hr s' t' he
        injection he with h1 _
        subst h1
        simpa [hr] using hc
  have hfit : ∀ (l : List Seg) (w : Int), fitCount l w ≤ l.length ∧ ∀ n ≤ l.length, (n ≤ fitCount l w ↔
      ∀ m, m < n → ((((l.take (m + 1)).map (·.len)).sum : Nat) : Int) ≤ w) := by
    intro l
    induction l with
    | nil => intro w; simp [fitCount]
    | cons s t ih =>
      intro w
      unfold fitCount
      split
      · rename_i hw
        obtain ⟨i1, i2⟩ := ih (w - s.len)
        refine ⟨by simp; omega, ?_⟩
        intro n hn
        cases n with
        | zero => simp
        | succ n =>
          have := i2 n (by simpa using hn)
          rw [Nat.add_le_add_iff_right, this]
          constructor
          · intro h m hm
            cases m with
            | zero => simpa using hw
            | succ m => have := h m (by omega); simp at this ⊢; omega
          · intro h m hm
            have := h (m + 1) (by omega)
            simp at this ⊢
            omega
      · rename_i hw
        refine ⟨by simp, ?_⟩
        intro n hn
        constructor
        · intro h; have : n = 0 := by omega
          subst this; simp
        · intro h
          by_cases h0 : n = 0
          · omega
          · have := h 0 (by omega)
            simp at this
            omega
  obtain ⟨fl, f1, f2, f3, f4⟩ := hskip bufs window
  have hcs : canSend bufs window resend = ((skipSent resend bufs window).1, fitCount (skipSent resend bufs window).1 (skipSent resend bufs window).2) := rfl
  rw [hcs]
  obtain ⟨g1, g2⟩ := hfit (skipSent resend bufs window).1 (skipSent resend bufs window).2
  refine ⟨fl, f1, f2, f3, g1, ?_⟩
  intro n hn
  have hsum : ∀ m, (((fl ++ (skipSent resend bufs window).1.take (m + 1)).map (·.len)).sum : Nat) =
      (fl.map (·.len)).sum + (((skipSent resend bufs window).1.take (m + 1)).map (·.len)).sum := by
    intro m; rw [List.map_append, List.sum_append]
  rw [g2 n hn, f4]
  constructor
  · intro h m hm
    have := h m hm
    simp only
    rw [hsum m]
    omega
  · intro h m hm
    have := h m hm
    simp only at this
    rw [hsum m] at this
    omega

/-! ## Sockets -/

namespace Tcp

theorem iovShift_flatten {α : Type} (iov : List (List α)) (n : Nat) (h : n ≤ iov.flatten.length) :
    ∃ iov', iovShift iov n = .ok iov' ∧ iov'.flatten = iov.flatten.drop n := by
  fun_induction iovShift iov n with
  | case1 iov => exact ⟨iov, rfl, rfl⟩
  | case2 n => simp at h
  | case3 v vs n hv =>
    refine ⟨_, rfl, ?_⟩
    simp only [List.flatten_cons]
    rw [List.drop_append_of_le_length (by omega)]
  | case4 v vs n hv ih =>
    simp only [List.flatten_cons, List.length_append] at h
    obtain ⟨iov', e1, e2⟩ := ih (by omega)
    refine ⟨iov', e1, ?_⟩
    rw [e2, List.flatten_cons, List.drop_append, (List.drop_eq_nil_of_le (by omega) : v.drop n.succ = [])]
    rfl

theorem ioExec_spec {α : Type} (avail total : Nat) (cells : List α) (hc : cells.length = total) :
    ∀ (ps : List P) (ws : List W) (iov : List (List α)) (done : List α) (r : Io α),
    cells = done ++ iov.flatten → done.length ≤ avail →
    ioExec false avail total ps ws iov done = some r →
      r.res ≠ .ub ∧ r.moved <+: cells ∧ r.moved.length ≤ avail ∧ (∀ n, r.res = .ok n → n = total ∧ r.moved = cells) := by
  intro ps
  induction ps with
  | nil => intro ws iov done r _ _ h; simp [ioExec] at h
  | cons p ps ih =>
    intro ws iov done r hd ha h
    have hpre : done <+: cells := ⟨iov.flatten, hd.symm⟩
    cases p with
    | eintr => exact ih ws iov done r hd ha (by simpa [ioExec] using h)
    | fail =>
      simp only [ioExec] at h
      injection h with h; subst h
      exact ⟨by simp, hpre, ha, by simp⟩
    | again =>
      simp only [ioExec] at h
      cases hw : waitLoop ws with
      | none => rw [hw] at h; cases h
      | some x =>
        obtain ⟨o, ws'⟩ := x
        rw [hw] at h
        cases o with
        | none => exact ih ws' iov done r hd ha h
        | some e =>
          simp only at h
          injection h with h; subst h
          exact ⟨by simp, hpre, ha, by simp⟩
    | ret n =>
      simp only [ioExec] at h
      generalize hk : min n (min iov.flatten.length (avail - done.length)) = k at h
      split at h
      · injection h with h; subst h
        exact ⟨by simp, hpre, ha, by simp⟩
      · rename_i hk0
        have hkl : k ≤ iov.flatten.length := by omega
        have hpre' : done ++ iov.flatten.take k <+: cells := by
          rw [hd]; exact ⟨iov.flatten.drop k, by rw [List.append_assoc, List.take_append_drop]⟩
        have hlen' : (done ++ iov.flatten.take k).length = done.length + k := by
          rw [List.length_append, List.length_take, Nat.min_eq_left hkl]
        split at h
        · rename_i hfull
          simp only [Bool.false_eq_true, false_or] at hfull
          injection h with h; subst h
          refine ⟨by simp, hpre', by show (done ++ iov.flatten.take k).length ≤ avail; omega, ?_⟩
          intro m hm
          simp only [Res.ok.injEq] at hm
          refine ⟨by omega, ?_⟩
          exact hpre'.eq_of_length (by omega)
        · obtain ⟨iov', s1, s2⟩ := iovShift_flatten iov k hkl
          rw [s1] at h
          simp only at h
          cases hw : waitLoop ws with
          | none => rw [hw] at h; cases h
          | some x =>
            obtain ⟨o, ws'⟩ := x
            rw [hw] at h
            cases o with
            | none =>
              refine ih ws' iov' _ r ?_ (by omega) h
              rw [s2, List.append_assoc, List.take_append_drop]; exact hd
            | some e =>
              simp only at h
              injection h with h; subst h
              exact ⟨by simp, hpre', by show (done ++ iov.flatten.take k).length ≤ avail; omega, by simp⟩

theorem fill_prefix (n : Nat) (data : Bytes) (hd : data.length ≤ n) :
    fill n ((cells n).take data.length) data = data ++ List.replicate (n - data.length) 0 := by
  have key : ∀ (data : Bytes) (k : Nat) (pre : Bytes), pre.length = k → k + data.length ≤ n →
      ((((List.range' k data.length)).zip data).foldl (fun m p => m.set p.1 p.2) (pre ++ List.replicate (n - k) 0)) =
        pre ++ data ++ List.replicate (n - (k + data.length)) (0 : UInt8) := by
    intro data
    induction data with
    | nil => intro k pre hk _; simp
    | cons d t ih =>
      intro k pre hk hn
      simp only [List.length_cons] at hn ⊢
      rw [List.range'_succ]
      simp only [List.zip_cons_cons, List.foldl_cons]
      have hs : (pre ++ List.replicate (n - k) 0).set k d = (pre ++ [d]) ++ List.replicate (n - (k + 1)) 0 := by
        have : n - k = (n - (k + 1)) + 1 := by omega
        rw [this, List.replicate_succ]
        subst hk
        simp
      rw [hs, ih (k + 1) (pre ++ [d]) (by simp [hk]) (by omega)]
      simp
      omega
  unfold fill cells
  have hr : (List.range n).take data.length = List.range' 0 data.length := by
    rw [List.take_range, Nat.min_eq_left hd, List.range_eq_range']
  rw [hr]
  have := key data 0 [] rfl (by omega)
  simpa using this

theorem zip_take_left {α β : Type} (a : List α) (b : List β) : a.zip b = a.zip (b.take a.length) := by
  induction a generalizing b with
  | nil => simp
  | cons x t ih =>
    cases b with
    | nil => simp
    | cons y u => simp only [List.length_cons, List.take_succ_cons, List.zip_cons_cons]; rw [ih]

theorem fill_full (n : Nat) (data : Bytes) (hd : n ≤ data.length) : fill n (cells n) data = data.take n := by
  have hl : (data.take n).length = n := by simp; omega
  have h := fill_prefix n (data.take n) (by omega)
  rw [hl, Nat.sub_self] at h
  have h1 : (cells n).take n = cells n := List.take_of_length_le (by simp [cells])
  rw [h1] at h
  have h2 : fill n (cells n) data = fill n (cells n) (data.take n) := by
    unfold fill
    rw [zip_take_left (cells n) data]
    have : (cells n).length = n := by simp [cells]
    rw [this]
  rw [h2, h]
  simp

end Tcp

/-- C28, sockets, sending: whatever the system calls return (partial writes, interrupts, errors), the
bytes that reach the peer are a prefix of the length prefix and the message; on success they are
all of it, and the returned number is the size of the message. -/
theorem C28_dns_tcp_send (msg : Tcp.Bytes) (avail : Nat) (ps : List P) (ws : List W) (r : Io UInt8)
    (h : dnsTcpSend msg avail ps ws = some r) :
    r.res ≠ .ub ∧ r.moved <+: frame msg ∧ ∀ n, r.res = .ok n → n = msg.length ∧ msg.length ≤ 65535 ∧ r.moved = frame msg := by
  unfold dnsTcpSend at h
  split at h
  · injection h with h; subst h
    exact ⟨by simp, List.nil_prefix, by simp⟩
  · rename_i hl
    have hfr : frame msg = [] ++ ([[UInt8.ofNat (msg.length / 256), UInt8.ofNat (msg.length % 256)], msg] : List Tcp.Bytes).flatten := by
      simp [frame]
    cases hx : ioExec false avail (2 + msg.length) ps ws
        [[UInt8.ofNat (msg.length / 256), UInt8.ofNat (msg.length % 256)], msg] [] with
    | none => rw [hx] at h; cases h
    | some x =>
      have sp := ioExec_spec avail (2 + msg.length) (frame msg) (frame_length msg) ps ws _ [] x hfr (by simp) hx
      rw [hx] at h
      obtain ⟨res, moved⟩ := x
      cases res with
      | ok n =>
        simp only at h
        injection h with h; subst h
        refine ⟨by simp, sp.2.1, ?_⟩
        intro m hm
        simp only [Res.ok.injEq] at hm
        exact ⟨hm.symm, by omega, (sp.2.2.2 n rfl).2⟩
      | err e =>
        simp only at h
        injection h with h; subst h
        exact ⟨by simp, sp.2.1, by simp⟩
      | ub => exact absurd rfl sp.1

/-- C28, sockets, receiving: from a stream that starts with a framed message, a successful call
returns exactly this message and consumes exactly its frame, however the system calls cut the
stream; no call is undefined or consumes more than the frame. -/
theorem C28_dns_tcp_recv (msg rest : Tcp.Bytes) (size : Nat) (hm : msg.length < 65536) (ps1 : List P) (ws1 : List W) (ps2 : List P) (ws2 : List W)
    (r : Res Tcp.Bytes) (used : Nat) (h : dnsTcpRecv (frame msg ++ rest) size ps1 ws1 ps2 ws2 = some (r, used)) :
    r ≠ .ub ∧ used ≤ (frame msg).length ∧ ∀ m, r = .ok m → m = msg ∧ used = (frame msg).length ∧ msg.length ≤ size := by
  have hfl := frame_length msg
  unfold dnsTcpRecv at h
  have hc2 : (cells 2).length = 2 := by simp [cells]
  have hlen : (frame msg ++ rest).length = 2 + msg.length + rest.length := by rw [List.length_append, hfl]
  cases hx : ioExec false (frame msg ++ rest).length 2 ps1 ws1 [cells 2] [] with
  | none => rw [hx] at h; cases h
  | some x =>
    rw [hx] at h
    have sp := ioExec_spec (frame msg ++ rest).length 2 (cells 2) hc2 ps1 ws1 [cells 2] [] x (by simp) (by simp) hx
    have hpl := sp.2.1.length_le
    rw [hc2] at hpl
    obtain ⟨res, moved⟩ := x
    cases res with
    | ub => exact absurd rfl sp.1
    | err e =>
      simp only at h
      injection h with h
      injection h with h1 h2
      subst h1 h2
      refine ⟨by simp, ?_, by simp⟩
      simp only at hpl
      omega
    | ok n =>
      have hmv : moved = cells 2 := (sp.2.2.2 n rfl).2
      simp only at h
      rw [hmv, fill_full 2 _ (by omega)] at h
      have hpay : payloadLen ((frame msg ++ rest).take 2) = msg.length := by
        have := payloadLen_frame msg rest hm
        have h3 : payloadLen ((frame msg ++ rest).take 2) = payloadLen (frame msg ++ rest) := by
          unfold frame
          rfl
        rw [h3, this]
      rw [hpay, hc2] at h
      split at h
      · injection h with h
        injection h with h1 h2
        subst h1 h2
        exact ⟨by simp, by omega, by simp⟩
      · rename_i hsz
        have hc3 : (cells msg.length).length = msg.length := by simp [cells]
        cases hy : ioExec false ((frame msg ++ rest).length - 2) msg.length ps2 ws2 [cells msg.length] [] with
        | none => rw [hy] at h; cases h
        | some y =>
          rw [hy] at h
          have sp2 := ioExec_spec ((frame msg ++ rest).length - 2) msg.length (cells msg.length) hc3 ps2 ws2 [cells msg.length] [] y (by simp) (by simp) hy
          have hpl2 := sp2.2.1.length_le
          rw [hc3] at hpl2
          obtain ⟨res2, moved2⟩ := y
          cases res2 with
          | ub => exact absurd rfl sp2.1
          | err e =>
            simp only at h
            injection h with h
            injection h with h1 h2
            subst h1 h2
            refine ⟨by simp, ?_, by simp⟩
            simp only at hpl2
            omega
          | ok k =>
            obtain ⟨hk, hmv2⟩ := sp2.2.2.2 k rfl
            simp only at h hmv2
            injection h with h
            injection h with h1 h2
            subst h1 h2
            refine ⟨by simp, by rw [hmv2, hc3]; omega, ?_⟩
            intro m hme
            simp only [Res.ok.injEq] at hme
            refine ⟨?_, by rw [hmv2, hc3]; omega, by omega⟩
            rw [← hme, hmv2]
            have hdrop : (frame msg ++ rest).drop 2 = msg ++ rest := by simp [frame]
            rw [hdrop, fill_full _ _ (by simp), hk]
            simp

example : dnsTcpSend [7, 8, 9] 100 [.ret 1, .eintr, .ret 2, .again, .ret 9] [.ready, .retry, .ready, .ready] =
    some ⟨.ok 3, [0, 3, 7, 8, 9]⟩ := by decide
example : dnsTcpRecv [0, 3, 7, 8, 9, 1] 512 [.ret 1, .ret 1] [.ready] [.ret 2, .again, .ret 5] [.ready, .ready] =
    some (.ok [7, 8, 9], 5) := by decide
example : outbufsAdd [] [1, 2, 3, 4, 5] 3 = .ok [⟨3, 0, false, [0, 5, 1]⟩, ⟨3, 0, false, [2, 3, 4]⟩, ⟨1, 0, false, [5]⟩] := by decide +kernel

end Knot
