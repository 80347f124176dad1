import Verif.Synth.Lemmas4
/-!
# Lemmas: arbitrary names, parents of names
-/
namespace Knot.Synth
open Sockaddr (Addr Fam Bytes bit bitLen netMatch rangeMatch)
open Spec

/-! ## Nothing is undefined -/

/-- What the loop keeps. -/
structure LoopOk (labels : Nat) (can4 : Bool) (b4 b6 : Bytes) : Prop where
  l4 : can4 = true → labels ≤ 4 ∧ 2 * labels ≤ b4.length
  u4 : b4.length ≤ 4 * labels ∧ b4.length ≤ 16
  u6 : b6.length ≤ labels
  l : labels ≤ 32

theorem revLoop_safe : ∀ (n : Name) (labels : Nat) (can4 can6 : Bool) (b4 b6 : Bytes), LoopOk labels can4 b4 b6 →
    ∃ r, revLoop n labels can4 can6 b4 b6 = .ok r ∧ ∀ s, r = some s → LoopOk s.labels s.can4 s.buf4 s.buf6
  | [], labels, can4, can6, b4, b6, h => by
    unfold revLoop
    split
    · exact ⟨_, rfl, by simp⟩
    · exact ⟨_, rfl, fun s e => by cases e; exact h⟩
  | l :: rest, labels, can4, can6, b4, b6, h => by
    have h1 := h.l4
    have h2 := h.u4
    have h3 := h.u6
    unfold revLoop
    split
    · exact ⟨_, rfl, fun s e => by cases e; exact h⟩
    · split
      · exact ⟨_, rfl, fun s e => by cases e; exact h⟩
      · split
        · split
          · rw [if_pos (by omega)]
            refine revLoop_safe rest _ _ _ _ _ ⟨fun hc => ?_, ?_, ?_, by omega⟩
            · have := h1 hc; simp only [List.cons_append, List.length_cons, List.length_append]; omega
            · simp only [List.cons_append, List.length_cons, List.length_append]; omega
            · simp only [List.length_append]; omega
          · split
            · rw [if_pos (by omega)]
              refine revLoop_safe rest _ _ _ _ _ ⟨fun hc => ?_, ?_, by omega, by omega⟩
              · have := h1 hc; simp only [List.cons_append, List.length_cons, List.length_append]; omega
              · simp only [List.cons_append, List.length_cons, List.length_append]; omega
            · split
              · split
                · exact ⟨_, rfl, by simp⟩
                · exact revLoop_safe rest _ _ _ _ _ h
              · exact ⟨_, rfl, by simp⟩
        · split
          · exact ⟨_, rfl, by simp⟩
          · next hc =>
            rw [if_pos (by omega)]
            simp only [ne_eq, decide_not, Bool.or_eq_true, Bool.not_eq_true', decide_eq_false_iff_not, not_or, Classical.not_not] at hc
            refine revLoop_safe rest _ _ _ _ _ ⟨by simp, by omega, ?_, by omega⟩
            simp only [List.length_append, hc.2]; omega

theorem write_length (short : Bool) (start stop : Option Nat) : ∀ (i : Nat) (bs : List Bytes), (∀ b ∈ bs, b.length ≤ 4) →
    (writeLoop short start stop i bs).length ≤ 5 * bs.length
  | _, [], _ => by simp [writeLoop]
  | i, b :: bs, h => by
    have ih := write_length short start stop (i + 1) bs (fun x hx => h x (by simp [hx]))
    have hb := h b (by simp)
    have hw : (blockWrite b).length ≤ 4 := by
      rcases b with _ | ⟨c0, _ | ⟨c1, _ | ⟨c2, _ | ⟨c3, _ | ⟨c4, b⟩⟩⟩⟩⟩ <;> simp only [blockWrite, List.length_nil, Nat.zero_le]
      grind
    have h1 : ((if short = true then blockWrite b else b) ++ (if i < 7 then [(58 : UInt8)] else [])).length ≤ 5 := by
      rw [List.length_append]
      have : (if i < 7 then [(58 : UInt8)] else []).length ≤ 1 := by split <;> simp
      split <;> omega
    simp only [writeLoop, List.length_append, List.length_cons] at h1 ⊢
    cases start with
    | none => simp only [List.length_append]; omega
    | some s =>
      dsimp only
      split
      · simp only [List.length_append]; omega
      · split <;> simp <;> omega

theorem blocks_length : ∀ (n : Nat) (s : Bytes), (blocksOf n s).length = n ∧ ∀ b ∈ blocksOf n s, b.length ≤ 4
  | 0, s => by simp [blocksOf]
  | n + 1, s => by
    have := blocks_length n (s.drop 4)
    refine ⟨by simp [blocksOf, this.1], ?_⟩
    intro b hb
    rw [blocksOf] at hb
    rcases List.mem_cons.1 hb with rfl | hb
    · simp; omega
    · exact this.2 b hb

theorem text6_length (short : Bool) (b6 : Bytes) : (text6 short b6).length ≤ 41 := by
  unfold text6
  have := blocks_length 8 (b6 ++ List.replicate (32 - b6.length) 48)
  have hw := fun s e => write_length short s e 0 _ this.2
  dsimp only
  rw [List.length_append]
  have := hw (comprLoop short (blocksOf 8 (b6 ++ List.replicate (32 - b6.length) 48)) 8 0 none none).1
    (comprLoop short (blocksOf 8 (b6 ++ List.replicate (32 - b6.length) 48)) 8 0 none none).2
  simp only [List.length_cons, List.length_nil]
  omega

theorem reverse_safe (t : Tpl) (n : Name) : ∃ r, reverseParse t n = .ok r ∧
    ∀ p, r = some p → p.text.length ≤ 41 ∧ (p.fam = .inet ∨ p.fam = .inet6) := by
  obtain ⟨r, h1, h2⟩ := revLoop_safe n 0 true true [] [] ⟨by simp, by simp, by simp, by simp⟩
  unfold reverseParse
  rw [h1]
  simp only [Res.bind_ok]
  cases r with
  | none => exact ⟨_, rfl, by simp⟩
  | some s =>
    have hs := h2 s rfl
    dsimp only
    split
    · next hc =>
      simp only [Bool.and_eq_true] at hc
      have h4 := hs.l4 hc.1
      have h5 := hs.u4
      unfold text4
      rw [if_neg (by omega)]
      simp only [Res.bind_ok]
      refine ⟨_, rfl, fun p e => ?_⟩
      cases e
      refine ⟨?_, .inl rfl⟩
      dsimp only
      split
      · simp only [List.length_append, List.length_drop, List.length_replicate, List.length_tail]
        have : zero4.length = 8 := rfl
        omega
      · simp only [List.length_append, List.length_replicate]
        have : zero4.length = 8 := rfl
        omega
    · split
      · exact ⟨_, rfl, fun p e => by cases e; exact ⟨text6_length _ _, .inr rfl⟩⟩
      · exact ⟨_, rfl, by simp⟩

theorem pton4_len {s r : Bytes} (h : pton4 s = some r) : r.length = 4 := by
  unfold pton4 at h
  split at h
  · next a b c d _ =>
    cases ha : octet a <;> cases hb : octet b <;> cases hc : octet c <;> cases hd : octet d <;> simp [ha, hb, hc, hd] at h
    rw [← h]; rfl
  · cases h

theorem pton6_len {s r : Bytes} (h : pton6 s = some r) : r.length = 16 := by
  unfold pton6 at h
  split at h
  · cases hg : groups (fields 58 s) with
    | none => simp [hg] at h
    | some x =>
      simp only [hg, Option.bind_some] at h
      split at h
      · cases h; assumption
      · cases h
  · next a b _ =>
    split at h
    · cases h
    · cases hx : side a with
      | none => simp [hx] at h
      | some x =>
        cases hy : side b with
        | none => simp [hx, hy] at h
        | some y =>
          simp only [hx, hy, Option.bind_eq_bind, Option.bind_some] at h
          split at h
          · cases h; simp only [List.length_append, List.length_replicate]; omega
          · cases h

theorem set_addr {fam : Fam} {s : Bytes} {a : Addr} (h : sockaddrSet fam s = some a) : IsAddr a ∧ a.fam = fam := by
  unfold sockaddrSet at h
  split at h
  · cases hp : pton4 (cstr s) with
    | none => simp [hp] at h
    | some r => simp [hp] at h; subst h; exact ⟨⟨rfl, .inl ⟨rfl, pton4_len hp⟩⟩, rfl⟩
  · cases hp : pton6 (cstr s) with
    | none => simp [hp] at h
    | some r => simp [hp] at h; subst h; exact ⟨⟨rfl, .inr ⟨rfl, pton6_len hp⟩⟩, rfl⟩
  · cases h

/-- Every answer, by cases. -/
theorem answer_cases (le : Bool) (t : Tpl) (hn : GoodNets t) (n : Name) (q : Nat) :
    answer le t n q = .ok .miss ∨ ∃ p a, sockaddrSet p.fam p.text = some a ∧ IsAddr a ∧ a.fam = p.fam ∧ Covered le t a ∧
      ((t.reverse = true ∧ reverseParse t (n.map fun l => l.map lower) = .ok (some p) ∧
        answer le t n q = .ok (if p.parent || (q ≠ 12 && q ≠ 255) then .nodata else ptrAns t p)) ∨
       (t.reverse = false ∧ forwardParse t (n.map fun l => l.map lower) = some p ∧
        answer le t n q = .ok (if !satisfied q p.fam then .nodata else .addr p.fam a.raw))) := by
  have hp : ∃ r, (if t.reverse then reverseParse t (n.map fun l => l.map lower) else .ok (forwardParse t (n.map fun l => l.map lower))) =
      .ok r := by
    split
    · obtain ⟨r, h, _⟩ := reverse_safe t (n.map fun l => l.map lower); exact ⟨r, h⟩
    · exact ⟨_, rfl⟩
  obtain ⟨r, hr⟩ := hp
  cases r with
  | none => left; unfold answer templateMatch; rw [hr]; rfl
  | some p =>
    cases hs : sockaddrSet p.fam p.text with
    | none => left; unfold answer templateMatch; rw [hr]; simp only [Res.bind_ok, hs]
    | some a =>
      obtain ⟨ha, hf⟩ := set_addr hs
      by_cases hc : Covered le t a
      · right
        refine ⟨p, a, hs, ha, hf, hc, ?_⟩
        cases ht : t.reverse with
        | true =>
          left
          rw [ht, if_pos rfl] at hr
          refine ⟨rfl, hr, ?_⟩
          unfold answer templateMatch
          rw [if_pos ht, hr]
          simp only [Res.bind_ok, hs, findNet_yes ha hn hc, if_true, ht]
          split <;> rfl
        | false =>
          right
          rw [ht] at hr
          simp only [Bool.false_eq_true, if_false, Res.ok.injEq] at hr
          refine ⟨rfl, hr, ?_⟩
          have hpar : p.parent = false := by
            unfold forwardParse at hr
            dsimp only at hr
            split at hr
            · cases hr
            · cases hr; rfl
          unfold answer templateMatch
          rw [if_neg (by simp [ht]), hr]
          simp only [Res.bind_ok, hs, findNet_yes ha hn hc, if_true, ht, hpar, Bool.false_eq_true, if_false]
          split <;> rfl
      · left
        unfold answer templateMatch
        rw [hr]
        simp only [Res.bind_ok, hs, findNet_no ha hn hc, Bool.false_eq_true, if_false]

/-! ## Parents of names -/

/-- An address with all but the first `k` half-octets zero. -/
def trunc : Bytes → Nat → Bytes
  | [], _ => []
  | _ :: xs, 0 => 0 :: trunc xs 0
  | x :: xs, 1 => (x / 16 * 16) :: trunc xs 0
  | x :: xs, k + 2 => x :: trunc xs k

theorem trunc_length : ∀ (raw : Bytes) (k : Nat), (trunc raw k).length = raw.length
  | [], k => by simp [trunc]
  | _ :: xs, 0 => by simp [trunc, trunc_length xs 0]
  | x :: xs, 1 => by simp [trunc, trunc_length xs 0]
  | x :: xs, k + 2 => by simp [trunc, trunc_length xs k]

theorem half_facts : ∀ n < 256, (n.toUInt8 / 16 * 16).toNat / 16 = n / 16 ∧ (n.toUInt8 / 16 * 16).toNat % 16 = 0 ∧
    ∀ i < 4, (n.toUInt8 / 16 * 16).toNat.testBit (7 - i) = n.testBit (7 - i) := by decide +kernel

theorem half_fact (x : UInt8) : (x / 16 * 16).toNat / 16 = x.toNat / 16 ∧ (x / 16 * 16).toNat % 16 = 0 ∧
    ∀ i < 4, (x / 16 * 16).toNat.testBit (7 - i) = x.toNat.testBit (7 - i) := by
  have := half_facts x.toNat x.toNat_lt
  simpa using this

theorem trunc_hex : ∀ (raw : Bytes) (k : Nat), k ≤ 2 * raw.length →
    (trunc raw k).flatMap (fun b => [nibble (b.toNat / 16), nibble (b.toNat % 16)]) =
      (raw.flatMap fun b => [nibble (b.toNat / 16), nibble (b.toNat % 16)]).take k ++ List.replicate (2 * raw.length - k) 48
  | [], k, h => by simp at h; subst h; rfl
  | x :: xs, 0, h => by
    have ih := trunc_hex xs 0 (by omega)
    have n0 : nibble 0 = 48 := by decide
    simp only [trunc, List.flatMap_cons, ih, List.take_zero, List.nil_append, List.length_cons, Nat.sub_zero]
    rw [show 2 * (xs.length + 1) = 2 * xs.length + 1 + 1 by omega, List.replicate_succ, List.replicate_succ]
    simp [n0]
  | x :: xs, 1, h => by
    have ih := trunc_hex xs 0 (by omega)
    have n0 : nibble 0 = 48 := by decide
    have hf := half_fact x
    simp only [trunc, List.flatMap_cons, ih, List.take_zero, List.nil_append, List.length_cons, Nat.sub_zero, hf.1, hf.2.1, n0]
    rw [show 2 * (xs.length + 1) - 1 = 2 * xs.length + 1 by omega, List.replicate_succ]
    simp
  | x :: xs, k + 2, h => by
    have ih := trunc_hex xs k (by simp only [List.length_cons] at h; omega)
    simp only [trunc, List.flatMap_cons, ih, List.length_cons]
    rw [show 2 * (xs.length + 1) - (k + 2) = 2 * xs.length - k by omega]
    simp

theorem bit_cons (x : UInt8) (xs : Bytes) (i : Nat) : bit (x :: xs) i = if i < 8 then x.toNat.testBit (7 - i) else bit xs (i - 8) := by
  unfold bit
  split
  · next h => rw [Nat.div_eq_of_lt h, Nat.mod_eq_of_lt h]; rfl
  · next h =>
    rw [show i / 8 = (i - 8) / 8 + 1 by omega, show (i - 8) % 8 = i % 8 by omega]; rfl

theorem trunc_bit : ∀ (raw : Bytes) (k i : Nat), i < 4 * k → i < 8 * raw.length → bit (trunc raw k) i = bit raw i
  | [], k, i, _, h => by simp at h
  | _ :: xs, 0, i, h, _ => by omega
  | x :: xs, 1, i, h, _ => by
    rw [trunc, bit_cons, bit_cons, if_pos (by omega), if_pos (by omega)]
    exact (half_fact x).2.2 i (by omega)
  | x :: xs, k + 2, i, h, h2 => by
    rw [trunc, bit_cons, bit_cons]
    split
    · rfl
    · exact trunc_bit xs k (i - 8) (by omega) (by simp only [List.length_cons] at h2; omega)

theorem trunc_even : ∀ (raw : Bytes) (k : Nat), k ≤ raw.length → trunc raw (2 * k) = raw.take k ++ List.replicate (raw.length - k) 0
  | [], k, h => by simp at h; subst h; rfl
  | x :: xs, 0, h => by
    have := trunc_even xs 0 (by omega)
    simp only [Nat.mul_zero, List.take_zero, List.nil_append, Nat.sub_zero] at this
    simp only [Nat.mul_zero, trunc, this, List.take_zero, List.nil_append, Nat.sub_zero, List.length_cons, List.replicate_succ]
  | x :: xs, k + 1, h => by
    have := trunc_even xs k (by simp only [List.length_cons] at h; omega)
    rw [show 2 * (k + 1) = 2 * k + 2 by omega, trunc, this]
    simp

theorem text4_any {raw : Bytes} (h : raw.length = 4) : TextOf .inet raw (dotted raw) := by
  rcases raw with _ | ⟨x, _ | ⟨y, _ | ⟨z, _ | ⟨w, _ | ⟨v, r⟩⟩⟩⟩⟩ <;> simp only [List.length_cons, List.length_nil] at h <;> try omega
  exact textOf4 x y z w

/-- A parent of the name of an address is read as the address with zeros. -/
theorem parent_parsed (t : Tpl) (a : Addr) (ha : IsAddr a) (j : Nat) (h0 : 0 < j) (h1 : j ≤ labelsOf a.fam) :
    ∃ s raw, TextOf a.fam raw s ∧ raw.length = a.raw.length ∧ (∀ i < bitsOf a.fam * (labelsOf a.fam - j), bit raw i = bit a.raw i) ∧
      reverseParse t ((reverseName a).drop j) = .ok (some ⟨s ++ [0], a.fam, true⟩) := by
  rcases ha.2 with ⟨hf, hl⟩ | ⟨hf, hl⟩
  · rw [hf] at h1 ⊢
    simp only [labelsOf, bitsOf] at h1 ⊢
    have hn : (reverseName a).drop j = (a.raw.take (4 - j)).reverse.map decimal ++ arpa4 := by
      unfold reverseName
      rw [hf, arpa_spec.1]
      dsimp only
      rw [List.drop_append_of_le_length (by simp; omega), ← List.map_drop, List.drop_reverse, hl]
    have hlen : (a.raw.take (4 - j)).length = 4 - j := by simp; omega
    have he := trunc_even a.raw (4 - j) (by omega)
    have hp := reverse4 t (a.raw.take (4 - j)) (by omega)
    rw [hlen] at hp
    rw [hl] at he
    rw [← he] at hp
    have hll : (trunc a.raw (2 * (4 - j))).length = 4 := (trunc_length _ _).trans hl
    refine ⟨dotted (trunc a.raw (2 * (4 - j))), trunc a.raw (2 * (4 - j)), text4_any hll, trunc_length _ _, ?_, ?_⟩
    · intro i hi
      exact trunc_bit a.raw (2 * (4 - j)) i (by omega) (by omega)
    · rw [hn, hp, decide_eq_true (show 4 - j < 4 by omega)]
  · rw [hf] at h1 ⊢
    simp only [labelsOf, bitsOf] at h1 ⊢
    have hlen := hex_length a.raw
    have hn : (reverseName a).drop j =
        ((a.raw.flatMap fun b => [nibble (b.toNat / 16), nibble (b.toNat % 16)]).take (32 - j)).reverse.map (fun c => [c]) ++ arpa6 := by
      unfold reverseName
      rw [hf, arpa_spec.2]
      dsimp only
      rw [hex_reverse, List.drop_append_of_le_length (by simp only [List.length_map, List.length_reverse]; omega), ← List.map_drop,
        List.drop_reverse, hlen, hl]
    have htl : ((a.raw.flatMap fun b => [nibble (b.toNat / 16), nibble (b.toNat % 16)]).take (32 - j)).length = 32 - j := by
      rw [List.length_take]; omega
    have he := trunc_hex a.raw (32 - j) (by omega)
    have hp := reverse6 t ((a.raw.flatMap fun b => [nibble (b.toNat / 16), nibble (b.toNat % 16)]).take (32 - j))
      (fun c hc => (hex_mem (List.mem_of_mem_take hc)).1) (by omega)
    rw [htl] at hp
    rw [hl, Nat.mul_comm] at he
    simp only [Nat.reduceMul] at he
    rw [← he] at hp
    obtain ⟨s, h2, h3⟩ := textOf6 t.short (trunc a.raw (32 - j)) ((trunc_length _ _).trans hl)
    refine ⟨s, trunc a.raw (32 - j), h2, trunc_length _ _, ?_, ?_⟩
    · intro i hi
      exact trunc_bit a.raw (32 - j) i (by omega) (by omega)
    · rw [hn, hp, h3, decide_eq_true (show 32 - j < 32 by omega)]

theorem parent_answer (le : Bool) (t : Tpl) (ht : t.reverse = true) (hn : GoodNets t) (a : Addr) (ha : IsAddr a) (n : Net) (hm : n ∈ t.nets)
    (hmax : n.max.fam = .unspec) (hin : n.addr.fam = a.fam ∧ ∀ i < min n.mask (bitLen a.fam), bit a.raw i = bit n.addr.raw i)
    (j : Nat) (h0 : 0 < j) (h1 : j ≤ labelsOf a.fam) (hmask : n.mask ≤ bitsOf a.fam * (labelsOf a.fam - j)) (q : Nat) :
    answer le t ((reverseName a).drop j) q = .ok .nodata := by
  obtain ⟨s, raw, h2, h3, h4, h5⟩ := parent_parsed t a ha j h0 (by omega)
  have hb : IsAddr ⟨a.fam, raw, 0⟩ := by
    refine ⟨rfl, ?_⟩
    rcases ha.2 with h | h
    · exact .inl ⟨h.1, by rw [← h.2]; exact h3⟩
    · exact .inr ⟨h.1, by rw [← h.2]; exact h3⟩
  have hc : Covered le t ⟨a.fam, raw, 0⟩ := by
    refine ⟨n, hm, ?_⟩
    rw [if_pos hmax]
    refine ⟨hin.1, fun i hi => ?_⟩
    rw [← hin.2 i hi]
    exact h4 i (by dsimp only at hi; omega)
  unfold answer templateMatch
  rw [List.map_drop, lower_name, if_pos ht, h5]
  simp only [Res.bind_ok, h2.set, findNet_yes hb hn hc, if_true, ht, Bool.true_or]

end Knot.Synth
