import Verif.Synth.Lemmas5
/-!
# Lemmas about texts of IPv4 addresses and about labels that are no numbers
-/
namespace Knot.Synth
open Sockaddr (Addr Fam Bytes)
open Spec

theorem digit_inv {c : UInt8} {d : Nat} (h : decDigit c = some d) : d < 10 ∧ c = (48 + d).toUInt8 := by
  unfold decDigit at h
  split at h
  · rename_i hc
    cases h
    have h1 : 48 ≤ c.toNat := hc.1
    have h2 : c.toNat ≤ 57 := hc.2
    refine ⟨by omega, UInt8.toNat_inj.1 ?_⟩
    rw [Nat.toUInt8, UInt8.toNat_ofNat']
    omega
  · cases h

theorem octet1 : ∀ a : Fin 10, decimal a.val.toUInt8 = [(48 + a.val).toUInt8] := by decide +kernel
theorem octet2 : ∀ a b : Fin 10, a.val ≠ 0 → decimal (a.val * 10 + b.val).toUInt8 = [(48 + a.val).toUInt8, (48 + b.val).toUInt8] := by
  decide +kernel
theorem octet3 : ∀ a b c : Fin 10, a.val ≠ 0 → (a.val * 10 + b.val) * 10 + c.val < 256 →
    decimal ((a.val * 10 + b.val) * 10 + c.val).toUInt8 = [(48 + a.val).toUInt8, (48 + b.val).toUInt8, (48 + c.val).toUInt8] := by
  decide +kernel

theorem octet_inv {s : Bytes} {v : UInt8} (h : octet s = some v) : s = decimal v := by
  unfold octet at h
  split at h
  · cases h
  · rename_i hs
    rw [not_or, not_or] at hs
    obtain ⟨h0, h3, hz⟩ := hs
    cases hn : number 10 decDigit s with
    | none => rw [hn] at h; cases h
    | some n =>
      rw [hn] at h
      simp only [Option.bind_some] at h
      split at h
      · rename_i hlt
        cases h
        match s, h0, h3, hz, hn with
        | [x], _, _, _, hn =>
          simp only [number, List.foldl_cons, List.foldl_nil] at hn
          cases hx : decDigit x with
          | none => rw [hx] at hn; cases hn
          | some a =>
            rw [hx] at hn
            obtain ⟨ha, rfl⟩ := digit_inv hx
            have hn : 0 * 10 + a = n := by simpa using hn
            subst hn
            have := octet1 ⟨a, ha⟩
            simpa using this.symm
        | [x, y], _, _, hz, hn =>
          simp only [number, List.foldl_cons, List.foldl_nil] at hn
          cases hx : decDigit x with
          | none => rw [hx] at hn; simp at hn
          | some a =>
            cases hy : decDigit y with
            | none => rw [hx, hy] at hn; simp at hn
            | some b =>
              rw [hx, hy] at hn
              obtain ⟨ha, rfl⟩ := digit_inv hx
              obtain ⟨hb, rfl⟩ := digit_inv hy
              have hn : a * 10 + b = n := by simpa using hn
              subst hn
              refine (octet2 ⟨a, ha⟩ ⟨b, hb⟩ ?_).symm
              intro e
              have e : a = 0 := e
              subst e
              exact hz (by simp)
        | [x, y, z], _, _, hz, hn =>
          simp only [number, List.foldl_cons, List.foldl_nil] at hn
          cases hx : decDigit x with
          | none => rw [hx] at hn; simp at hn
          | some a =>
            cases hy : decDigit y with
            | none => rw [hx, hy] at hn; simp at hn
            | some b =>
              cases hw : decDigit z with
              | none => rw [hx, hy, hw] at hn; simp at hn
              | some c =>
                rw [hx, hy, hw] at hn
                obtain ⟨ha, rfl⟩ := digit_inv hx
                obtain ⟨hb, rfl⟩ := digit_inv hy
                obtain ⟨hc, rfl⟩ := digit_inv hw
                have hn : (a * 10 + b) * 10 + c = n := by simpa using hn
                subst hn
                refine (octet3 ⟨a, ha⟩ ⟨b, hb⟩ ⟨c, hc⟩ ?_ hlt).symm
                intro e
                have e : a = 0 := e
                subst e
                exact hz (by simp)
        | [], h0, _, _, _ => simp at h0
        | x :: y :: z :: w :: s, _, h3, _, _ => simp at h3
      · cases h

theorem fields_inv (sep : UInt8) : ∀ s : Bytes, s = ((fields sep s).intersperse [sep]).flatten
  | [] => rfl
  | c :: s => by
    have ih := fields_inv sep s
    unfold fields
    by_cases hc : c = sep
    · rw [if_pos hc]
      cases hf : fields sep s with
      | nil =>
        rw [hf] at ih
        exfalso
        have : ∀ s, fields sep s ≠ [] := by
          intro s
          cases s with
          | nil => simp [fields]
          | cons d s => unfold fields; split; simp; split <;> simp
        exact this s hf
      | cons g gs =>
        rw [hf] at ih
        rw [List.intersperse_cons_cons, List.flatten_cons, List.flatten_cons, ← ih, hc]
        rfl
    · rw [if_neg hc]
      cases hf : fields sep s with
      | nil =>
        rw [hf] at ih
        rw [ih]; rfl
      | cons g gs =>
        rw [hf] at ih
        dsimp only
        cases gs with
        | nil => simpa using ih
        | cons k ks =>
          rw [List.intersperse_cons_cons, List.flatten_cons, List.flatten_cons] at ih ⊢
          conv => lhs; rw [ih]
          rfl

/-- A text is an IPv4 address only if it is the address in decimal numbers with dots. -/
theorem text_address {s raw : Bytes} (h : pton4 s = some raw) :
    ∃ a b c d, raw = [a, b, c, d] ∧ s = decimal a ++ [46] ++ decimal b ++ [46] ++ decimal c ++ [46] ++ decimal d := by
  unfold pton4 at h
  split at h
  · rename_i a b c d hf
    cases ha : octet a with
    | none => rw [ha] at h; simp at h
    | some a' =>
    cases hb : octet b with
    | none => rw [ha, hb] at h; simp at h
    | some b' =>
    cases hc : octet c with
    | none => rw [ha, hb, hc] at h; simp at h
    | some c' =>
    cases hd : octet d with
    | none => rw [ha, hb, hc, hd] at h; simp at h
    | some d' =>
      rw [ha, hb, hc, hd] at h
      have h : [a', b', c', d'] = raw := by simpa using h
      refine ⟨a', b', c', d', h.symm, ?_⟩
      have := fields_inv 46 s
      rw [hf, octet_inv ha, octet_inv hb, octet_inv hc, octet_inv hd] at this
      simpa using this
  · cases h

theorem takeWhile_end : ∀ m : Bytes, (m ++ [0]).takeWhile (fun x => x ≠ 0) = m.takeWhile fun x => x ≠ 0
  | [] => rfl
  | c :: m => by
    rw [List.cons_append, List.takeWhile_cons, List.takeWhile_cons, takeWhile_end m]

theorem lower_i (c : UInt8) (h : lower c = 105) : c = 105 ∨ c = 73 := by
  unfold lower at h
  split at h
  · right
    have h1 := congrArg (· - 32) h
    simpa using h1
  · exact .inl h

theorem long_label (l : Bytes) (hl : 3 < l.length) (hi : l.head? ≠ some 105) (rest : Name) : ∀ (pre : Name) labels can4 can6 buf4 buf6,
    labels + pre.length ≠ 1 → labels + pre.length < 4 → (∀ x ∈ pre, 0 < x.length ∧ x.length ≤ 3 ∧ x.head? ≠ some 105) →
    revLoop (pre ++ l :: rest) labels can4 can6 buf4 buf6 = .ok none ∨ revLoop (pre ++ l :: rest) labels can4 can6 buf4 buf6 = .ub
  | [], labels, can4, can6, buf4, buf6, h1, h2, _ => by
    simp only [List.length_nil, Nat.add_zero] at h1 h2
    rw [List.nil_append]
    unfold revLoop
    rw [if_neg (by omega), if_neg hi, if_pos h2, if_neg (by omega), if_neg (by omega)]
    left
    simp [h1]
  | x :: pre, labels, can4, can6, buf4, buf6, h1, h2, hx => by
    obtain ⟨x1, x2, x3⟩ := hx x (by simp)
    simp only [List.length_cons] at h1 h2
    rw [List.cons_append]
    unfold revLoop
    rw [if_neg (by omega), if_neg x3, if_pos (by omega)]
    have ih := fun c4 c6 b4 b6 => long_label l hl hi rest pre (labels + 1) c4 c6 b4 b6 (by omega) (by omega) (fun y hy => hx y (by simp [hy]))
    split
    · split
      · exact ih _ _ _ _
      · exact .inr rfl
    · rw [if_pos (by omega)]
      split
      · exact ih _ _ _ _
      · exact .inr rfl

end Knot.Synth
