import Verif.Pktparse.Model
import Verif.Pktparse.Spec
import Verif.Rrwire.Props
import Verif.Edns.Props
import Verif.Pkt.Lemmas11
/-! # TSIG and OPT RDATA, and names in the question -/
namespace Knot.Pktparse
open Knot
open Knot.Dname (Name NameAt Valid wire nameLen)
open Knot.Rrwire (RR Rec AcceptAt encAll slice num)
open Knot.WireCtx (Ctx initConst)

theorem be16_eq (v : Nat) : be16 v = WireCtx.beBytes 2 v := (Pkt.be2 v).symm

theorem beVal2 (d : Bytes) (h : d.length = 2) : WireCtx.beVal d = num d := by
  match d, h with
  | [a, b], _ => simp [WireCtx.beVal, num]

theorem num_be16 (v : Nat) (h : v < 65536) : num (be16 v) = v := by
  simp only [be16, num, List.foldl, UInt8.toNat_ofNat']
  omega

theorem be16_num (d : Bytes) (h : d.length = 2) : be16 (num d) = d ∧ num d < 65536 := by
  match d, h with
  | [a, b], _ =>
    have := a.toNat_lt
    have := b.toNat_lt
    have e : num [a, b] = a.toNat * 256 + b.toNat := by simp [num]
    refine ⟨?_, by omega⟩
    rw [e, be16]
    congr 1
    · apply UInt8.toNat_inj.mp
      simp only [UInt8.toNat_ofNat']; omega
    · congr 1
      apply UInt8.toNat_inj.mp
      simp only [UInt8.toNat_ofNat']; omega

/-- A reader in good order at `p`. -/
def rdr (d : Bytes) (p : Nat) : Ctx := { initConst d d.length with pos := p }

theorem skip_rdr (d : Bytes) (p k : Nat) (h : p ≤ d.length) : WireCtx.skip (rdr d p) (k : Int) =
    if p + k ≤ d.length then rdr d (p + k) else { rdr d p with error := some .erange } := by
  unfold WireCtx.skip
  rw [if_neg (by simp [rdr, WireCtx.initConst, WireCtx.init]), if_pos (by omega)]
  simp only [Int.toNat_natCast]
  by_cases c : p + k ≤ d.length
  · rw [if_pos c, if_neg (by show ¬ k > d.length - p; omega)]; rfl
  · rw [if_neg c, if_pos (by show k > d.length - p; omega)]

theorem readU_rdr (d : Bytes) (p : Nat) (h : p ≤ d.length) : WireCtx.readU (rdr d p) 2 =
    if p + 2 ≤ d.length then .ok (num (slice d p 2), rdr d (p + 2))
    else .ok (0, { rdr d p with error := some .efewdata }) := by
  unfold WireCtx.readU WireCtx.read
  rw [if_neg (by simp [rdr, WireCtx.initConst, WireCtx.init])]
  have e : (rdr d p).error = none := rfl
  simp only [WireCtx.canRead, e]
  by_cases c : p + 2 ≤ d.length
  · rw [if_pos c, if_neg (by show ¬ d.length - p < 2; omega)]
    have : WireCtx.load (rdr d p).mem (rdr d p).pos 2 = .ok (slice d p 2) := by
      show WireCtx.load d p 2 = _
      simp only [WireCtx.load, if_pos c, slice]
    simp only [this, Res.bind_ok]
    rw [beVal2 _ (by simp [slice]; omega)]
    rfl
  · rw [if_neg c, if_pos (by show d.length - p < 2; omega)]
    rfl

theorem skip_err (w : Ctx) (k : Int) (h : w.error ≠ none) : WireCtx.skip w k = w := by
  unfold WireCtx.skip; rw [if_pos h]

theorem skip_skip_err (w : Ctx) (k m : Int) (h : w.error ≠ none) : WireCtx.skip (WireCtx.skip w k) m = w := by
  rw [skip_err w k h, skip_err w m h]

theorem readU_err (w : Ctx) (h : w.error ≠ none) : WireCtx.readU w 2 = .ok (0, w) := by
  unfold WireCtx.readU WireCtx.read
  rw [if_pos h]
  rfl

/-- What is checked in TSIG RDATA, in numbers. -/
def TsigNum (d : Bytes) (a : Nat) : Prop :=
  a + 10 ≤ d.length ∧ a + 10 + num (slice d (a + 8) 2) + 6 ≤ d.length ∧
  d.length = a + 16 + num (slice d (a + 8) 2) + num (slice d (a + 14 + num (slice d (a + 8) 2)) 2)

theorem seekOther_spec (alg : Name) (tail : Bytes) (hv : Valid alg) :
    ∃ o, seekOther (wire alg ++ tail) = .ok o ∧ (o.isSome = true ↔ TsigNum (wire alg ++ tail) (nameLen alg)) := by
  have hs := Dname.size_wire tail hv.1
  generalize hd : wire alg ++ tail = d at *
  have hl : nameLen alg ≤ d.length := by
    rw [← hd]; simp only [List.length_append, Dname.wire_length]; omega
  generalize nameLen alg = a at *
  unfold seekOther
  have i0 : initConst d d.length = rdr d 0 := rfl
  have i1 : ((a : Int) + 4 * 2) = ((a + 8 : Nat) : Int) := by omega
  have i2 : ((2 : Int) * 2) = ((4 : Nat) : Int) := by omega
  simp only [i0, hs, Res.bind_ok, i1, i2]
  rw [skip_rdr _ _ _ (by omega), Nat.zero_add]
  by_cases c1 : a + 8 ≤ d.length
  case neg =>
    rw [if_neg c1, readU_err _ (by simp)]
    simp only [Res.bind_ok]
    rw [skip_skip_err _ _ _ (by simp), readU_err _ (by simp)]
    simp only [Res.bind_ok]
    refine ⟨none, ?_, ?_⟩
    · split
      · rfl
      · rw [if_pos (by simp)]
    · simp only [Option.isSome_none, Bool.false_eq_true, TsigNum, false_iff]; omega
  rw [if_pos c1, readU_rdr _ _ c1]
  by_cases c2 : a + 8 + 2 ≤ d.length
  case neg =>
    rw [if_neg c2]
    simp only [Res.bind_ok]
    rw [skip_skip_err _ _ _ (by simp), readU_err _ (by simp)]
    simp only [Res.bind_ok]
    refine ⟨none, ?_, ?_⟩
    · split
      · rfl
      · rw [if_pos (by simp)]
    · simp only [Option.isSome_none, Bool.false_eq_true, TsigNum, false_iff]; omega
  rw [if_pos c2]
  simp only [Res.bind_ok]
  generalize hm : num (slice d (a + 8) 2) = m
  rw [skip_rdr _ _ _ c2]
  by_cases c3 : a + 8 + 2 + m ≤ d.length
  case neg =>
    rw [if_neg c3, skip_err _ _ (by simp), readU_err _ (by simp)]
    simp only [Res.bind_ok]
    refine ⟨none, ?_, ?_⟩
    · split
      · rfl
      · rw [if_pos (by simp)]
    · simp only [Option.isSome_none, Bool.false_eq_true, TsigNum, hm, false_iff]; omega
  rw [if_pos c3, skip_rdr _ _ _ c3]
  by_cases c4 : a + 8 + 2 + m + 4 ≤ d.length
  case neg =>
    rw [if_neg c4, readU_err _ (by simp)]
    simp only [Res.bind_ok]
    refine ⟨none, ?_, ?_⟩
    · split
      · rfl
      · rw [if_pos (by simp)]
    · simp only [Option.isSome_none, Bool.false_eq_true, TsigNum, hm, false_iff]; omega
  rw [if_pos c4, readU_rdr _ _ c4]
  by_cases c5 : a + 8 + 2 + m + 4 + 2 ≤ d.length
  case neg =>
    rw [if_neg c5]
    simp only [Res.bind_ok]
    refine ⟨none, ?_, ?_⟩
    · split
      · rfl
      · rw [if_pos (by simp)]
    · simp only [Option.isSome_none, Bool.false_eq_true, TsigNum, hm, false_iff]; omega
  rw [if_pos c5]
  simp only [Res.bind_ok]
  have e : a + 8 + 2 + m + 4 = a + 14 + m := by omega
  rw [e] at c4 c5 ⊢
  have av : WireCtx.available (rdr d (a + 14 + m + 2)) = d.length - (a + 14 + m + 2) := rfl
  rw [av]
  split
  · refine ⟨none, rfl, ?_⟩
    simp only [Option.isSome_none, Bool.false_eq_true, TsigNum, hm, false_iff]
    intro h; omega
  · rw [if_neg (by simp [rdr, WireCtx.initConst, WireCtx.init])]
    refine ⟨_, rfl, ?_⟩
    simp only [Option.isSome_some, TsigNum, hm, true_iff]
    omega

theorem slice_len (d : Bytes) (p k : Nat) (h : p + k ≤ d.length) : (slice d p k).length = k := by
  simp [slice]; omega

theorem slice_cut (d : Bytes) (p k : Nat) : d.drop p = slice d p k ++ d.drop (p + k) := by
  rw [slice, ← List.drop_drop, List.take_append_drop]

theorem slice_app (a b c : Bytes) (p k : Nat) (hp : a.length = p) (hk : b.length = k) : slice (a ++ (b ++ c)) p k = b := by
  subst hp hk; simp [slice]

theorem TsigNum_iff (alg : Name) (tail : Bytes) (hv : Valid alg) :
    TsigNum (wire alg ++ tail) (nameLen alg) ↔ TsigRdata (wire alg ++ tail) := by
  constructor
  · generalize hd : wire alg ++ tail = d
    rintro ⟨h1, h2, h3⟩
    have hw : slice d 0 (nameLen alg) = wire alg := by
      rw [← hd, slice, ← Dname.wire_length]; simp
    generalize nameLen alg = a at *
    generalize hm : num (slice d (a + 8) 2) = m at *
    have hm2 := be16_num (slice d (a + 8) 2) (slice_len _ _ _ (by omega))
    have ho2 := be16_num (slice d (a + 14 + m) 2) (slice_len _ _ _ (by omega))
    generalize ho : num (slice d (a + 14 + m) 2) = o at *
    rw [hm] at hm2
    have l1 := slice_len d (a + 10) m (by omega)
    have l2 : (d.drop (a + 16 + m)).length = o := by rw [List.length_drop]; omega
    refine ⟨alg, slice d a 8, slice d (a + 10) m, slice d (a + 10 + m) 4, d.drop (a + 16 + m), hv,
      slice_len _ _ _ (by omega), slice_len _ _ _ (by omega), ?_, ?_, ?_⟩
    · rw [l1]; omega
    · rw [l2]; omega
    · rw [l1, l2, hm2.1, ho2.1, ← hw]
      have : d = d.drop 0 := by simp
      conv => lhs; rw [this]
      rw [slice_cut d 0 a, Nat.zero_add, slice_cut d a 8, slice_cut d (a + 8) 2, slice_cut d (a + 8 + 2) m,
        slice_cut d (a + 8 + 2 + m) 4, slice_cut d (a + 8 + 2 + m + 4) 2]
      have e : a + 8 + 2 + m + 4 + 2 = a + 16 + m := by omega
      have e' : a + 8 + 2 + m + 4 = a + 14 + m := by omega
      rw [e, e']
      simp [List.append_assoc]
  · rintro ⟨alg', time, mac, err, other, hv', lt, le, lm, lo, hd⟩
    have ha : alg = alg' := by
      have hd' : wire alg ++ tail = wire alg' ++ (time ++ be16 mac.length ++ mac ++ err ++ be16 other.length ++ other) := by
        rw [hd]; simp [List.append_assoc]
      exact Dname.wire_inj hv.1 hv'.1 hd'
    subst ha
    rw [hd]
    have hlen : (wire alg ++ time ++ be16 mac.length ++ mac ++ err ++ be16 other.length ++ other).length
        = nameLen alg + 16 + mac.length + other.length := by
      simp only [List.length_append, Dname.wire_length, be16, List.length_cons, List.length_nil]; omega
    have s1 : slice (wire alg ++ time ++ be16 mac.length ++ mac ++ err ++ be16 other.length ++ other) (nameLen alg + 8) 2 = be16 mac.length := by
      have := slice_app (wire alg ++ time) (be16 mac.length) (mac ++ err ++ be16 other.length ++ other) (nameLen alg + 8) 2
        (by simp only [List.length_append, Dname.wire_length]; omega) rfl
      simpa [List.append_assoc] using this
    have s2 : slice (wire alg ++ time ++ be16 mac.length ++ mac ++ err ++ be16 other.length ++ other) (nameLen alg + 14 + mac.length) 2
        = be16 other.length := by
      have := slice_app (wire alg ++ time ++ be16 mac.length ++ mac ++ err) (be16 other.length) other (nameLen alg + 14 + mac.length) 2
        (by simp only [List.length_append, Dname.wire_length, be16, List.length_cons, List.length_nil]; omega) rfl
      simpa [List.append_assoc] using this
    unfold TsigNum
    rw [s1, num_be16 _ lm, s2, num_be16 _ lo, hlen]
    omega

theorem tsigOk_spec (alg : Name) (tail : Bytes) (hv : Valid alg) :
    ∃ b, tsigOk (wire alg ++ tail) = .ok b ∧ (b = true ↔ TsigRdata (wire alg ++ tail)) := by
  obtain ⟨o, h1, h2⟩ := seekOther_spec alg tail hv
  unfold tsigOk
  rw [if_neg (by simp only [List.length_append, Dname.wire_length]; have := Dname.nameLen_pos alg; omega), h1]
  exact ⟨o.isSome, rfl, h2.trans (TsigNum_iff alg tail hv)⟩

theorem OptRdata_iff (d : Bytes) : OptRdata d ↔ ∃ os, (∀ o ∈ os, Edns.OptOk o) ∧ d = Edns.encs os := by
  unfold OptRdata Edns.OptOk Edns.encs Edns.enc
  simp only [be16_eq]

theorem getOptions_spec (d : Bytes) :
    (∃ o, Edns.getOptions d = .ok o ∧ OptRdata d) ∨ (∃ e, Edns.getOptions d = .err e ∧ ¬ OptRdata d) := by
  by_cases hd : d = []
  · subst hd
    exact .inl ⟨none, rfl, [], by simp, rfl⟩
  · obtain ⟨h1, h2⟩ := C25_get_options d hd
    by_cases c : OptRdata d
    · obtain ⟨os, a, b⟩ := (OptRdata_iff d).mp c
      obtain ⟨ptr, g, _⟩ := h2 os a b
      exact .inl ⟨_, g, c⟩
    · obtain ⟨e, he⟩ := h1.mpr (by rwa [← OptRdata_iff])
      exact .inr ⟨e, he, c⟩

end Knot.Pktparse
