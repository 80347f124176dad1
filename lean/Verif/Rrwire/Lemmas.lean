import Verif.Rrwire.Model
import Verif.Rrwire.Spec
import Verif.Dname.Props
/-! # Lemmas about resource record parsing -/
namespace Knot.Rrwire
open Knot
open Knot.Dname (Name NameAt Valid wire lowerName nameLen nameLen_pos)

theorem slice_length {mem : Bytes} {pos k : Nat} (h : pos + k ≤ mem.length) :
    (slice mem pos k).length = k := by
  simp only [slice, List.length_take, List.length_drop]; omega

theorem load_eq {mem : Bytes} {pos k : Nat} (h : pos + k ≤ mem.length) :
    WireCtx.load mem pos k = .ok (slice mem pos k) := by
  simp [WireCtx.load, slice, h]

theorem readBE_eq {mem : Bytes} {pos k : Nat} (h : pos + k ≤ mem.length) :
    readBE mem pos k = .ok (num (slice mem pos k)) := by
  simp [readBE, load_eq h, num]

theorem rd_eq {mem : Bytes} {i : Nat} (h : i < mem.length) : Res.rd mem i = .ok mem[i] := by
  simp [Res.rd, h]

theorem encAll_nil : encAll [] = [] := rfl
theorem encAll_cons (f : Field) (fs : List Field) : encAll (f :: fs) = f.enc ++ encAll fs := by
  simp [encAll]

/-! ## NAPTR header -/

theorem skipStrings_ok {mem : Bytes} {endp : Nat} (he : endp ≤ mem.length) (off e : Nat) :
    skipStrings mem endp 3 off = .ok e ↔
      ∃ a b c : UInt8, mem[off]? = some a ∧ mem[off + 1 + a.toNat]? = some b ∧
        mem[off + 2 + a.toNat + b.toNat]? = some c ∧
        e = off + 3 + a.toNat + b.toNat + c.toNat ∧ e ≤ endp := by
  have key : ∀ (k off e : Nat), skipStrings mem endp (k + 1) off = .ok e ↔
      ∃ a : UInt8, mem[off]? = some a ∧ off + 1 + a.toNat ≤ endp ∧
        skipStrings mem endp k (off + 1 + a.toNat) = .ok e := by
    intro k off e
    rw [skipStrings]
    by_cases h : off + 1 > endp
    · rw [if_pos h]
      simp only [reduceCtorEq, false_iff, not_exists, not_and]
      intro a _ h'; omega
    · rw [if_neg h, rd_eq (by omega)]
      simp only [Res.bind_ok]
      rw [List.getElem?_eq_getElem (by omega)]
      simp only [Option.some.injEq, exists_eq_left']
      split
      · rename_i h2
        simp only [reduceCtorEq, false_iff, not_and]
        intro h3; omega
      · rename_i h2
        have : off + 1 + (mem[off]'(by omega)).toNat ≤ endp := by omega
        simp [this]
  have base : ∀ (off e : Nat), skipStrings mem endp 0 off = .ok e ↔ off = e := by
    simp [skipStrings]
  simp only [key, base]
  constructor
  · rintro ⟨a, ha, h1, b, hb, h2, c, hc, h3, rfl⟩
    refine ⟨a, b, c, ha, hb, ?_, by omega, by omega⟩
    rw [← hc]; congr 1; omega
  · rintro ⟨a, b, c, ha, hb, hc, rfl, h⟩
    refine ⟨a, ha, by omega, b, hb, by omega, c, ?_, by omega, by omega⟩
    rw [← hc]; congr 1; omega

theorem skipStrings_safe {mem : Bytes} {endp : Nat} (he : endp ≤ mem.length) (k off : Nat) :
    skipStrings mem endp k off ≠ .ub := by
  induction k generalizing off with
  | zero => simp [skipStrings]
  | succ k ih =>
    rw [skipStrings]
    by_cases h : off + 1 > endp
    · simp [if_pos h]
    · rw [if_neg h, rd_eq (by omega)]
      simp only [Res.bind_ok]
      split
      · simp
      · exact ih _

theorem naptr_ok {mem : Bytes} {src endp n : Nat} (he : endp ≤ mem.length) :
    naptrHeaderSize mem src endp = .ok n ↔ NaptrAt mem src endp n := by
  unfold naptrHeaderSize NaptrAt
  by_cases h1 : src ≥ endp
  · rw [if_pos h1]
    simp only [reduceCtorEq, false_iff, not_exists, not_and]
    intro a b c _ _ _ h; omega
  rw [if_neg h1]
  by_cases h2 : src + 4 > endp
  · rw [if_pos h2]
    simp only [reduceCtorEq, false_iff, not_exists, not_and]
    intro a b c _ _ _ h; omega
  rw [if_neg h2]
  have hs := skipStrings_ok he (src + 4)
  cases hx : skipStrings mem endp 3 (src + 4) with
  | ub => exact absurd hx (skipStrings_safe he _ _)
  | err e =>
    simp only [Res.bind_err, reduceCtorEq, false_iff, not_exists, not_and]
    intro a b c ha hb hc hn hl
    have := (hs (src + 4 + 3 + a.toNat + b.toNat + c.toNat)).mpr
      ⟨a, b, c, ha, by rw [← hb, show src + 4 + 1 = src + 5 by omega],
        by rw [← hc, show src + 4 + 2 = src + 6 by omega], rfl, by omega⟩
    rw [hx] at this; cases this
  | ok e =>
    obtain ⟨a, b, c, ha, hb, hc, rfl, hl⟩ := (hs e).mp hx
    simp only [Res.bind_ok, Res.ok.injEq]
    rw [show src + 4 + 1 = src + 5 by omega] at hb
    rw [show src + 4 + 2 = src + 6 by omega] at hc
    constructor
    · rintro rfl; exact ⟨a, b, c, ha, hb, hc, by omega, by omega⟩
    · rintro ⟨a', b', c', ha', hb', hc', rfl, _⟩
      rw [ha] at ha'; cases ha'
      rw [hb] at hb'; cases hb'
      rw [hc] at hc'; cases hc'
      omega

theorem naptr_safe {mem : Bytes} {src endp : Nat} (he : endp ≤ mem.length) :
    naptrHeaderSize mem src endp ≠ .ub := by
  unfold naptrHeaderSize
  split; · simp
  split; · simp
  cases hx : skipStrings mem endp 3 (src + 4) with
  | ub => exact absurd hx (skipStrings_safe he _ _)
  | err e => simp
  | ok e => simp

/-! ## Blocks -/

theorem parseFixed_ok {mem : Bytes} {k : Nat} {s s' : RdSt} (he : s.src + s.avail ≤ mem.length) :
    parseFixed mem k s = .ok s' ↔ k ≤ s.avail ∧ k ≤ s.room ∧
      s' = ⟨s.src + k, s.avail - k, s.out ++ slice mem s.src k, s.room - k⟩ := by
  unfold parseFixed
  by_cases h1 : k > s.avail
  · simp [h1]; omega
  rw [if_neg h1]
  by_cases h2 : k > s.room
  · simp [h2]; omega
  rw [if_neg h2, load_eq (by omega)]
  simp only [Res.bind_ok, Res.ok.injEq]
  constructor
  · rintro rfl; exact ⟨by omega, by omega, rfl⟩
  · rintro ⟨_, _, rfl⟩; rfl

theorem parseFixed_safe {mem : Bytes} {k : Nat} {s : RdSt} (he : s.src + s.avail ≤ mem.length) :
    parseFixed mem k s ≠ .ub := by
  unfold parseFixed
  split; · simp
  split; · simp
  rw [load_eq (by omega)]; simp

theorem parseNaptr_ok {mem : Bytes} {s s' : RdSt} (he : s.src + s.avail ≤ mem.length) :
    parseNaptr mem s = .ok s' ↔ ∃ n, NaptrAt mem s.src (s.src + s.avail) n ∧ n ≤ s.room ∧
      s' = ⟨s.src + n, s.avail - n, s.out ++ slice mem s.src n, s.room - n⟩ := by
  unfold parseNaptr
  cases hx : naptrHeaderSize mem s.src (s.src + s.avail) with
  | ub => exact absurd hx (naptr_safe he)
  | err e =>
    simp only [Res.bind_err, reduceCtorEq, false_iff, not_exists, not_and]
    intro n hn
    rw [← naptr_ok he, hx] at hn; cases hn
  | ok k =>
    simp only [Res.bind_ok]
    rw [parseFixed_ok he]
    rw [naptr_ok he] at hx
    constructor
    · rintro ⟨h1, h2, h3⟩; exact ⟨k, hx, h2, h3⟩
    · rintro ⟨n, hn, h1, h2⟩
      have : k = n := by
        have a := (naptr_ok he).mpr hx
        rw [(naptr_ok he).mpr hn] at a; cases a; rfl
      subst this
      obtain ⟨_, _, _, _, _, _, _, hl⟩ := hn
      exact ⟨by omega, h1, h2⟩

theorem parseNaptr_safe {mem : Bytes} {s : RdSt} (he : s.src + s.avail ≤ mem.length) :
    parseNaptr mem s ≠ .ub := by
  unfold parseNaptr
  cases hx : naptrHeaderSize mem s.src (s.src + s.avail) with
  | ub => exact absurd hx (naptr_safe he)
  | err e => simp
  | ok k => exact parseFixed_safe he

theorem parseName_ok {mem : Bytes} {s s' : RdSt} (he : s.src + s.avail ≤ mem.length) :
    parseName mem s = .ok s' ↔ ∃ ls n, NameAt mem (s.src + s.avail) true s.src ls n ∧ Valid ls ∧
      nameLen ls ≤ s.room ∧
      s' = ⟨s.src + n, s.avail - n, s.out ++ wire ls, s.room - nameLen ls⟩ := by
  unfold parseName
  cases hx : Dname.wireCheck mem (s.src + s.avail) true s.src with
  | ub => exact absurd hx (C01_wire_check_safe _ _ _ _ (by omega) he)
  | err e =>
    simp only [Res.bind_err, reduceCtorEq, false_iff, not_exists, not_and]
    intro ls n h1 h2
    rw [(C01_wire_check_exact _ _ _ _ n (by omega) he).mpr ⟨ls, h1, h2⟩] at hx; cases hx
  | ok n =>
    obtain ⟨ls, h1, h2⟩ := (C01_wire_check_exact _ _ _ _ n (by omega) he).mp hx
    simp only [Res.bind_ok]
    rw [Dname.unpack_of_NameAt he h1]
    by_cases hr : nameLen ls ≤ s.room
    · rw [if_pos hr]
      simp only [Res.bind_ok, Res.ok.injEq, Dname.wire_length]
      constructor
      · rintro rfl; exact ⟨ls, n, h1, h2, hr, rfl⟩
      · rintro ⟨ls', n', h1', _, _, rfl⟩
        obtain ⟨rfl, rfl⟩ := h1.unique h1'
        rfl
    · rw [if_neg hr]
      split <;>
      · simp only [Res.bind_err, reduceCtorEq, false_iff, not_exists, not_and]
        intro ls' n' h1' _ h3
        obtain ⟨rfl, rfl⟩ := h1.unique h1'
        omega

theorem parseName_safe {mem : Bytes} {s : RdSt} (he : s.src + s.avail ≤ mem.length) :
    parseName mem s ≠ .ub := by
  unfold parseName
  cases hx : Dname.wireCheck mem (s.src + s.avail) true s.src with
  | ub => exact absurd hx (C01_wire_check_safe _ _ _ _ (by omega) he)
  | err e => simp
  | ok n =>
    obtain ⟨ls, h1, h2⟩ := (C01_wire_check_exact _ _ _ _ n (by omega) he).mp hx
    simp only [Res.bind_ok]
    rw [Dname.unpack_of_NameAt he h1]
    split
    · simp
    · split <;> simp

/-! ## Whole RDATA -/

theorem RdAt.le {mem : Bytes} {endp bs pos fs stop} (h : RdAt mem endp bs pos fs stop)
    (hp : pos ≤ endp) : pos ≤ stop ∧ stop ≤ endp := by
  induction h with
  | done => omega
  | name _ h2 _ _ ih => have := h2.fits; have := ih (by omega); omega
  | naptr h1 _ ih => obtain ⟨_, _, _, _, _, _, _, hl⟩ := h1; have := ih (by omega); omega
  | remainder h1 _ ih => have := ih (by omega); omega
  | fixed h1 _ ih => have := ih (by omega); omega

theorem traverse_ok {mem : Bytes} (bs : List Block) : ∀ {s s' : RdSt},
    s.src + s.avail ≤ mem.length →
    (traverseParse mem bs s = .ok s' ↔ ∃ fs stop, RdAt mem (s.src + s.avail) bs s.src fs stop ∧
      (encAll fs).length ≤ s.room ∧
      s' = ⟨stop, s.src + s.avail - stop, s.out ++ encAll fs, s.room - (encAll fs).length⟩) := by
  induction bs with
  | nil =>
    intro s s' he
    simp only [traverseParse, Res.ok.injEq]
    constructor
    · rintro rfl
      exact ⟨[], _, .done, by simp [encAll_nil], by simp [encAll_nil]⟩
    · rintro ⟨fs, stop, h, _, rfl⟩
      cases h
      simp [encAll_nil]
  | cons b bs ih =>
    intro s s' he
    rw [traverseParse]
    -- a block that consumes `n` octets and produces the field `f`
    have step : ∀ {n : Nat} {f : Field}, n ≤ s.avail → f.enc.length ≤ s.room →
        parseBlock mem b s = .ok ⟨s.src + n, s.avail - n, s.out ++ f.enc, s.room - f.enc.length⟩ →
        ((parseBlock mem b s >>= traverseParse mem bs) = .ok s' ↔
          ∃ fs stop, RdAt mem (s.src + s.avail) bs (s.src + n) fs stop ∧
            f.enc.length + (encAll fs).length ≤ s.room ∧
            s' = ⟨stop, s.src + s.avail - stop, s.out ++ encAll (f :: fs),
              s.room - (encAll (f :: fs)).length⟩) := by
      intro n f hn hf hb
      rw [hb, Res.bind_ok, ih (by show s.src + n + (s.avail - n) ≤ mem.length; omega)]
      simp only [show s.src + n + (s.avail - n) = s.src + s.avail by omega, encAll_cons,
        List.length_append, List.append_assoc]
      constructor
      · rintro ⟨fs, stop, h1, h2, rfl⟩
        exact ⟨fs, stop, h1, by omega, by congr 1; omega⟩
      · rintro ⟨fs, stop, h1, h2, rfl⟩
        exact ⟨fs, stop, h1, by omega, by congr 1; omega⟩
    have none : ∀ {e : Err}, parseBlock mem b s = .err e →
        ((parseBlock mem b s >>= traverseParse mem bs) = .ok s' ↔ False) := by
      intro e h; rw [h]; simp
    have hname : b.isName = true → parseBlock mem b s = parseName mem s := by
      cases b <;> simp [Block.isName, parseBlock]
    by_cases hbn : b.isName = true
    · cases hx : parseName mem s with
      | ub => exact absurd hx (parseName_safe he)
      | err e =>
        rw [none (by rw [hname hbn, hx])]
        simp only [false_iff, not_exists, not_and]
        intro fs stop h hr
        cases h with
        | @name _ _ _ ls n fs _ _ h2 h3 h4 =>
          simp only [encAll_cons, List.length_append, Field.enc, Dname.wire_length] at hr
          rw [(parseName_ok he).mpr ⟨ls, n, h2, h3, by omega, rfl⟩] at hx; cases hx
        | _ => cases hbn
      | ok s1 =>
        obtain ⟨ls, n, h1, h2, h3, rfl⟩ := (parseName_ok he).mp hx
        have := h1.fits
        rw [step (n := n) (f := .name ls) (by omega) (by simpa [Field.enc, Dname.wire_length] using h3)
          (by rw [hname hbn, hx]; simp [Field.enc, Dname.wire_length])]
        constructor
        · rintro ⟨fs, stop, h4, h5, rfl⟩
          exact ⟨_, stop, .name hbn h1 h2 h4, by simpa [encAll_cons] using h5, rfl⟩
        · rintro ⟨fs, stop, h, h5, rfl⟩
          cases h with
          | @name _ _ _ ls' n' fs _ _ h2' h3' h4' =>
            obtain ⟨rfl, rfl⟩ := h1.unique h2'
            exact ⟨fs, stop, h4', by simpa [encAll_cons] using h5, rfl⟩
          | _ => cases hbn
    · cases b with
      | comprName => simp [Block.isName] at hbn
      | decomprName => simp [Block.isName] at hbn
      | fixedName => simp [Block.isName] at hbn
      | naptr =>
        cases hx : parseNaptr mem s with
        | ub => exact absurd hx (parseNaptr_safe he)
        | err e =>
          rw [none (by simpa [parseBlock] using hx)]
          simp only [false_iff, not_exists, not_and]
          intro fs stop h hr
          cases h with
          | name h => cases h
          | @naptr _ _ n fs _ h2 h4 =>
            obtain ⟨_, _, _, _, _, _, _, hl⟩ := id h2
            simp only [encAll_cons, List.length_append, Field.enc,
              slice_length (show s.src + n ≤ mem.length by omega)] at hr
            rw [(parseNaptr_ok he).mpr ⟨n, h2, by omega, rfl⟩] at hx; cases hx
        | ok s1 =>
          obtain ⟨n, h1, h3, rfl⟩ := (parseNaptr_ok he).mp hx
          obtain ⟨_, _, _, _, _, _, _, hl⟩ := id h1
          have hsl := slice_length (show s.src + n ≤ mem.length by omega)
          rw [step (n := n) (f := .raw (slice mem s.src n)) (by omega)
            (by simpa [Field.enc, hsl] using h3) (by simp [parseBlock, hx, Field.enc, hsl])]
          constructor
          · rintro ⟨fs, stop, h4, h5, rfl⟩
            exact ⟨_, stop, .naptr h1 h4, by simpa [encAll_cons] using h5, rfl⟩
          · rintro ⟨fs, stop, h, h5, rfl⟩
            cases h with
            | name h => cases h
            | @naptr _ _ n' fs _ h2' h4' =>
              have : n = n' := by
                have a := (naptr_ok he).mpr h1
                rw [(naptr_ok he).mpr h2'] at a; cases a; rfl
              subst this
              exact ⟨fs, stop, h4', by simpa [encAll_cons] using h5, rfl⟩
      | remainder =>
        have hsl := slice_length (show s.src + s.avail ≤ mem.length by omega)
        have hd : s.src + s.avail - s.src = s.avail := by omega
        cases hx : parseFixed mem s.avail s with
        | ub => exact absurd hx (parseFixed_safe he)
        | err e =>
          rw [none (by simpa [parseBlock] using hx)]
          simp only [false_iff, not_exists, not_and]
          intro fs stop h hr
          cases h with
          | name h => cases h
          | @remainder _ _ fs _ h2 h4 =>
            simp only [encAll_cons, List.length_append, Field.enc, hd, hsl] at hr
            rw [(parseFixed_ok he).mpr ⟨by omega, by omega, rfl⟩] at hx; cases hx
        | ok s1 =>
          obtain ⟨h1, h3, rfl⟩ := (parseFixed_ok he).mp hx
          rw [step (n := s.avail) (f := .raw (slice mem s.src s.avail)) (by omega)
            (by simpa [Field.enc, hsl] using h3) (by simp [parseBlock, hx, Field.enc, hsl])]
          constructor
          · rintro ⟨fs, stop, h4, h5, rfl⟩
            refine ⟨.raw (slice mem s.src s.avail) :: fs, stop, ?_, by simpa [encAll_cons] using h5, rfl⟩
            have := RdAt.remainder (mem := mem) (endp := s.src + s.avail) (pos := s.src) (by omega) h4
            rwa [hd] at this
          · rintro ⟨fs, stop, h, h5, rfl⟩
            cases h with
            | name h => cases h
            | @remainder _ _ fs _ h2 h4 =>
              rw [hd] at h5 ⊢
              exact ⟨fs, stop, h4, by simpa [encAll_cons] using h5, rfl⟩
      | fixed k =>
        cases hx : parseFixed mem k s with
        | ub => exact absurd hx (parseFixed_safe he)
        | err e =>
          rw [none (by simpa [parseBlock] using hx)]
          simp only [false_iff, not_exists, not_and]
          intro fs stop h hr
          cases h with
          | name h => cases h
          | @fixed _ _ _ fs _ h2 h4 =>
            simp only [encAll_cons, List.length_append, Field.enc,
              slice_length (show s.src + k ≤ mem.length by omega)] at hr
            rw [(parseFixed_ok he).mpr ⟨by omega, by omega, rfl⟩] at hx; cases hx
        | ok s1 =>
          obtain ⟨h1, h3, rfl⟩ := (parseFixed_ok he).mp hx
          have hsl := slice_length (show s.src + k ≤ mem.length by omega)
          rw [step (n := k) (f := .raw (slice mem s.src k)) (by omega)
            (by simpa [Field.enc, hsl] using h3) (by simp [parseBlock, hx, Field.enc, hsl])]
          constructor
          · rintro ⟨fs, stop, h4, h5, rfl⟩
            exact ⟨_, stop, .fixed (by omega) h4, by simpa [encAll_cons] using h5, rfl⟩
          · rintro ⟨fs, stop, h, h5, rfl⟩
            cases h with
            | name h => cases h
            | @fixed _ _ _ fs _ h2 h4 =>
              exact ⟨fs, stop, h4, by simpa [encAll_cons] using h5, rfl⟩

theorem traverse_safe {mem : Bytes} (bs : List Block) : ∀ {s : RdSt},
    s.src + s.avail ≤ mem.length → traverseParse mem bs s ≠ .ub := by
  induction bs with
  | nil => intro s _; simp [traverseParse]
  | cons b bs ih =>
    intro s he
    rw [traverseParse]
    have hb : parseBlock mem b s ≠ .ub := by
      cases b <;> simp only [parseBlock]
      · exact parseName_safe he
      · exact parseName_safe he
      · exact parseName_safe he
      · exact parseNaptr_safe he
      · exact parseFixed_safe he
      · exact parseFixed_safe he
    have hle : ∀ {s'}, parseBlock mem b s = .ok s' → s'.src + s'.avail = s.src + s.avail := by
      intro s' h
      cases b <;> simp only [parseBlock] at h
      case naptr =>
        obtain ⟨n, ⟨_, _, _, _, _, _, _, hl⟩, _, rfl⟩ := (parseNaptr_ok he).mp h
        show s.src + n + (s.avail - n) = _; omega
      case remainder =>
        obtain ⟨_, _, rfl⟩ := (parseFixed_ok he).mp h
        show s.src + s.avail + (s.avail - s.avail) = _; omega
      case fixed k =>
        obtain ⟨_, _, rfl⟩ := (parseFixed_ok he).mp h
        show s.src + k + (s.avail - k) = _; omega
      all_goals
        obtain ⟨ls, n, h1, _, _, rfl⟩ := (parseName_ok he).mp h
        have := h1.fits
        show s.src + n + (s.avail - n) = _; omega
    cases hx : parseBlock mem b s with
    | ub => exact absurd hx hb
    | err e => simp
    | ok s' => exact ih (by rw [hle hx]; exact he)

theorem allowZero_iff {type rclass : Nat} :
    allowZeroRdata type rclass (parseDesc type) = true ↔ emptyAllowed type rclass := by
  unfold allowZeroRdata emptyAllowed
  cases (parseDesc type).named <;> simp [or_assoc]

/-- What `parse_rdata` accepts. -/
theorem parseRdata_ok {mem : Bytes} {pos size type rclass k : Nat} {d : Bytes} {p' : Nat}
    (he : size ≤ mem.length) (hp : pos + k ≤ size) :
    parseRdata mem pos size type rclass k = .ok (d, p') ↔ p' = pos + k ∧
      ((k = 0 ∧ d = [] ∧ emptyAllowed type rclass) ∨
       (0 < k ∧ ∃ fs stop, RdAt mem (pos + k) (parseDesc type).blocks pos fs stop ∧
         d = encAll fs ∧ k ≤ d.length ∧ d.length ≤ 65535)) := by
  unfold parseRdata
  by_cases hk : k = 0
  · subst hk
    simp only [if_true]
    by_cases ha : allowZeroRdata type rclass (parseDesc type) = true
    · rw [if_pos ha]
      have := allowZero_iff.mp ha
      simp only [Res.ok.injEq, Prod.mk.injEq]
      constructor
      · rintro ⟨rfl, rfl⟩; exact ⟨rfl, .inl ⟨trivial, rfl, this⟩⟩
      · rintro ⟨rfl, ⟨_, rfl, _⟩ | ⟨h, _⟩⟩
        · exact ⟨rfl, rfl⟩
        · omega
    · rw [if_neg ha]
      rw [allowZero_iff] at ha
      simp only [reduceCtorEq, false_iff, not_and, not_or]
      exact fun _ => ⟨fun _ _ => ha, fun h => by omega⟩
  · rw [if_neg hk, if_neg (by omega)]
    have ht := @traverse_ok mem (parseDesc type).blocks ⟨pos, k, [], 65535⟩
    cases hx : traverseParse mem (parseDesc type).blocks ⟨pos, k, [], 65535⟩ with
    | ub => exact absurd hx (traverse_safe _ (by show pos + k ≤ _; omega))
    | err e =>
      simp only [asMalf, Res.bind_err, reduceCtorEq, false_iff, not_and, not_or]
      intro _
      refine ⟨fun h => absurd h hk, fun _ => ?_⟩
      rintro ⟨fs, stop, h1, rfl, _, h2⟩
      have := (ht (s' := ⟨stop, pos + k - stop, encAll fs, 65535 - (encAll fs).length⟩)
        (by show pos + k ≤ _; omega)).mpr ⟨fs, stop, h1, h2, rfl⟩
      rw [hx] at this; cases this
    | ok s' =>
      obtain ⟨fs, stop, h1, h2, rfl⟩ := (ht (by show pos + k ≤ _; omega)).mp hx
      simp only [asMalf, Res.bind_ok, List.nil_append] at h2 ⊢
      by_cases hl : (encAll fs).length < k
      · rw [if_pos (by omega)]
        simp only [reduceCtorEq, false_iff, not_and, not_or]
        intro _
        refine ⟨fun h => absurd h hk, fun _ => ?_⟩
        rintro ⟨fs', stop', h1', rfl, h3, h4⟩
        have := (ht (s' := ⟨stop', pos + k - stop', encAll fs', 65535 - (encAll fs').length⟩)
          (by show pos + k ≤ _; omega)).mpr ⟨fs', stop', h1', h4, rfl⟩
        rw [hx] at this
        simp only [Res.ok.injEq, RdSt.mk.injEq, List.nil_append] at this
        rw [this.2.2.1] at hl; omega
      · rw [if_neg (by omega)]
        simp only [Res.ok.injEq, Prod.mk.injEq]
        constructor
        · rintro ⟨rfl, rfl⟩
          exact ⟨rfl, .inr ⟨by omega, fs, stop, h1, rfl, by omega, h2⟩⟩
        · rintro ⟨rfl, ⟨h, _⟩ | ⟨_, fs', stop', h1', rfl, h3, h4⟩⟩
          · exact absurd h hk
          · have := (ht (s' := ⟨stop', pos + k - stop', encAll fs', 65535 - (encAll fs').length⟩)
              (by show pos + k ≤ _; omega)).mpr ⟨fs', stop', h1', h4, rfl⟩
            rw [hx] at this
            simp only [Res.ok.injEq, RdSt.mk.injEq, List.nil_append] at this
            exact ⟨this.2.2.1, rfl⟩

theorem parseRdata_safe {mem : Bytes} {pos size type rclass k : Nat}
    (he : size ≤ mem.length) (hp : pos + k ≤ size) :
    parseRdata mem pos size type rclass k ≠ .ub := by
  unfold parseRdata
  by_cases hk : k = 0
  · subst hk
    simp only [if_true]
    split <;> simp
  · rw [if_neg hk, if_neg (by omega)]
    cases hx : traverseParse mem (parseDesc type).blocks ⟨pos, k, [], 65535⟩ with
    | ub => exact absurd hx (traverse_safe _ (by show pos + k ≤ _; omega))
    | err e => simp [asMalf]
    | ok s' => simp only [asMalf, Res.bind_ok]; split <;> simp

/-- What `parse_header` accepts. -/
theorem parseHeader_ok {mem : Bytes} {pos size : Nat} {o : Bytes} {t c l k p : Nat}
    (he : size ≤ mem.length) (hp : pos ≤ size) :
    parseHeader mem pos size = .ok (o, t, c, l, k, p) ↔
      ∃ ls, o = wire ls ∧ ∀ fs, HeadAt mem size pos ⟨ls, t, c, l, fs⟩ k p := by
  unfold parseHeader
  cases hx : Dname.wireCheck mem size true pos with
  | ub => exact absurd hx (C01_wire_check_safe _ _ _ _ hp he)
  | err e =>
    simp only [asMalf, Res.bind_err, reduceCtorEq, false_iff, not_exists, not_and]
    intro ls _ h
    obtain ⟨n, h1, h2, _⟩ := h []
    rw [(C01_wire_check_exact _ _ _ _ n hp he).mpr ⟨_, h1, h2⟩] at hx; cases hx
  | ok n =>
    obtain ⟨ls, h1, h2⟩ := (C01_wire_check_exact _ _ _ _ n hp he).mp hx
    rw [Dname.unpack_of_NameAt he h1, if_pos h2.2]
    simp only [asMalf, Res.bind_ok]
    by_cases hs : pos + n + 10 > size
    · rw [if_pos hs]
      simp only [reduceCtorEq, false_iff, not_exists, not_and]
      intro ls' _ h
      obtain ⟨n', h1', h2', rfl, _, _, _, _, h3⟩ := h []
      obtain ⟨rfl, rfl⟩ := h1.unique h1'
      omega
    rw [if_neg hs, readBE_eq (by omega), readBE_eq (by omega), readBE_eq (by omega),
      readBE_eq (by omega)]
    simp only [Res.bind_ok]
    by_cases hr : size - (pos + n + 10) < num (slice mem (pos + n + 8) 2)
    · rw [if_pos hr]
      simp only [reduceCtorEq, false_iff, not_exists, not_and]
      intro ls' _ h
      obtain ⟨n', h1', h2', rfl, _, _, _, rfl, h3⟩ := h []
      obtain ⟨rfl, rfl⟩ := h1.unique h1'
      omega
    · rw [if_neg hr]
      simp only [Res.ok.injEq, Prod.mk.injEq]
      constructor
      · rintro ⟨rfl, rfl, rfl, rfl, rfl, rfl⟩
        exact ⟨ls, rfl, fun _ => ⟨n, h1, h2, rfl, rfl, rfl, rfl, rfl, by omega⟩⟩
      · rintro ⟨ls', rfl, h⟩
        obtain ⟨n', h1', h2', rfl, rfl, rfl, rfl, rfl, h3⟩ := h []
        obtain ⟨rfl, rfl⟩ := h1.unique h1'
        simp

theorem parseHeader_safe {mem : Bytes} {pos size : Nat} (he : size ≤ mem.length) (hp : pos ≤ size) :
    parseHeader mem pos size ≠ .ub := by
  unfold parseHeader
  cases hx : Dname.wireCheck mem size true pos with
  | ub => exact absurd hx (C01_wire_check_safe _ _ _ _ hp he)
  | err e => simp [asMalf]
  | ok n =>
    obtain ⟨ls, h1, h2⟩ := (C01_wire_check_exact _ _ _ _ n hp he).mp hx
    rw [Dname.unpack_of_NameAt he h1, if_pos h2.2]
    simp only [asMalf, Res.bind_ok]
    split; · simp
    rw [readBE_eq (by omega), readBE_eq (by omega), readBE_eq (by omega), readBE_eq (by omega)]
    simp only [Res.bind_ok]
    split <;> simp

end Knot.Rrwire
