import Verif.Dname.Model
import Verif.Dname.Spec
/-! # Lemmas about the domain name model -/
namespace Knot.Dname
open Knot

theorem byte_eq {a b : UInt8} (h : a.toNat = b.toNat) : a = b := UInt8.toNat_inj.mp h

theorem ofNat_toNat {n : Nat} (h : n < 256) : (UInt8.ofNat n).toNat = n := by
  simp [UInt8.toNat_ofNat', Nat.mod_eq_of_lt h]

theorem isPtr_iff (b : UInt8) : isPtr b = true ↔ 192 ≤ b.toNat := by
  have key : ∀ n < 256, isPtr (UInt8.ofNat n) = decide (192 ≤ n) := by decide +kernel
  have h := key b.toNat b.toNat_lt
  rw [UInt8.ofNat_toNat] at h
  simp [h]

theorem isPtr_false_iff (b : UInt8) : isPtr b = false ↔ b.toNat < 192 := by
  rw [Bool.eq_false_iff, ne_eq, isPtr_iff]; omega

theorem getPtr_eq {b1 : UInt8} (b2 : UInt8) (h : 192 ≤ b1.toNat) :
    getPtr b1 b2 = (b1.toNat - 192) * 256 + b2.toNat := by
  have := b1.toNat_lt; have := b2.toNat_lt
  unfold getPtr; omega

theorem nameLen_pos (ls : Name) : 1 ≤ nameLen ls := by
  cases ls <;> simp only [nameLen] <;> omega

theorem NameAt.lt {mem endp compr pos ls n} (h : NameAt mem endp compr pos ls n) : pos < endp := by
  induction h with
  | root h => exact h
  | label _ h1 _ _ _ ih => omega
  | ptr _ h => omega

theorem NameAt.fits {mem endp compr pos ls n} (h : NameAt mem endp compr pos ls n) :
    pos + n ≤ endp := by
  induction h with
  | root h => omega
  | label _ h1 _ _ _ ih => omega
  | ptr _ h => omega

theorem NameAt.labels_ok {mem endp compr pos ls n} (h : NameAt mem endp compr pos ls n) :
    ∀ l ∈ ls, 1 ≤ l.length ∧ l.length ≤ 63 := by
  induction h with
  | root h => simp
  | label _ h1 h2 _ _ ih => simp only [List.mem_cons]; rintro l (rfl | h); exact ⟨h1, h2⟩; exact ih _ h
  | ptr _ h _ _ _ _ _ ih => exact ih

theorem zero_toNat {b : UInt8} : b.toNat = 0 ↔ b = 0 := by
  constructor
  · intro h; exact byte_eq (by simpa using h)
  · rintro rfl; rfl

/-- One-step inversion of the specification. -/
theorem NameAt_iff {mem endp compr pos ls n} :
    NameAt mem endp compr pos ls n ↔
    pos < endp ∧ ∃ b, mem[pos]? = some b ∧
     ((b.toNat = 0 ∧ ls = [] ∧ n = 1) ∨
      (1 ≤ b.toNat ∧ b.toNat ≤ 63 ∧ ∃ ls' n', ls = (mem.drop (pos+1)).take b.toNat :: ls' ∧
        (b.toNat ≤ mem.length - (pos + 1)) ∧
        n = b.toNat + 1 + n' ∧ NameAt mem endp compr (pos + (b.toNat + 1)) ls' n') ∨
      (192 ≤ b.toNat ∧ compr = true ∧ pos + 2 ≤ endp ∧ n = 2 ∧ ∃ b2, mem[pos+1]? = some b2 ∧
        getPtr b b2 < pos ∧ ∃ n', NameAt mem endp compr (getPtr b b2) ls n')) := by
  constructor
  · intro h
    refine ⟨h.lt, ?_⟩
    cases h with
    | root h1 h2 => exact ⟨0, h2, .inl ⟨rfl, rfl, rfl⟩⟩
    | @label _ l ls' n' h1 h2 h3 h4 h5 =>
      have hl : (UInt8.ofNat l.length).toNat = l.length := ofNat_toNat (by omega)
      refine ⟨_, h1, .inr (.inl ?_)⟩
      rw [hl]
      refine ⟨h2, h3, ls', n', by rw [h4], ?_, rfl, h5⟩
      have := congrArg List.length h4
      simp only [List.length_take, List.length_drop] at this
      omega
    | @ptr _ _ n' b1 b2 h1 h2 h3 h4 h5 h6 h7 =>
      refine ⟨b1, h3, .inr (.inr ⟨h5, h1, h2, rfl, b2, h4, ?_⟩)⟩
      rw [getPtr_eq _ h5]
      exact ⟨h6, _, h7⟩
  · rintro ⟨hlt, b, hb, h | ⟨h1, h2, ls', n', rfl, h3, rfl, h4⟩ | ⟨h1, h2, h3, rfl, b2, h4, h5, n', h6⟩⟩
    · obtain ⟨h0, rfl, rfl⟩ := h
      exact .root hlt (by rw [hb, zero_toNat.mp h0])
    · have hlen : ((mem.drop (pos+1)).take b.toNat).length = b.toNat := by
        simp only [List.length_take, List.length_drop]; omega
      have := NameAt.label (mem := mem) (endp := endp) (compr := compr) (pos := pos)
        (l := (mem.drop (pos+1)).take b.toNat) (ls := ls') (n := n')
      rw [hlen, UInt8.ofNat_toNat] at this
      exact this hb h1 h2 rfl h4
    · rw [getPtr_eq _ h1] at h5 h6
      exact .ptr h2 h3 hb h4 h1 h5 h6

theorem getElem?_of_lt {α} {l : List α} {i n : Nat} (h : i < n) (h' : n ≤ l.length) :
    ∃ b, l[i]? = some b := ⟨l[i]'(by omega), List.getElem?_eq_getElem (by omega)⟩

theorem wireCheckLoop_safe (mem endp compr name wl nl isC) (h1 : name < endp)
    (h2 : endp ≤ mem.length) : wireCheckLoop mem endp compr name wl nl isC ≠ .ub := by
  fun_induction wireCheckLoop mem endp compr name wl nl isC with
  | case1 => rename_i h; obtain ⟨b, hb⟩ := getElem?_of_lt h1 h2; simp_all
  | case5 => rename_i h; simp_all; omega
  | case8 => rename_i ih; apply ih; simp_all
  | case12 => rename_i ih; apply ih; omega
  | _ => simp_all

theorem wireCheckLoop_ok_iff (mem endp compr name wl nl isC r) (h1 : name < endp)
    (h2 : endp ≤ mem.length) (h3 : nl ≤ 255) :
    wireCheckLoop mem endp compr name wl nl isC = .ok r ↔
    ∃ ls n, NameAt mem endp compr name ls n ∧ nl + nameLen ls ≤ 256 ∧
      r = if isC then wl else wl + n := by
  fun_induction wireCheckLoop mem endp compr name wl nl isC with
  | case1 name wl nl isC h => obtain ⟨b, hb⟩ := getElem?_of_lt h1 h2; simp_all
  | case2 name wl nl isC b hb h0 =>
    constructor
    · intro h
      refine ⟨[], 1, .root h1 (by rw [hb, zero_toNat.mp h0]), by simp [nameLen]; omega, ?_⟩
      simp only [Res.ok.injEq] at h
      exact h.symm
    · rintro ⟨ls, n, hn, hl, rfl⟩
      rw [NameAt_iff] at hn
      obtain ⟨_, b', hb', h | ⟨h, _⟩ | ⟨h, _⟩⟩ := hn
      · obtain ⟨_, _, rfl⟩ := h
        rfl
      · rw [hb] at hb'; cases hb'; omega
      · rw [hb] at hb'; cases hb'; omega
  | case3 name wl nl isC b hb h0 h4 =>
    simp only [reduceCtorEq, false_iff, not_exists, not_and]
    intro ls n hn hl
    rw [NameAt_iff] at hn
    obtain ⟨_, b', hb', ⟨h, _⟩ | ⟨h, _, _, _, _, _, _, h'⟩ | ⟨h, _⟩⟩ := hn
    · rw [hb] at hb'; cases hb'; omega
    · have := h'.lt; omega
    · omega
  | case4 name wl nl isC b hb h0 h4 hp hc =>
    simp only [reduceCtorEq, false_iff, not_exists, not_and]
    intro ls n hn hl
    rw [isPtr_iff] at hp
    rw [NameAt_iff] at hn
    obtain ⟨_, b', hb', ⟨h, _⟩ | ⟨h, _, _⟩ | ⟨h, h', _⟩⟩ := hn
    · rw [hb] at hb'; cases hb'; omega
    · rw [hb] at hb'; cases hb'; omega
    · simp_all
  | case5 name wl nl isC b hb h0 h4 hp hc h5 =>
    obtain ⟨b, hb⟩ := getElem?_of_lt (l := mem) (i := name + 1) (n := endp) (by omega) h2; simp_all
  | case6 name wl nl isC b hb h0 h4 hp hc b2 hb2 hg =>
    simp only [reduceCtorEq, false_iff, not_exists, not_and]
    intro ls n hn hl
    rw [isPtr_iff] at hp
    rw [NameAt_iff] at hn
    obtain ⟨_, b', hb', ⟨h, _⟩ | ⟨h, _, _⟩ | ⟨h, h', _, _, b2', hb2', h6, _⟩⟩ := hn
    · rw [hb] at hb'; cases hb'; omega
    · rw [hb] at hb'; cases hb'; omega
    · rw [hb] at hb'; cases hb'; rw [hb2] at hb2'; cases hb2'; omega
  | case7 name wl nl isC b hb h0 h4 hp hc b2 hb2 hg hg2 =>
    simp only [reduceCtorEq, false_iff, not_exists, not_and]
    intro ls n hn hl
    rw [isPtr_iff] at hp
    rw [NameAt_iff] at hn
    obtain ⟨_, b', hb', ⟨h, _⟩ | ⟨h, _, _⟩ | ⟨h, h', _, _, b2', hb2', h6, _⟩⟩ := hn
    · rw [hb] at hb'; cases hb'; omega
    · rw [hb] at hb'; cases hb'; omega
    · omega
  | case8 name wl nl isC b hb h0 h4 hp hc b2 hb2 hg hg2 ih =>
    rw [isPtr_iff] at hp
    simp only [dite_eq_ite] at ih
    rw [ih (by omega) h3]
    constructor
    · rintro ⟨ls, n, hn, hl, hr⟩
      refine ⟨ls, 2, ?_, hl, ?_⟩
      · rw [NameAt_iff]
        refine ⟨h1, b, hb, .inr (.inr ⟨hp, by simpa using hc, by omega, rfl, b2, hb2, by omega, n, hn⟩)⟩
      · rw [hr]; simp
    · rintro ⟨ls, n, hn, hl, hr⟩
      rw [NameAt_iff] at hn
      obtain ⟨_, b', hb', ⟨h, _⟩ | ⟨h, _, _⟩ | ⟨h, h', _, rfl, b2', hb2', h6, n', h7⟩⟩ := hn
      · rw [hb] at hb'; cases hb'; omega
      · rw [hb] at hb'; cases hb'; omega
      · rw [hb] at hb'; cases hb'; rw [hb2] at hb2'; cases hb2'
        exact ⟨ls, n', h7, hl, by rw [hr]; simp⟩
  | case9 name wl nl isC b hb h0 h4 hp h5 =>
    rw [isPtr_iff] at hp
    simp only [maxLabelLen] at h5
    simp only [reduceCtorEq, false_iff, not_exists, not_and]
    intro ls n hn hl
    rw [NameAt_iff] at hn
    obtain ⟨_, b', hb', ⟨h, _⟩ | ⟨h, _, _⟩ | ⟨h, h', _⟩⟩ := hn <;>
      (rw [hb] at hb'; cases hb'; omega)
  | case10 name wl nl isC b hb h0 h4 hp h5 h6 =>
    rw [isPtr_iff] at hp
    simp only [maxLabelLen, maxLen] at h5 h6
    simp only [reduceCtorEq, false_iff, not_exists, not_and]
    intro ls n hn hl
    rw [NameAt_iff] at hn
    obtain ⟨_, b', hb', ⟨h, _⟩ | ⟨h, _, ls', n', rfl, h7, h8, h9⟩ | ⟨h, h', _⟩⟩ := hn
    · rw [hb] at hb'; cases hb'; omega
    · rw [hb] at hb'; cases hb'
      have := nameLen_pos ls'
      simp only [nameLen, List.length_take, List.length_drop] at hl
      omega
    · rw [hb] at hb'; cases hb'; omega
  | case11 name wl nl isC b hb h0 h4 hp h5 h6 h7 =>
    rw [isPtr_iff] at hp
    simp only [maxLabelLen, maxLen] at h5 h6
    simp only [reduceCtorEq, false_iff, not_exists, not_and]
    intro ls n hn hl
    rw [NameAt_iff] at hn
    obtain ⟨_, b', hb', ⟨h, _⟩ | ⟨h, _, ls', n', rfl, h7, h8, h9⟩ | ⟨h, h', _⟩⟩ := hn
    · rw [hb] at hb'; cases hb'; omega
    · rw [hb] at hb'; cases hb'
      have := h9.lt; omega
    · rw [hb] at hb'; cases hb'; omega
  | case12 name wl nl isC b hb h0 h4 hp h5 h6 h7 ih =>
    rw [isPtr_iff] at hp
    simp only [maxLabelLen, maxLen] at h5 h6
    simp only [dite_eq_ite] at ih
    rw [ih (by omega) (by omega)]
    constructor
    · rintro ⟨ls, n, hn, hl, hr⟩
      refine ⟨(mem.drop (name+1)).take b.toNat :: ls, b.toNat + 1 + n, ?_, ?_, ?_⟩
      · rw [NameAt_iff]
        exact ⟨h1, b, hb, .inr (.inl ⟨by omega, by omega, ls, n, rfl, by omega, rfl, hn⟩)⟩
      · simp only [nameLen, List.length_take, List.length_drop]; omega
      · rw [hr]; split <;> omega
    · rintro ⟨ls, n, hn, hl, hr⟩
      rw [NameAt_iff] at hn
      obtain ⟨_, b', hb', ⟨h, _⟩ | ⟨h, _, ls', n', rfl, h7, rfl, h9⟩ | ⟨h, h', _⟩⟩ := hn
      · rw [hb] at hb'; cases hb'; omega
      · rw [hb] at hb'; cases hb'
        simp only [nameLen, List.length_take, List.length_drop] at hl
        refine ⟨ls', n', h9, by omega, ?_⟩
        rw [hr]; split <;> omega
      · rw [hb] at hb'; cases hb'; omega

theorem NameAt.unique {mem endp compr pos ls n} (h : NameAt mem endp compr pos ls n) :
    ∀ {ls' n'}, NameAt mem endp compr pos ls' n' → ls = ls' ∧ n = n' := by
  induction h with
  | root h1 h2 =>
    intro ls' n' h
    rw [NameAt_iff] at h
    obtain ⟨_, b', hb', ⟨h, rfl, rfl⟩ | ⟨h, _, _⟩ | ⟨h, h', _⟩⟩ := h
    · simp
    · rw [h2] at hb'; cases hb'; simp at h
    · rw [h2] at hb'; cases hb'; simp at h
  | @label pos l ls n h1 h2 h3 h4 h5 ih =>
    have hl : (UInt8.ofNat l.length).toNat = l.length := ofNat_toNat (by omega)
    intro ls' n' h
    rw [NameAt_iff] at h
    obtain ⟨_, b', hb', ⟨h, rfl, rfl⟩ | ⟨h, _, ls'', n'', rfl, h7, rfl, h9⟩ | ⟨h, h', _⟩⟩ := h
    · rw [h1] at hb'; cases hb'; omega
    · rw [h1] at hb'; cases hb'
      rw [hl] at *
      obtain ⟨rfl, rfl⟩ := ih h9
      rw [h4]; simp
    · rw [h1] at hb'; cases hb'; omega
  | @ptr pos ls n b1 b2 h1 h2 h3 h4 h5 h6 h7 ih =>
    intro ls' n' h
    rw [NameAt_iff] at h
    obtain ⟨_, b', hb', ⟨h, rfl, rfl⟩ | ⟨h, h8, h9⟩ | ⟨h, h', _, rfl, b2', hb2', h8, n'', h9⟩⟩ := h
    · rw [h3] at hb'; cases hb'; omega
    · rw [h3] at hb'; cases hb'; omega
    · rw [h3] at hb'; cases hb'; rw [h4] at hb2'; cases hb2'
      rw [getPtr_eq _ h5] at h9
      exact ⟨(ih h9).1, rfl⟩

/-! ## Decompression -/

theorem seekLabel_of_NameAt {mem endp pos ls n} (h : NameAt mem endp true pos ls n) :
    ∃ pos' n', seekLabel mem pos = .ok pos' ∧ NameAt mem endp true pos' ls n' ∧
      ∃ b, mem[pos']? = some b ∧ b.toNat ≤ 63 := by
  induction h with
  | @root pos h1 h2 =>
    refine ⟨pos, 1, ?_, .root h1 h2, 0, h2, by simp⟩
    unfold seekLabel
    simp only [h2]
    rfl
  | @label pos l ls n h1 h2 h3 h4 h5 ih =>
    have hl : (UInt8.ofNat l.length).toNat = l.length := ofNat_toNat (by omega)
    refine ⟨pos, _, ?_, .label h1 h2 h3 h4 h5, _, h1, by omega⟩
    unfold seekLabel
    simp only [h1]
    rw [if_neg]
    rw [isPtr_iff]; omega
  | @ptr pos ls n b1 b2 h1 h2 h3 h4 h5 h6 h7 ih =>
    obtain ⟨pos', n', h8, h9⟩ := ih
    refine ⟨pos', n', ?_, h9⟩
    unfold seekLabel
    simp only [h3, h4]
    rw [if_pos ((isPtr_iff _).2 h5), getPtr_eq _ h5, dif_neg (by omega), h8]

theorem wireNext_of_NameAt {mem endp pos l ls n b} (h : NameAt mem endp true pos (l :: ls) n)
    (hb : mem[pos]? = some b) (h63 : b.toNat ≤ 63) :
    b.toNat = l.length ∧ l = (mem.drop (pos + 1)).take l.length ∧ 1 ≤ l.length ∧
    pos + 1 + l.length ≤ endp ∧
    ∃ pos' n', wireNext mem pos = .ok pos' ∧ NameAt mem endp true pos' ls n' ∧
      ∃ b', mem[pos']? = some b' ∧ b'.toNat ≤ 63 := by
  rw [NameAt_iff] at h
  obtain ⟨_, b', hb', ⟨h, h', _⟩ | ⟨h, _, ls'', n'', h6, h7, rfl, h9⟩ | ⟨h, h', _⟩⟩ := h
  · cases h'
  · rw [hb] at hb'; cases hb'
    simp only [List.cons.injEq] at h6
    obtain ⟨rfl, rfl⟩ := h6
    have hlen : ((mem.drop (pos+1)).take b.toNat).length = b.toNat := by
      simp only [List.length_take, List.length_drop]; omega
    rw [hlen]
    have := h9.lt
    refine ⟨rfl, rfl, h, by omega, ?_⟩
    obtain ⟨p', n', h1, h2, h3⟩ := seekLabel_of_NameAt h9
    refine ⟨p', n', ?_, h2, h3⟩
    unfold wireNext
    simp only [hb]
    rw [if_neg (by omega), h1]
  · rw [hb] at hb'; cases hb'; omega

theorem take_cons_drop {mem : List UInt8} {pos : Nat} {b : UInt8} {k : Nat}
    (hb : mem[pos]? = some b) :
    (mem.drop pos).take (k + 1) = b :: (mem.drop (pos + 1)).take k := by
  obtain ⟨h, rfl⟩ := List.getElem?_eq_some_iff.mp hb
  rw [List.drop_eq_getElem_cons h, List.take_succ_cons]

theorem unpackLoop_of_NameAt {mem endp maxlen} (he : endp ≤ mem.length) (ls : Name) :
    ∀ {pos n b out}, NameAt mem endp true pos ls n → mem[pos]? = some b → b.toNat ≤ 63 →
    out.length ≤ maxlen →
    unpackLoop mem maxlen pos out =
      if out.length + nameLen ls ≤ maxlen then .ok (out ++ wire ls)
      else if out.length + nameLen ls = maxlen + 1 then .err .einval else .err .espace := by
  induction ls with
  | nil =>
    intro pos n b out h hb h63 ho
    have h0 : b.toNat = 0 := by
      rw [NameAt_iff] at h
      obtain ⟨_, b', hb', ⟨h, h', _⟩ | ⟨h, _, ls'', n'', h6, h7, rfl, h9⟩ | ⟨h, h', _⟩⟩ := h
      · rw [hb] at hb'; cases hb'; exact h
      · cases h6
      · rw [hb] at hb'; cases hb'; omega
    unfold unpackLoop
    simp only [hb, if_pos h0]
    rw [show nameLen [] = 1 from rfl, show wire [] = [0] from rfl]
    split
    · rw [if_neg (by omega), if_pos (by omega)]
    · rw [if_pos (by omega)]
  | cons l ls ih =>
    intro pos n b out h hb h63 ho
    obtain ⟨h1, h2, h3, h4, pos', n', h5, h6, b', h7, h8⟩ := wireNext_of_NameAt h hb h63
    have hbl : b = UInt8.ofNat l.length := by rw [← h1, UInt8.ofNat_toNat]
    unfold unpackLoop
    simp only [hb, h5]
    have hm : (b.toNat + 1) % 256 = l.length + 1 := by omega
    rw [if_neg (by omega), hm]
    have := nameLen_pos ls
    by_cases hs : out.length + (l.length + 1) > maxlen
    · rw [dif_pos hs, if_neg, if_neg]
      · simp only [nameLen]; omega
      · simp only [nameLen]; omega
    · rw [dif_neg hs, dif_neg (by omega), dif_neg (by omega), take_cons_drop hb, ← h2]
      rw [ih h6 h7 h8 (by simp only [List.length_append, List.length_cons]; omega)]
      simp only [List.length_append, List.length_cons, nameLen, wire, List.append_assoc,
        List.cons_append, hbl]
      congr 1
      · simp only [eq_iff_iff]; omega
      · congr 1; simp only [eq_iff_iff]; omega

theorem unpack_of_NameAt {mem endp maxlen pos ls n} (he : endp ≤ mem.length)
    (h : NameAt mem endp true pos ls n) :
    unpack mem maxlen pos =
      if nameLen ls ≤ maxlen then .ok (wire ls)
      else if nameLen ls = maxlen + 1 then .err .einval else .err .espace := by
  obtain ⟨pos', n', h1, h2, b, h3, h4⟩ := seekLabel_of_NameAt h
  unfold unpack
  simp only [h1]
  rw [unpackLoop_of_NameAt he ls h2 h3 h4 (by simp)]
  simp

theorem realsizeLoop_of_NameAt {mem endp} (ls : Name) :
    ∀ {pos n b len fuel}, NameAt mem endp true pos ls n → mem[pos]? = some b → b.toNat ≤ 63 →
    ls.length < fuel → realsizeLoop mem fuel pos len = some (.ok (len + nameLen ls)) := by
  induction ls with
  | nil =>
    intro pos n b len fuel h hb h63 hf
    have h0 : b.toNat = 0 := by
      rw [NameAt_iff] at h
      obtain ⟨_, b', hb', ⟨h, h', _⟩ | ⟨h, _, ls'', n'', h6, h7, rfl, h9⟩ | ⟨h, h', _⟩⟩ := h
      · rw [hb] at hb'; cases hb'; exact h
      · cases h6
      · rw [hb] at hb'; cases hb'; omega
    cases fuel with
    | zero => simp at hf
    | succ f => simp [realsizeLoop, hb, h0, nameLen]
  | cons l ls ih =>
    intro pos n b len fuel h hb h63 hf
    obtain ⟨h1, h2, h3, h4, pos', n', h5, h6, b', h7, h8⟩ := wireNext_of_NameAt h hb h63
    cases fuel with
    | zero => simp at hf
    | succ f =>
      simp only [realsizeLoop, hb, h5]
      rw [if_neg (by omega), ih h6 h7 h8 (by simpa using hf)]
      simp only [nameLen]
      congr 2; omega

theorem labelsWire_of_NameAt {mem endp} (ls : Name) :
    ∀ {pos n b fuel}, NameAt mem endp true pos ls n → mem[pos]? = some b → b.toNat ≤ 63 →
    ls.length < fuel → labelsWire mem fuel pos = some (.ok ls.length) := by
  induction ls with
  | nil =>
    intro pos n b fuel h hb h63 hf
    have h0 : b.toNat = 0 := by
      rw [NameAt_iff] at h
      obtain ⟨_, b', hb', ⟨h, h', _⟩ | ⟨h, _, ls'', n'', h6, h7, rfl, h9⟩ | ⟨h, h', _⟩⟩ := h
      · rw [hb] at hb'; cases hb'; exact h
      · cases h6
      · rw [hb] at hb'; cases hb'; omega
    cases fuel with
    | zero => simp at hf
    | succ f => simp [labelsWire, hb, h0]
  | cons l ls ih =>
    intro pos n b fuel h hb h63 hf
    obtain ⟨h1, h2, h3, h4, pos', n', h5, h6, b', h7, h8⟩ := wireNext_of_NameAt h hb h63
    cases fuel with
    | zero => simp at hf
    | succ f =>
      simp only [labelsWire, hb, h5]
      rw [if_neg (by omega), ih h6 h7 h8 (by simpa using hf)]
      simp

/-! ## Uncompressed names -/

theorem wire_length (ls : Name) : (wire ls).length = nameLen ls := by
  induction ls with
  | nil => rfl
  | cons l ls ih => simp only [wire, nameLen, List.length_cons, List.length_append, ih]; omega

/-- All labels have a legal length. -/
def LabelsOk (ls : Name) : Prop := ∀ l ∈ ls, 1 ≤ l.length ∧ l.length ≤ 63

theorem LabelsOk.head {l ls} (h : LabelsOk (l :: ls)) : 1 ≤ l.length ∧ l.length ≤ 63 :=
  h l (by simp)
theorem LabelsOk.tail {l ls} (h : LabelsOk (l :: ls)) : LabelsOk ls :=
  fun x hx => h x (by simp [hx])
theorem LabelsOk.head_toNat {l ls} (h : LabelsOk (l :: ls)) :
    (UInt8.ofNat l.length).toNat = l.length := ofNat_toNat (by have := h.head; omega)

theorem wire_ne_nil (ls : Name) : wire ls ≠ [] := by cases ls <;> simp [wire]

theorem wire_inj {a b : Name} {r s : Bytes} (ha : LabelsOk a) (hb : LabelsOk b)
    (h : wire a ++ r = wire b ++ s) : a = b := by
  induction a generalizing b with
  | nil =>
    cases b with
    | nil => rfl
    | cons l ls =>
      simp only [wire, List.cons_append, List.nil_append, List.cons.injEq] at h
      have := congrArg UInt8.toNat h.1
      rw [hb.head_toNat, show (0 : UInt8).toNat = 0 from rfl] at this
      have := hb.head; omega
  | cons k ks ih =>
    cases b with
    | nil =>
      simp only [wire, List.cons_append, List.nil_append, List.cons.injEq] at h
      have := congrArg UInt8.toNat h.1
      rw [ha.head_toNat, show (0 : UInt8).toNat = 0 from rfl] at this
      have := ha.head; omega
    | cons l ls =>
      simp only [wire, List.cons_append, List.cons.injEq, List.append_assoc] at h
      obtain ⟨h1, h2⟩ := h
      have h1 := congrArg UInt8.toNat h1
      rw [ha.head_toNat, hb.head_toNat] at h1
      obtain ⟨rfl, h3⟩ := List.append_inj h2 h1
      rw [ih ha.tail hb.tail h3]

theorem nextLabel_wire {l ls} (r : Bytes) (h : LabelsOk (l :: ls)) :
    nextLabel (wire (l :: ls) ++ r) = .ok (wire ls ++ r) := by
  have := h.head
  simp only [wire, nextLabel, List.cons_append, h.head_toNat]
  rw [if_neg (by omega), if_neg (by rw [isPtr_iff, h.head_toNat]; omega), if_neg (by simp)]
  simp [List.append_assoc]

theorem size_wire {ls} (r : Bytes) (h : LabelsOk ls) : size (wire ls ++ r) = .ok (nameLen ls) := by
  induction ls with
  | nil => unfold size; simp [wire, nameLen]
  | cons l ls ih =>
    have := h.head
    unfold size
    simp only [wire, List.cons_append, h.head_toNat]
    rw [if_neg (by omega), if_neg (by rw [isPtr_iff, h.head_toNat]; omega), if_neg (by simp)]
    simp only [List.append_assoc, List.drop_left', ih h.tail, nameLen]
    rw [Nat.mod_eq_of_lt (by omega)]

theorem labels_wire {ls} (r : Bytes) (h : LabelsOk ls) : labels (wire ls ++ r) = .ok ls.length := by
  induction ls with
  | nil => unfold labels; simp [wire]
  | cons l ls ih =>
    have := h.head
    have hn := nextLabel_wire r h
    unfold labels
    simp only [wire, List.cons_append, h.head_toNat] at hn ⊢
    rw [if_neg (by omega)]
    split
    · rename_i n hn'; rw [hn] at hn'; cases hn'; rw [ih h.tail]; rfl
    · rename_i hn'; rw [hn] at hn'; cases hn'
    · rename_i hn'; rw [hn] at hn'; cases hn'

theorem prefixlen_wire {ls} (r : Bytes) (h : LabelsOk ls) (k : Nat) :
    prefixlen (wire ls ++ r) k = .ok (nameLen (ls.take k) - 1) := by
  induction ls generalizing k with
  | nil => cases k <;> simp [prefixlen, wire, nameLen]
  | cons l ls ih =>
    cases k with
    | zero => simp [prefixlen, nameLen]
    | succ k =>
      have := h.head
      have hn := nextLabel_wire r h
      simp only [wire, List.cons_append] at hn
      simp only [prefixlen, wire, List.cons_append, h.head_toNat, hn]
      rw [if_neg (by omega), ih h.tail]
      have := nameLen_pos (ls.take k)
      simp only [Res.bind_ok, List.take_succ_cons, nameLen, Res.ok.injEq]
      omega

theorem skipLabels_wire {ls} (r : Bytes) (h : LabelsOk ls) {k : Nat} (hk : k ≤ ls.length) :
    skipLabels (wire ls ++ r) k = .ok (wire (ls.drop k) ++ r) := by
  induction k generalizing ls with
  | zero => rfl
  | succ k ih =>
    cases ls with
    | nil => simp at hk
    | cons l ls =>
      simp only [skipLabels, nextLabel_wire r h, Res.bind_ok, List.drop_succ_cons]
      exact ih h.tail (by simpa using hk)

theorem toLower_eq (c : UInt8) : toLower c = lowerByte c := by
  unfold toLower lowerByte
  split
  · rename_i h
    apply byte_eq
    rw [ofNat_toNat (by omega), UInt8.toNat_add]
    simp; omega
  · rfl

theorem labelIsEqual_wire {a b : Label} {as bs : Name} (r s : Bytes) (nc : Bool)
    (ha : LabelsOk (a :: as)) (hb : LabelsOk (b :: bs)) :
    labelIsEqual (wire (a :: as) ++ r) (wire (b :: bs) ++ s) nc =
      .ok (if nc then a.map lowerByte == b.map lowerByte else a == b) := by
  have e : toLower = lowerByte := funext toLower_eq
  simp only [wire, List.cons_append, labelIsEqual, ha.head_toNat, hb.head_toNat, e]
  split
  · rename_i hne
    have h1 : a ≠ b := fun h => hne (by rw [h])
    have h2 : a.map lowerByte ≠ b.map lowerByte := fun h => hne (by simpa using congrArg List.length h)
    cases nc <;> simp [h1, h2]
  · rename_i heq
    rw [ne_eq, Decidable.not_not] at heq
    rw [if_neg (by simp only [List.length_append]; omega)]
    rw [List.append_assoc, List.append_assoc, List.take_left' rfl, List.take_left' heq.symm]
    cases nc <;> simp

theorem isEqualGen_wire {a b : Name} (r s : Bytes) (nc : Bool)
    (ha : LabelsOk a) (hb : LabelsOk b) :
    isEqualGen (wire a ++ r) (wire b ++ s) nc =
      .ok (if nc then lowerName a == lowerName b else a == b) := by
  induction a generalizing b with
  | nil =>
    cases b with
    | nil => unfold isEqualGen; cases nc <;> simp [wire, lowerName]
    | cons l ls =>
      have := hb.head
      have hz : (0 : UInt8).toNat = 0 := rfl
      unfold isEqualGen
      simp only [wire, List.cons_append, List.nil_append, hb.head_toNat, labelIsEqual, hz]
      rw [if_pos (by omega), if_pos (by omega)]
      cases nc <;> simp [lowerName]
  | cons k ks ih =>
    cases b with
    | nil =>
      have := ha.head
      have hz : (0 : UInt8).toNat = 0 := rfl
      unfold isEqualGen
      simp only [wire, List.cons_append, List.nil_append, ha.head_toNat, labelIsEqual, hz]
      rw [if_pos (by omega), if_pos (by omega)]
      cases nc <;> simp [lowerName]
    | cons l ls =>
      have := ha.head
      have h1 := nextLabel_wire r ha
      have h2 := nextLabel_wire s hb
      have h3 := labelIsEqual_wire r s nc ha hb
      unfold isEqualGen
      simp only [wire, List.cons_append] at h1 h2 h3 ⊢
      rw [h3]
      rw [if_pos (by rw [ha.head_toNat]; omega)]
      split
      · rename_i he
        simp only [Res.ok.injEq] at he
        split
        · rename_i n1 hn1
          rw [h1] at hn1; cases hn1
          rw [h2]
          simp only [ih ha.tail hb.tail]
          cases nc <;> simp_all [lowerName]
        · rename_i hn1; rw [h1] at hn1; cases hn1
        · rename_i hn1; rw [h1] at hn1; cases hn1
      · rename_i he
        simp only [Res.ok.injEq] at he
        cases nc <;> simp_all [lowerName]
      · rename_i he; cases he
      · rename_i he; cases he

theorem copyLower_wire {ls : Name} (r : Bytes) (h : LabelsOk ls) :
    copyLower (wire ls ++ r) = .ok (wire (lowerName ls)) := by
  have e : toLower = lowerByte := funext toLower_eq
  induction ls with
  | nil => unfold copyLower; simp [wire, lowerName]
  | cons l ls ih =>
    have := h.head
    unfold copyLower
    simp only [wire, List.cons_append, h.head_toNat, lowerName, List.map_cons, List.length_map]
    rw [if_neg (by omega), if_neg (by simp), List.append_assoc, List.drop_left, List.take_left,
      ih h.tail, e]
    rfl

theorem copyPrefix_wire {ls} (r : Bytes) (h : LabelsOk ls) {k : Nat} (hk : k ≤ ls.length) :
    copyPrefix (wire ls ++ r) k = .ok ((wire (ls.take k)).dropLast) := by
  induction k generalizing ls with
  | zero => simp [copyPrefix, wire]
  | succ k ih =>
    cases ls with
    | nil => simp at hk
    | cons l ls =>
      have hn := nextLabel_wire r h
      simp only [wire, List.cons_append] at hn
      simp only [copyPrefix, wire, List.cons_append, hn, h.head_toNat]
      rw [if_neg (by simp)]
      simp only [Res.bind_ok, ih h.tail (by simpa using hk), List.append_assoc, List.take_left,
        List.take_succ_cons, wire]
      rw [List.dropLast_cons_of_ne_nil (by simp [wire_ne_nil]),
        List.dropLast_append_of_ne_nil (wire_ne_nil _)]

theorem copyAll_wire {ls} (r : Bytes) (h : LabelsOk ls) : copyAll (wire ls ++ r) = .ok (wire ls) := by
  induction ls with
  | nil => unfold copyAll; simp [wire]
  | cons l ls ih =>
    have := h.head
    have hn := nextLabel_wire r h
    unfold copyAll
    simp only [wire, List.cons_append, h.head_toNat] at hn ⊢
    rw [if_neg (by omega), if_neg (by simp)]
    split
    · rename_i n hn'; rw [hn] at hn'; cases hn'; rw [ih h.tail]; simp
    · rename_i hn'; rw [hn] at hn'; cases hn'
    · rename_i hn'; rw [hn] at hn'; cases hn'

theorem wire_append (a b : Name) : wire (a ++ b) = (wire a).dropLast ++ wire b := by
  induction a with
  | nil => simp [wire]
  | cons l ls ih =>
    simp only [List.cons_append, wire, ih]
    rw [List.dropLast_cons_of_ne_nil (by simp [wire_ne_nil]),
        List.dropLast_append_of_ne_nil (wire_ne_nil _)]
    simp

end Knot.Dname
