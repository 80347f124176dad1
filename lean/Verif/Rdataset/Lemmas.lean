import Verif.Rdataset.Spec
import Verif.Dname.LemmasText
namespace Knot.Rdataset
open Knot.Dname (lexCmp byteCmp memcmp)

def pack (l : List Bytes) : Bytes := l.flatMap rdataInit

theorem pack_cons (d l) : pack (d :: l) = rdataInit d ++ pack l := rfl
theorem pack_append (a b) : pack (a ++ b) = pack a ++ pack b := by simp [pack]

theorem length_rdataInit (d : Bytes) : (rdataInit d).length = rdataSize d.length := by
  unfold rdataInit rdataSize
  split <;> simp <;> omega

theorem rdataAt_init {d : Bytes} (h : d.length ≤ 65535) (t : Bytes) :
    rdataAt (rdataInit d ++ t) = .ok (d, t) := by
  unfold rdataAt rdataInit
  have e : (UInt8.ofNat (d.length % 256)).toNat + 256 * (UInt8.ofNat (d.length / 256 % 256)).toNat
      = d.length := by
    rw [Dname.ofNat_toNat (by omega), Dname.ofNat_toNat (by omega)]; omega
  simp only [List.cons_append, e]
  by_cases h' : d.length % 2 = 1
  · simp only [h', if_true]
    rw [if_neg (by simp)]
    simp
  · have h2 : d.length % 2 = 0 := by omega
    simp only [h2]
    rw [if_neg (by simp)]
    simp

theorem rdataCmp_eq (a b : Bytes) : rdataCmp a b = lexCmp byteCmp a b := by
  rw [← Dname.memcmp_lex]
  unfold rdataCmp
  have e : (if a.length ≤ b.length then a.length else b.length)
    = (if a.length > b.length then b.length else a.length) := by
    split <;> split <;> omega
  simp only [e]
  generalize memcmp _ _ = o
  cases o <;> simp
  by_cases h : a.length = b.length
  · simp [h]
  · simp only [h, if_false]
    split
    · rfl
    · rw [if_pos (by omega)]

theorem cmp_eq_iff {a b : Bytes} : rdataCmp a b = .eq ↔ a = b := by
  rw [rdataCmp_eq, Dname.lexCmp_eq (fun _ _ => Dname.byteCmp_eq)]
theorem cmp_lt_iff {a b : Bytes} : rdataCmp a b = .lt ↔ Less a b := by
  rw [rdataCmp_eq]; rfl
theorem cmp_gt_iff {a b : Bytes} : rdataCmp a b = .gt ↔ Less b a := by
  rw [rdataCmp_eq]; unfold Less
  rw [Dname.lexCmp_swap Dname.byteCmp_swap a b]
  cases lexCmp byteCmp a b <;> simp [Ordering.swap]
theorem Less.trans {a b c : Bytes} (h : Less a b) (h' : Less b c) : Less a c :=
  Dname.lexCmp_trans (fun _ _ => Dname.byteCmp_eq) Dname.byteCmp_trans a b c h h'
theorem Less.irrefl {a : Bytes} : ¬ Less a a := by
  unfold Less; rw [(Dname.lexCmp_eq (fun _ _ => Dname.byteCmp_eq) a a).mpr rfl]; simp
theorem Less.total (a b : Bytes) : Less a b ∨ a = b ∨ Less b a := by
  cases h : rdataCmp a b
  · exact .inl (cmp_lt_iff.mp h)
  · exact .inr (.inl (cmp_eq_iff.mp h))
  · exact .inr (.inr (cmp_gt_iff.mp h))

/-- Canonical lists are determined by their members. -/
theorem canon_ext {a b : List Bytes} (ha : Canon a) (hb : Canon b)
    (h : ∀ x, x ∈ a ↔ x ∈ b) : a = b := by
  induction a generalizing b with
  | nil =>
    cases b with
    | nil => rfl
    | cons y t => exact absurd ((h y).mpr (by simp)) (by simp)
  | cons x s ih =>
    cases b with
    | nil => exact absurd ((h x).mp (by simp)) (by simp)
    | cons y t =>
      simp only [Canon, List.pairwise_cons] at ha hb
      have hxy : x = y := by
        have h1 := (h x).mp (by simp)
        have h2 := (h y).mpr (by simp)
        simp only [List.mem_cons] at h1 h2
        rcases h1 with h1 | h1
        · exact h1
        · rcases h2 with h2 | h2
          · exact h2.symm
          · exact absurd ((hb.1 x h1).trans (ha.1 y h2)) Less.irrefl
      subst hxy
      rw [ih ha.2 hb.2]
      intro z
      have := h z
      simp only [List.mem_cons] at this
      constructor
      · intro hz
        rcases this.mp (.inr hz) with e | e
        · subst e; exact absurd (ha.1 z hz) Less.irrefl
        · exact e
      · intro hz
        rcases this.mpr (.inr hz) with e | e
        · subst e; exact absurd (hb.1 z hz) Less.irrefl
        · exact e

/-! ## Pointers into the packed array -/

theorem skip_pack {l : List Bytes} (hl : ∀ d ∈ l, d.length ≤ 65535) {n : Nat} (h : n ≤ l.length) :
    skip n (pack l) = .ok (pack (l.drop n)) := by
  induction n generalizing l with
  | zero => simp [skip]
  | succ n ih =>
    cases l with
    | nil => simp at h
    | cons d t =>
      simp only [skip, pack_cons, rdataAt_init (hl d (by simp)), Res.bind_ok, List.drop_succ_cons]
      exact ih (fun x hx => hl x (by simp [hx])) (by simpa using h)

theorem Holds.pack {rs l} (h : Holds rs l) : rs.raw = pack l := h.2.2.2.2.1

theorem rrSeek_holds {rs l} (h : Holds rs l) {pos : Nat} (hp : pos < l.length) :
    rrSeek rs pos = .ok (pack (l.drop pos)) := by
  unfold rrSeek
  rw [h.2.2.2.1, if_pos ⟨by omega, hp⟩, h.pack, skip_pack h.2.1 (by omega)]

theorem mem_len {l : List Bytes} {pre d suf} (hl : ∀ d ∈ l, d.length ≤ 65535)
    (e : l = pre ++ d :: suf) : d.length ≤ 65535 := hl d (by simp [e])

/-! ## member -/

theorem memberLoop_spec (rr : Bytes) (l : List Bytes) (hl : ∀ d ∈ l, d.length ≤ 65535)
    (hc : Canon l) : memberLoop rr l.length (pack l) = .ok (decide (rr ∈ l)) := by
  induction l with
  | nil => simp [memberLoop]
  | cons d t ih =>
    simp only [Canon, List.pairwise_cons] at hc
    simp only [List.length_cons, memberLoop, pack_cons, rdataAt_init (hl d (by simp)), Res.bind_ok]
    cases h : rdataCmp d rr
    · have h' := cmp_lt_iff.mp h
      have : rr ≠ d := by rintro rfl; exact Less.irrefl h'
      simp [this, ih (fun x hx => hl x (by simp [hx])) hc.2]
    · simp [cmp_eq_iff.mp h]
    · have h' := cmp_gt_iff.mp h
      have h1 : rr ≠ d := by rintro rfl; exact Less.irrefl h'
      have h2 : rr ∉ t := fun hm => Less.irrefl (h'.trans (hc.1 _ hm))
      simp [h1, h2]

theorem member_spec {rs l} (h : Holds rs l) (rr : Bytes) :
    member rs rr = .ok (decide (rr ∈ l)) := by
  unfold member
  rw [h.2.2.2.1, h.pack, memberLoop_spec rr l h.2.1 h.1]

/-! ## add -/

/-- The limits under which one more record fits. -/
def Room (rs : RS) : Prop := rs.count ≠ 65535 ∧ rs.size ≤ 4294901757

instance (rs : RS) : Decidable (Room rs) := by unfold Room; infer_instance

theorem addRrAt_spec {rs pre suf} {rr : Bytes} (h : Holds rs (pre ++ suf)) (hr : rr.length ≤ 65535)
    (h1 : ∀ x ∈ pre, Less x rr) (h2 : ∀ x ∈ suf, Less rr x) :
    if Room rs then ∃ rs', addRrAt rs rr (pack suf) = .ok (rs', none) ∧ Holds rs' (pre ++ rr :: suf)
    else addRrAt rs rr (pack suf) = .ok (rs, some .espace) := by
  obtain ⟨hc, hl, hlen, hcount, hraw, hsize⟩ := h
  have hp : rs.raw = pack pre ++ pack suf := by rw [hraw, ← pack_append]; rfl
  have hoff : rs.raw.length - (pack suf).length = (pack pre).length := by rw [hp]; simp
  have hle : (pack pre).length ≤ rs.size := by rw [hsize, hp]; simp
  have h65 : rdataSize 65535 = 65538 := rfl
  unfold addRrAt
  simp only [hoff, hle, not_true, if_false, h65]
  split
  · rename_i hroom
    have hroom' := hroom
    unfold Room at hroom
    rw [if_neg hroom.1, if_neg (by omega)]
    refine ⟨_, rfl, ?_, ?_, ?_, ?_, ?_, ?_⟩
    · simp only [Canon, List.pairwise_append, List.pairwise_cons] at hc ⊢
      refine ⟨hc.1, ⟨h2, hc.2.1⟩, ?_⟩
      intro a ha b hb
      simp only [List.mem_cons] at hb
      rcases hb with rfl | hb
      · exact h1 a ha
      · exact hc.2.2 a ha b hb
    · intro d hd
      simp only [List.mem_append, List.mem_cons] at hd
      rcases hd with hd | rfl | hd
      · exact hl d (by simp [hd])
      · exact hr
      · exact hl d (by simp [hd])
    · rw [hcount] at hroom
      simp only [List.length_append, List.length_cons] at *
      omega
    · simp [hcount]; omega
    · simp only [hp]
      simp [pack]
    · simp only [hp, hsize]
      simp [length_rdataInit]; omega
  · rename_i hroom
    unfold Room at hroom
    by_cases hcnt : rs.count = 65535
    · rw [if_pos hcnt]
    · rw [if_neg hcnt, if_pos (by omega)]

/-- What adding a record to a set must do. -/
def AddOutcome (rs : RS) (l : List Bytes) (rr : Bytes) (out : Res (RS × Option Err)) : Prop :=
  if rr ∈ l then out = .ok (rs, none)
  else if Room rs then ∃ rs' pre suf, l = pre ++ suf ∧ out = .ok (rs', none) ∧
    Holds rs' (pre ++ rr :: suf)
  else out = .ok (rs, some .espace)

theorem addRrAt_outcome {rs pre suf} {rr : Bytes} (h : Holds rs (pre ++ suf)) (hr : rr.length ≤ 65535)
    (h1 : ∀ x ∈ pre, Less x rr) (h2 : ∀ x ∈ suf, Less rr x) :
    AddOutcome rs (pre ++ suf) rr (addRrAt rs rr (pack suf)) := by
  have hn : rr ∉ pre ++ suf := by
    intro hm
    rcases List.mem_append.mp hm with hm | hm
    · exact Less.irrefl (h1 _ hm)
    · exact Less.irrefl (h2 _ hm)
  unfold AddOutcome
  rw [if_neg hn]
  have := addRrAt_spec h hr h1 h2
  split at this
  · rename_i hroom
    rw [if_pos hroom]
    obtain ⟨rs', e, hh⟩ := this
    exact ⟨rs', pre, suf, rfl, e, hh⟩
  · rename_i hroom
    rw [if_neg hroom]; exact this

theorem addLoop_spec {rs} {rr : Bytes} (hr : rr.length ≤ 65535) (suf pre : List Bytes)
    (h : Holds rs (pre ++ suf)) (h1 : ∀ x ∈ pre, Less x rr) :
    AddOutcome rs (pre ++ suf) rr (addLoop rs rr suf.length (pack suf)) := by
  induction suf generalizing pre with
  | nil =>
    simp only [List.length_nil, addLoop]
    rw [if_pos]
    · exact addRrAt_outcome h hr h1 (by simp)
    · right; rw [h.2.2.2.2.2]; simp [pack]
  | cons d t ih =>
    simp only [List.length_cons, addLoop, pack_cons, rdataAt_init (h.2.1 d (by simp)), Res.bind_ok]
    cases hcmp : rdataCmp d rr
    · have := ih (pre ++ [d]) (by simpa using h) (by
        intro x hx
        rcases List.mem_append.mp hx with hx | hx
        · exact h1 x hx
        · simp at hx; subst hx; exact cmp_lt_iff.mp hcmp)
      simpa using this
    · have := cmp_eq_iff.mp hcmp
      subst this
      simp [AddOutcome]
    · have hlt := cmp_gt_iff.mp hcmp
      rw [← pack_cons]
      refine addRrAt_outcome h hr h1 ?_
      intro x hx
      rcases List.mem_cons.mp hx with rfl | hx
      · exact hlt
      · have hc := h.1
        simp only [Canon, List.pairwise_append, List.pairwise_cons] at hc
        exact hlt.trans (hc.2.1.1 x hx)

theorem add_spec {rs l} (h : Holds rs l) {rr : Bytes} (hr : rr.length ≤ 65535) :
    AddOutcome rs l rr (add rs rr) := by
  unfold add
  have hloop : AddOutcome rs l rr (addLoop rs rr rs.count rs.raw) := by
    rw [h.2.2.2.1, h.pack]
    exact addLoop_spec hr l [] h (by simp)
  split
  · rename_i hcnt
    have hne : l ≠ [] := by
      rintro rfl; rw [h.2.2.2.1] at hcnt; simp at hcnt
    obtain ⟨pre, d, rfl⟩ : ∃ pre d, l = pre ++ [d] :=
      ⟨l.dropLast, l.getLast hne, (List.dropLast_concat_getLast hne).symm⟩
    have e1 : rs.count - 1 = pre.length := by rw [h.2.2.2.1]; simp
    rw [e1, rrSeek_holds h (by simp)]
    simp only [List.drop_left, Res.bind_ok]
    rw [pack_cons, rdataAt_init (h.2.1 d (by simp))]
    simp only [Res.bind_ok]
    split
    · rename_i hlt
      have hlt := cmp_lt_iff.mp hlt
      have := addRrAt_outcome (suf := []) (pre := pre ++ [d]) (by simpa using h) hr (by
        intro x hx
        rcases List.mem_append.mp hx with hx | hx
        · have hc := h.1
          simp only [Canon, List.pairwise_append] at hc
          exact (hc.2.2 x hx d (by simp)).trans hlt
        · simp at hx; subst hx; exact hlt) (by simp)
      simpa using this
    · exact hloop
  · exact hloop

/-! ## removal -/

theorem pack_len_drop (l : List Bytes) (i j : Nat) (h : i ≤ j) :
    (pack (l.drop j)).length ≤ (pack (l.drop i)).length := by
  obtain ⟨k, rfl⟩ : ∃ k, j = i + k := ⟨j - i, by omega⟩
  rw [← List.drop_drop]
  conv => rhs; rw [← List.take_append_drop k (l.drop i), pack_append]
  simp

theorem removeRrAt_spec {rs pre suf} {d : Bytes} (h : Holds rs (pre ++ d :: suf)) :
    ∃ rs', removeRrAt rs pre.length = .ok rs' ∧ Holds rs' (pre ++ suf) := by
  obtain ⟨hc, hl, hlen, hcount, hraw, hsize⟩ := id h
  have hd := hl d (by simp)
  have hp : rs.raw = pack pre ++ (rdataInit d ++ pack suf) := by
    rw [hraw, ← pack_cons, ← pack_append]; rfl
  unfold removeRrAt
  rw [rrSeek_holds h (by simp)]
  simp only [Res.bind_ok]
  have e1 : rs.count - 1 = (pre ++ d :: suf).length - 1 := by rw [hcount]
  rw [e1, rrSeek_holds h (by simp)]
  simp only [Res.bind_ok]
  obtain ⟨ini, z, hz⟩ : ∃ ini z, pre ++ d :: suf = ini ++ [z] := by
    have hne : pre ++ d :: suf ≠ [] := by simp
    exact ⟨_, _, (List.dropLast_concat_getLast hne).symm⟩
  have elast : (pre ++ d :: suf).drop ((pre ++ d :: suf).length - 1) = [z] := by
    rw [hz]; simp
  rw [elast, List.drop_left, pack_cons, rdataAt_init hd]
  have hzl : z.length ≤ 65535 := hl z (by rw [hz]; simp)
  have : pack [z] = rdataInit z ++ [] := by simp [pack]
  rw [this, Res.bind_ok]
  simp only [rdataAt_init hzl, Res.bind_ok]
  simp only [List.length_nil, Nat.not_lt_zero, if_false, Nat.sub_zero, List.take_length]
  refine ⟨_, rfl, ?_, ?_, ?_, ?_, ?_, ?_⟩
  · simp only [Canon, List.pairwise_append, List.pairwise_cons] at hc ⊢
    exact ⟨hc.1, hc.2.1.2, fun a ha b hb => hc.2.2 a ha b (by simp [hb])⟩
  · intro x hx
    refine hl x ?_
    rcases List.mem_append.mp hx with hx | hx <;> simp [hx]
  · simp at hlen ⊢; omega
  · simp [hcount]
  · have hoff : rs.raw.length - (rdataInit d ++ pack suf).length = (pack pre).length := by
      rw [hp]; simp
    simp only [hoff]
    have ht : rs.raw.take (pack pre).length = pack pre := by rw [hp]; simp
    rw [ht, ← pack_append]
    have hsz : rs.size - rdataSize d.length = (pack (pre ++ suf)).length := by
      rw [hsize, hp, pack_append]; simp [length_rdataInit]; omega
    rw [hsz, List.take_length]
    split
    · rfl
    · rename_i hcnt
      have : pre ++ suf = [] := by
        apply List.eq_nil_of_length_eq_zero
        rw [hcount] at hcnt; simp only [List.length_append, List.length_cons] at hcnt ⊢; omega
      rw [this]; rfl
  · have hoff : rs.raw.length - (rdataInit d ++ pack suf).length = (pack pre).length := by
      rw [hp]; simp
    simp only [hoff]
    have ht : rs.raw.take (pack pre).length = pack pre := by rw [hp]; simp
    rw [ht, ← pack_append]
    have hsz : rs.size - rdataSize d.length = (pack (pre ++ suf)).length := by
      rw [hsize, hp, pack_append]; simp [length_rdataInit]; omega
    rw [hsz, List.take_length]
    split
    · rfl
    · rename_i hcnt
      have : pre ++ suf = [] := by
        apply List.eq_nil_of_length_eq_zero
        rw [hcount] at hcnt; simp only [List.length_append, List.length_cons] at hcnt ⊢; omega
      rw [this]; rfl

theorem findLoop_spec (rr : Bytes) (suf : List Bytes) (i : Nat) (hl : ∀ d ∈ suf, d.length ≤ 65535) :
    (rr ∉ suf ∧ findLoop rr suf.length i (pack suf) = .ok none) ∨
    ∃ a b, suf = a ++ rr :: b ∧ findLoop rr suf.length i (pack suf) = .ok (some (i + a.length)) := by
  induction suf generalizing i with
  | nil => left; simp [findLoop]
  | cons d t ih =>
    simp only [List.length_cons, findLoop, pack_cons, rdataAt_init (hl d (by simp)), Res.bind_ok]
    by_cases h : rdataCmp rr d = .eq
    · right
      have := cmp_eq_iff.mp h
      subst this
      exact ⟨[], t, rfl, by simp [h]⟩
    · simp only [h, if_false]
      have hne : rr ≠ d := fun e => h (cmp_eq_iff.mpr e)
      rcases ih (i + 1) (fun x hx => hl x (by simp [hx])) with ⟨h1, h2⟩ | ⟨a, b, h1, h2⟩
      · left; exact ⟨by simp [hne, h1], h2⟩
      · right; refine ⟨d :: a, b, by simp [h1], ?_⟩
        rw [h2]; simp; omega

theorem findRrPos_spec {rs l} (h : Holds rs l) (rr : Bytes) :
    (rr ∉ l ∧ findRrPos rs rr = .ok none) ∨
    ∃ a b, l = a ++ rr :: b ∧ findRrPos rs rr = .ok (some a.length) := by
  unfold findRrPos
  rw [h.2.2.2.1, h.pack]
  simpa using findLoop_spec rr l 0 h.2.1

theorem canon_filter_ne {a b : List Bytes} {d : Bytes} (h : Canon (a ++ d :: b)) (x : Bytes) :
    x ∈ a ++ b ↔ x ∈ a ++ d :: b ∧ x ≠ d := by
  simp only [Canon, List.pairwise_append, List.pairwise_cons] at h
  simp only [List.mem_append, List.mem_cons]
  constructor
  · rintro (hx | hx)
    · exact ⟨.inl hx, fun e => Less.irrefl (e ▸ h.2.2 x hx d (by simp))⟩
    · exact ⟨.inr (.inr hx), fun e => Less.irrefl (e ▸ h.2.1.1 x hx)⟩
  · rintro ⟨hx | hx | hx, hne⟩
    · exact .inl hx
    · exact absurd hx hne
    · exact .inr hx

theorem subtractLoop_spec (w : List Bytes) (hw : ∀ d ∈ w, d.length ≤ 65535) {rs l} (h : Holds rs l) :
    ∃ rs' l', subtractLoop rs w.length (pack w) = .ok rs' ∧ Holds rs' l' ∧
      ∀ x, x ∈ l' ↔ x ∈ l ∧ x ∉ w := by
  induction w generalizing rs l with
  | nil => exact ⟨rs, l, rfl, h, by simp⟩
  | cons d t ih =>
    have ht : ∀ d ∈ t, d.length ≤ 65535 := fun x hx => hw x (by simp [hx])
    simp only [List.length_cons, subtractLoop, pack_cons, rdataAt_init (hw d (by simp)), Res.bind_ok]
    rcases findRrPos_spec h d with ⟨h1, h2⟩ | ⟨a, b, rfl, h2⟩
    · simp only [h2, Res.bind_ok]
      obtain ⟨rs', l', e, hh, hm⟩ := ih ht h
      refine ⟨rs', l', e, hh, fun x => ?_⟩
      rw [hm x]
      constructor
      · rintro ⟨hx, hn⟩
        exact ⟨hx, by simp only [List.mem_cons, not_or]; exact ⟨fun e => h1 (e ▸ hx), hn⟩⟩
      · rintro ⟨hx, hn⟩
        exact ⟨hx, fun h => hn (by simp [h])⟩
    · obtain ⟨rs1, e1, h3⟩ := removeRrAt_spec h
      simp only [h2, Res.bind_ok, e1]
      obtain ⟨rs', l', e, hh, hm⟩ := ih ht h3
      refine ⟨rs', l', e, hh, fun x => ?_⟩
      rw [hm x, canon_filter_ne h.1]
      simp only [List.mem_cons, not_or]
      exact and_assoc

theorem intersect2Loop_spec {what w} (hw : Holds what w) (suf pre : List Bytes) {rs}
    (h : Holds rs (pre ++ suf)) (p : Bytes) (hp : suf ≠ [] → p = pack suf) :
    ∃ rs' l', intersect2Loop what suf.length rs pre.length p = .ok rs' ∧ Holds rs' l' ∧
      ∀ x, x ∈ l' ↔ x ∈ pre ∨ (x ∈ suf ∧ x ∈ w) := by
  induction suf generalizing pre rs p with
  | nil =>
    refine ⟨rs, pre, ?_, by simpa using h, by simp⟩
    have : rs.count = pre.length := by rw [h.2.2.2.1]; simp
    simp [intersect2Loop, this]
  | cons d t ih =>
    have hcnt : pre.length < rs.count := by rw [h.2.2.2.1]; simp
    rw [hp (by simp)]
    simp only [List.length_cons, intersect2Loop, if_pos hcnt, pack_cons,
      rdataAt_init (h.2.1 d (by simp)), Res.bind_ok, member_spec hw]
    by_cases hm : d ∈ w
    · simp only [hm, decide_true, not_true, if_false]
      obtain ⟨rs', l', e, hh, hmm⟩ := ih (pre ++ [d]) (by simpa using h) (pack t) (fun _ => rfl)
      refine ⟨rs', l', by simpa using e, hh, fun x => ?_⟩
      rw [hmm x]
      simp only [List.mem_append, List.mem_cons, List.not_mem_nil, or_false]
      constructor
      · rintro ((h | rfl) | h)
        · exact .inl h
        · exact .inr ⟨.inl rfl, hm⟩
        · exact .inr ⟨.inr h.1, h.2⟩
      · rintro (h | ⟨rfl | h, h'⟩)
        · exact .inl (.inl h)
        · exact .inl (.inr rfl)
        · exact .inr ⟨h, h'⟩
    · obtain ⟨rs1, e1, h3⟩ := removeRrAt_spec h
      simp only [hm, decide_false, e1, Res.bind_ok]
      simp only [Bool.false_eq_true, not_false_iff, if_true]
      have fin : ∀ x, (x ∈ pre ∨ (x ∈ t ∧ x ∈ w)) ↔ x ∈ pre ∨ (x ∈ d :: t ∧ x ∈ w) := by
        intro x
        simp only [List.mem_cons]
        constructor
        · rintro (h | h)
          · exact .inl h
          · exact .inr ⟨.inr h.1, h.2⟩
        · rintro (h | ⟨rfl | h, h'⟩)
          · exact .inl h
          · exact absurd h' hm
          · exact .inr ⟨h, h'⟩
      split
      · rename_i hi
        have ht : pre.length < (pre ++ t).length := by rw [← h3.2.2.2.1]; exact hi
        rw [rrSeek_holds h3 ht]
        simp only [List.drop_left, Res.bind_ok]
        obtain ⟨rs', l', e, hh, hmm⟩ := ih pre h3 (pack t) (fun _ => rfl)
        exact ⟨rs', l', e, hh, fun x => (hmm x).trans (fin x)⟩
      · rename_i hi
        have ht : t = [] := by
          apply List.eq_nil_of_length_eq_zero
          rw [h3.2.2.2.1] at hi; simp only [List.length_append] at hi; omega
        subst ht
        obtain ⟨rs', l', e, hh, hmm⟩ := ih pre h3 _ (fun h => absurd rfl h)
        exact ⟨rs', l', e, hh, fun x => (hmm x).trans (fin x)⟩

end Knot.Rdataset
