import Verif.Edns.Model
import Verif.WireCtx.Props
import Verif.Sockaddr.Props
/-!
# C25: EDNS options
-/
namespace Knot
open Edns WireCtx

namespace Edns

/-! ## Specification -/

/-- An option: code and data. -/
abbrev Opt := Nat × Bytes

/-- Fits the 16-bit fields. -/
def OptOk (o : Opt) : Prop := o.1 < 65536 ∧ o.2.length < 65536

/-- Wire form of an option, RFC 6891, 6.1.2. -/
def enc (o : Opt) : Bytes := beBytes 2 o.1 ++ beBytes 2 o.2.length ++ o.2

/-- Wire form of a list of options. -/
def encs (os : List Opt) : Bytes := os.flatMap enc

/-! ## Lemmas -/

theorem length_enc (o : Opt) : (enc o).length = 4 + o.2.length := by
  simp [enc, length_beBytes]; omega

theorem be2_lt (b : Bytes) (h : b.length = 2) : beVal b < 65536 := by
  match b, h with
  | [x, y], _ =>
    have := x.toNat_lt
    have := y.toNat_lt
    simp [beVal]; omega

theorem be2_val (v : Nat) (h : v < 65536) : beVal (beBytes 2 v) = v := by
  rw [beVal_beBytes]; omega

theorem be2_bytes (b : Bytes) (h : b.length = 2) : beBytes 2 (beVal b) = b := by
  match b, h with
  | [x, y], _ =>
    have hx := x.toNat_lt
    have hy := y.toNat_lt
    simp only [beVal, beBytes, List.length_cons, List.length_nil]
    congr 1
    · apply UInt8.toNat_inj.mp; rw [UInt8.toNat_ofNat']; simp; omega
    · congr 1
      apply UInt8.toNat_inj.mp; rw [UInt8.toNat_ofNat']; simp

theorem readU_ok (c : Ctx) (n : Nat) (he : c.error = none) (h : c.pos + n ≤ c.size) (hs : c.size ≤ c.mem.length) :
    readU c n = .ok (beVal ((c.mem.drop c.pos).take n), { c with pos := c.pos + n }) := by
  unfold readU WireCtx.read
  have : canRead c n = none := by unfold canRead; rw [he]; simp only; rw [if_neg]; unfold available; omega
  rw [if_neg (by simp [he]), this]
  simp only
  rw [load_ok _ _ _ (by omega)]
  rfl

theorem readU_short (c : Ctx) (n : Nat) (he : c.error = none) (h : ¬ c.pos + n ≤ c.size) (hp : c.pos ≤ c.size) :
    readU c n = .ok (beVal (List.replicate n 0), { c with error := some .efewdata }) := by
  unfold readU WireCtx.read
  have : canRead c n = some .efewdata := by unfold canRead; rw [he]; simp only; rw [if_pos]; unfold available; omega
  rw [if_neg (by simp [he]), this]
  rfl

theorem readU_err (c : Ctx) (n : Nat) (he : c.error ≠ none) :
    readU c n = .ok (beVal (List.replicate n 0), c) := by
  unfold readU WireCtx.read
  rw [if_pos he]; rfl

theorem skip_err (c : Ctx) (n : Int) (he : c.error ≠ none) : skip c n = c := by
  unfold skip; rw [if_pos he]

theorem skip_over (c : Ctx) (n : Nat) (he : c.error = none) (h : n > c.size - c.pos) :
    (skip c n).error = some .erange := by
  unfold skip
  rw [if_neg (by simp [he]), if_pos (by omega), Int.toNat_natCast, if_pos h]

theorem skip_ok (c : Ctx) (n : Nat) (he : c.error = none) (h : n ≤ c.size - c.pos) :
    skip c n = { c with pos := c.pos + n } := by
  unfold skip
  rw [if_neg (by simp [he]), if_pos (by omega), Int.toNat_natCast, if_neg (by unfold available; omega)]

theorem write_ok (c : Ctx) (d : Bytes) (he : c.error = none) (hr : c.readonly = false) (h : c.pos + d.length ≤ c.size)
    (hs : c.size ≤ c.mem.length) :
    write c d = .ok { c with mem := c.mem.take c.pos ++ d ++ c.mem.drop (c.pos + d.length), pos := c.pos + d.length } := by
  unfold write
  rw [if_neg (by simp [he])]
  by_cases hd : d.length = 0
  · rw [if_pos hd]
    have : d = [] := List.length_eq_zero_iff.mp hd
    subst this
    simp
  · rw [if_neg hd]
    have : canWrite c d.length = none := by
      unfold canWrite; rw [he]; simp only [hr]; rw [if_neg (by simp), if_neg (by unfold available; omega)]
    rw [this]
    simp only
    rw [store_ok _ _ _ (by omega)]
    rfl

theorem write_short (c : Ctx) (d : Bytes) (he : c.error = none) (hr : c.readonly = false) (h : ¬ c.pos + d.length ≤ c.size)
    (hp : c.pos ≤ c.size) : write c d = .ok { c with error := some .espace } := by
  unfold write
  rw [if_neg (by simp [he]), if_neg (by omega)]
  have : canWrite c d.length = some .espace := by
    unfold canWrite; rw [he]; simp only [hr]; rw [if_neg (by simp), if_pos (by unfold available; omega)]
  rw [this]

theorem write_err (c : Ctx) (d : Bytes) (he : c.error ≠ none) : write c d = .ok c := by
  unfold write; rw [if_pos he]

theorem clear_eq (c : Ctx) (n : Nat) : clear c n = write c (List.replicate n 0) := by
  unfold clear write
  simp only [List.length_replicate]

/-- A writing context with `done` written and `rest` still free. -/
def wctx (done rest : Bytes) : Ctx := ⟨done ++ rest, done.length + rest.length, done.length, none, false⟩

theorem init_wctx (m : Bytes) (n : Nat) (h : n = m.length) : init m n = wctx [] m := by
  subst h; simp [init, wctx]

theorem write_wctx (done rest d : Bytes) (h : d.length ≤ rest.length) :
    write (wctx done rest) d = .ok (wctx (done ++ d) (rest.drop d.length)) := by
  rw [write_ok _ _ rfl rfl (by simp [wctx]; omega) (by simp [wctx])]
  simp only [wctx, List.take_left, List.drop_append, List.length_append, List.length_drop]
  simp only [Res.ok.injEq, Ctx.mk.injEq, and_true, true_and]
  refine ⟨?_, by omega⟩
  rw [List.drop_eq_nil_of_le (by omega), List.nil_append]
  congr 2
  omega

theorem write_wctx_short (done rest d : Bytes) (h : ¬ d.length ≤ rest.length) :
    write (wctx done rest) d = .ok { wctx done rest with error := some .espace } := by
  rw [write_short _ _ rfl rfl (by simp [wctx]; omega) (by simp [wctx])]

/-- The reading context at a position. -/
def at_ (b : Bytes) (p : Nat) : Ctx := { initConst b b.length with pos := p }

/-- First option of a byte string, if it starts with a complete one. -/
def split (b : Bytes) : Option (Opt × Bytes) :=
  if 4 ≤ b.length ∧ 4 + beVal ((b.drop 2).take 2) ≤ b.length then
    some ((beVal (b.take 2), (b.drop 4).take (beVal ((b.drop 2).take 2))), b.drop (4 + beVal ((b.drop 2).take 2)))
  else none

theorem split_enc (o : Opt) (rest : Bytes) (h : OptOk o) : split (enc o ++ rest) = some (o, rest) := by
  obtain ⟨c, d⟩ := o
  obtain ⟨h1, h2⟩ := h
  have l1 : (beBytes 2 c).length = 2 := length_beBytes 2 c
  have l2 : (beBytes 2 d.length).length = 2 := length_beBytes 2 _
  have e : enc (c, d) ++ rest = beBytes 2 c ++ (beBytes 2 d.length ++ (d ++ rest)) := by simp [enc]
  have t1 : (enc (c, d) ++ rest).take 2 = beBytes 2 c := by rw [e, List.take_left' l1]
  have d1 : (enc (c, d) ++ rest).drop 2 = beBytes 2 d.length ++ (d ++ rest) := by rw [e, List.drop_left' l1]
  have t2 : ((enc (c, d) ++ rest).drop 2).take 2 = beBytes 2 d.length := by rw [d1, List.take_left' l2]
  have d2 : (enc (c, d) ++ rest).drop 4 = d ++ rest := by
    rw [show 4 = 2 + 2 by rfl, ← List.drop_drop, d1, List.drop_left' l2]
  have hl : (enc (c, d) ++ rest).length = 4 + d.length + rest.length := by
    rw [List.length_append, length_enc]
  simp only at h1 h2
  unfold split
  rw [t1, t2, be2_val _ h1, be2_val _ h2, hl, if_pos (by omega), d2]
  rw [← List.drop_drop, d2]
  simp

theorem split_some (b : Bytes) (o : Opt) (rest : Bytes) (h : split b = some (o, rest)) : OptOk o ∧ b = enc o ++ rest := by
  unfold split at h
  split at h
  · rename_i hc
    injection h with h
    injection h with h1 h2
    subst h1 h2
    have hb2 : (b.take 2).length = 2 := by simp; omega
    have hb3 : ((b.drop 2).take 2).length = 2 := by simp; omega
    have hlt := be2_lt _ hb2
    have hlt2 := be2_lt _ hb3
    have hlen : ((b.drop 4).take (beVal ((b.drop 2).take 2))).length = beVal ((b.drop 2).take 2) := by simp; omega
    refine ⟨⟨hlt, by rw [hlen]; exact hlt2⟩, ?_⟩
    unfold enc
    simp only
    rw [hlen, be2_bytes _ hb2, be2_bytes _ hb3]
    have := List.take_append_drop 2 b
    have h2 := List.take_append_drop 2 (b.drop 2)
    have h3 := List.take_append_drop (beVal ((b.drop 2).take 2)) (b.drop 4)
    rw [List.drop_drop] at h2 h3
    simp only [List.append_assoc]
    rw [h3, show (4 : Nat) = 2 + 2 by rfl, h2, this]
  · cases h

theorem split_lt (b : Bytes) (o : Opt) (rest : Bytes) (h : split b = some (o, rest)) : rest.length + 4 ≤ b.length := by
  have := (split_some b o rest h).2
  rw [this, List.length_append, length_enc]; omega

theorem optStep_ok (b : Bytes) (p : Nat) (hp : p ≤ b.length) (o : Opt) (rest : Bytes) (h : split (b.drop p) = some (o, rest)) :
    optStep (at_ b p) = .ok (o.1, at_ b (b.length - rest.length)) ∧ rest = b.drop (b.length - rest.length) ∧
      b.length - rest.length = p + (enc o).length := by
  obtain ⟨hok, heq⟩ := split_some _ _ _ h
  have hlen : b.length - p = (enc o).length + rest.length := by
    have := congrArg List.length heq
    simpa using this
  have hlen2 := length_enc o
  unfold split at h
  split at h
  · rename_i hc
    injection h with h
    injection h with h1 h2
    simp only [List.length_drop] at hc
    unfold optStep
    rw [readU_ok (at_ b p) 2 rfl (by simp [at_, initConst, init]; omega) (by simp [at_, initConst, init])]
    simp only [Res.bind_ok]
    rw [readU_ok _ 2 rfl (by simp [at_, initConst, init]; omega) (by simp [at_, initConst, init])]
    simp only [Res.bind_ok]
    have hL : beVal (List.take 2 (List.drop 2 (List.drop p b))) = o.2.length := by
      rw [← h1]; simp only; rw [List.length_take]; simp only [List.length_drop] at *; omega
    have hpos : b.length - rest.length = p + (enc o).length := by omega
    refine ⟨?_, ?_, hpos⟩
    · simp only [at_, initConst, init, List.drop_drop] at hL ⊢
      rw [hL]
      unfold skip
      simp only [ne_eq, not_true_eq_false, if_false, Int.natCast_nonneg, ge_iff_le, if_true, Int.toNat_natCast]
      rw [if_neg (by unfold available; simp only; omega)]
      rw [hpos, length_enc, ← h1]
      simp only [Res.ok.injEq, Prod.mk.injEq, true_and]
      rw [← h1] at hL
      simp only at hL
      congr 1
      omega
    · rw [hpos]
      have : (b.drop p).drop (enc o).length = rest := by rw [heq]; simp
      rw [List.drop_drop] at this
      exact this.symm
  · cases h

theorem optStep_bad (b : Bytes) (p : Nat) (hp : p ≤ b.length) (h : split (b.drop p) = none) :
    ∃ c w, optStep (at_ b p) = .ok (c, w) ∧ (∃ e, w.error = some e) := by
  unfold optStep
  unfold split at h
  split at h
  · cases h
  · rename_i hc
    simp only [List.length_drop] at hc
    by_cases h2 : p + 2 ≤ b.length
    · rw [readU_ok (at_ b p) 2 rfl h2 (by simp [at_, initConst, init])]
      simp only [Res.bind_ok]
      by_cases h4 : p + 4 ≤ b.length
      · rw [readU_ok _ 2 rfl (by simp [at_, initConst, init]; omega) (by simp [at_, initConst, init])]
        simp only [Res.bind_ok]
        refine ⟨_, _, rfl, .erange, ?_⟩
        apply skip_over
        · rfl
        · simp only [at_, initConst, init, List.drop_drop] at hc ⊢
          omega
      · rw [readU_short _ 2 rfl (by simp [at_, initConst, init]; omega) (by simp [at_, initConst, init]; omega)]
        simp only [Res.bind_ok]
        exact ⟨_, _, rfl, .efewdata, by rw [skip_err _ _ (by simp)]⟩
    · rw [readU_short (at_ b p) 2 rfl h2 hp]
      simp only [Res.bind_ok]
      rw [readU_err _ 2 (by simp)]
      simp only [Res.bind_ok]
      exact ⟨_, _, rfl, .efewdata, by rw [skip_err _ _ (by simp)]⟩

/-- First position of a code in the complete options at the start of a byte string. -/
def findPos (code : Nat) (b : Bytes) : Option Nat :=
  match h : split b with
  | none => none
  | some (o, rest) => if o.1 = code then some 0 else (findPos code rest).map (· + (enc o).length)
termination_by b.length
decreasing_by have := split_lt b o rest h; omega

theorem findPos_none (code : Nat) (b : Bytes) (h : split b = none) : findPos code b = none := by
  rw [findPos]
  split
  · rfl
  · rename_i h'; rw [h] at h'; cases h'

theorem findPos_some (code : Nat) (b : Bytes) (o : Opt) (rest : Bytes) (h : split b = some (o, rest)) :
    findPos code b = if o.1 = code then some 0 else (findPos code rest).map (· + (enc o).length) := by
  rw [findPos]
  split
  · rename_i h'; rw [h] at h'; cases h'
  · rename_i h'
    rw [h] at h'
    injection h' with h'
    injection h' with h1 h2
    rw [h1, h2]

theorem getLoop_eq (code : Nat) (b : Bytes) : ∀ (fuel p : Nat), p ≤ b.length → b.length - p < fuel →
    getLoop code fuel (at_ b p) = .ok ((findPos code (b.drop p)).map (· + p)) := by
  intro fuel
  induction fuel with
  | zero => intro p _ h; omega
  | succ fuel ih =>
    intro p hp hf
    unfold getLoop
    by_cases hz : p < b.length
    · rw [if_pos ⟨by simp [available, at_, initConst, init]; omega, rfl⟩]
      cases hs : split (b.drop p) with
      | none =>
        obtain ⟨c, w, e1, er, e2⟩ := optStep_bad b p hp hs
        rw [e1]
        simp only [Res.bind_ok]
        rw [if_neg (by simp [e2])]
        rw [findPos_none code _ hs]
        cases fuel with
        | zero => omega
        | succ fuel => unfold getLoop; rw [if_neg (by simp [e2])]; rfl
      | some x =>
        obtain ⟨o, rest⟩ := x
        obtain ⟨e1, e2, e3⟩ := optStep_ok b p hp o rest hs
        have hlt := split_lt _ _ _ hs
        simp only [List.length_drop] at hlt
        rw [e1]
        simp only [Res.bind_ok]
        rw [findPos_some code _ o rest hs]
        by_cases hcode : o.1 = code
        · rw [if_pos ⟨rfl, hcode⟩, if_pos hcode]
          simp [at_, initConst, init]
        · rw [if_neg (by simp [hcode]), if_neg hcode, ih _ (by omega) (by omega), ← e2, e3]
          simp only [Option.map_map]
          congr 2
          funext x
          simp only [Function.comp]
          omega
    · rw [if_neg (by simp [available, at_, initConst, init]; omega)]
      have : b.drop p = [] := List.drop_eq_nil_of_le (by omega)
      rw [this]
      rw [findPos_none code [] (by simp [split])]; rfl

theorem findPos_iff (code : Nat) (b : Bytes) (pos : Nat) :
    findPos code b = some pos ↔ ∃ pre o rest, b = encs pre ++ enc o ++ rest ∧ (∀ x ∈ pre, OptOk x ∧ x.1 ≠ code) ∧
      OptOk o ∧ o.1 = code ∧ pos = (encs pre).length := by
  fun_induction findPos code b generalizing pos with
  | case1 b hs =>
    simp only [reduceCtorEq, false_iff]
    rintro ⟨pre, o, rest, e, h1, h2, _⟩
    cases pre with
    | nil =>
      simp only [encs, List.flatMap_nil, List.nil_append] at e
      rw [e, split_enc o rest h2] at hs
      cases hs
    | cons x xs =>
      simp only [encs, List.flatMap_cons, List.append_assoc] at e
      rw [e, split_enc x _ (h1 x List.mem_cons_self).1] at hs
      cases hs
  | case2 b o rest hs hc =>
    obtain ⟨g1, g2⟩ := split_some _ _ _ hs
    simp only [Option.some.injEq]
    constructor
    · rintro rfl
      exact ⟨[], o, rest, by simpa [encs] using g2, by simp, g1, hc, by simp [encs]⟩
    · rintro ⟨pre, o', rest', e, h1, h2, h3, h4⟩
      cases pre with
      | nil => simpa [encs] using h4.symm
      | cons x xs =>
        simp only [encs, List.flatMap_cons, List.append_assoc] at e
        have := split_enc x (List.flatMap enc xs ++ (enc o' ++ rest')) (h1 x List.mem_cons_self).1
        rw [← e, hs] at this
        injection this with this
        injection this with this
        rw [← this] at h1
        exact absurd hc (h1 o List.mem_cons_self).2
  | case3 b o rest hs hc ih =>
    obtain ⟨g1, g2⟩ := split_some _ _ _ hs
    rw [Option.map_eq_some_iff]
    constructor
    · rintro ⟨p, hp, rfl⟩
      obtain ⟨pre, o', rest', e, h1, h2, h3, h4⟩ := (ih p).mp hp
      refine ⟨o :: pre, o', rest', ?_, ?_, h2, h3, ?_⟩
      · rw [g2, e]; simp [encs]
      · intro x hx
        rcases List.mem_cons.mp hx with rfl | hx
        · exact ⟨g1, hc⟩
        · exact h1 x hx
      · simp only [encs, List.flatMap_cons, List.length_append] at h4 ⊢; omega
    · rintro ⟨pre, o', rest', e, h1, h2, h3, h4⟩
      cases pre with
      | nil =>
        simp only [encs, List.flatMap_nil, List.nil_append] at e
        have := split_enc o' rest' h2
        rw [← e, hs] at this
        injection this with this
        injection this with this
        rw [this] at hc
        exact absurd h3 hc
      | cons x xs =>
        simp only [encs, List.flatMap_cons, List.append_assoc] at e h4
        have := split_enc x (List.flatMap enc xs ++ (enc o' ++ rest')) (h1 x List.mem_cons_self).1
        rw [← e, hs] at this
        injection this with this
        injection this with t1 t2
        refine ⟨(encs xs).length, (ih _).mpr ⟨xs, o', rest', by rw [t2]; simp [encs], ?_, h2, h3, rfl⟩, ?_⟩
        · intro y hy; exact h1 y (List.mem_cons_of_mem _ hy)
        · rw [h4, t1]; simp only [encs, List.length_append]; omega

/-- Positions of the last option of each code `≤ 17`, starting from a table. -/
def lastPos : List Opt → Nat → (Nat → Option Nat) → Nat → Option Nat
  | [], _, ptr => ptr
  | o :: os, p, ptr => lastPos os (p + (enc o).length)
      (if o.1 ≤ 17 then (fun c => if c = o.1 then some p else ptr c) else ptr)

theorem getsLoop_ok (b : Bytes) (os : List Opt) : ∀ (fuel p : Nat) (ptr : Nat → Option Nat), p ≤ b.length → b.length - p < fuel →
    (∀ o ∈ os, OptOk o) → b.drop p = encs os → ∃ w, getsLoop fuel (at_ b p) ptr = .ok (w, lastPos os p ptr) ∧ w.error = none := by
  induction os with
  | nil =>
    intro fuel p ptr hp hf _ he
    have : b.length ≤ p := by
      have := congrArg List.length he
      simp [encs] at this; omega
    cases fuel with
    | zero => omega
    | succ fuel =>
      refine ⟨at_ b p, ?_, rfl⟩
      unfold getsLoop
      rw [if_neg (by simp [available, at_, initConst, init]; omega)]
      rfl
  | cons o os ih =>
    intro fuel p ptr hp hf hok he
    cases fuel with
    | zero => omega
    | succ fuel =>
      have hs : split (b.drop p) = some (o, encs os) := by
        rw [he]; simp only [encs, List.flatMap_cons]; exact split_enc o _ (hok o List.mem_cons_self)
      obtain ⟨e1, e2, e3⟩ := optStep_ok b p hp o _ hs
      have hlen : b.length - p = (enc o).length + (encs os).length := by
        have := congrArg List.length he
        simpa [encs] using this
      have hlo := length_enc o
      unfold getsLoop
      rw [if_pos ⟨by simp [available, at_, initConst, init]; omega, rfl⟩, e1]
      simp only [Res.bind_ok]
      obtain ⟨w, g1, g2⟩ := ih fuel (b.length - (encs os).length)
        (if o.1 ≤ 17 then (fun c => if c = o.1 then some p else ptr c) else ptr) (by omega) (by omega)
        (fun x hx => hok x (List.mem_cons_of_mem _ hx)) e2.symm
      refine ⟨w, ?_, g2⟩
      rw [e3] at g1 ⊢
      simp only [lastPos]
      rw [← g1]
      congr 1
      simp [at_, initConst, init]

theorem getsLoop_bad (b : Bytes) : ∀ (fuel p : Nat) (ptr : Nat → Option Nat), p ≤ b.length → b.length - p < fuel →
    (¬ ∃ os, (∀ o ∈ os, OptOk o) ∧ b.drop p = encs os) →
    ∃ w ptr', getsLoop fuel (at_ b p) ptr = .ok (w, ptr') ∧ ∃ e, w.error = some e := by
  intro fuel
  induction fuel with
  | zero => intro p _ _ h; omega
  | succ fuel ih =>
    intro p ptr hp hf hbad
    have hz : p < b.length := by
      apply Nat.lt_of_not_le
      intro h
      exact hbad ⟨[], by simp, by simp [encs]; omega⟩
    unfold getsLoop
    rw [if_pos ⟨by simp [available, at_, initConst, init]; omega, rfl⟩]
    cases hs : split (b.drop p) with
    | none =>
      obtain ⟨c, w, e1, er, e2⟩ := optStep_bad b p hp hs
      rw [e1]
      simp only [Res.bind_ok]
      cases fuel with
      | zero => omega
      | succ fuel =>
        unfold getsLoop
        rw [if_neg (by simp [e2])]
        exact ⟨_, _, rfl, er, e2⟩
    | some x =>
      obtain ⟨o, rest⟩ := x
      obtain ⟨e1, e2, e3⟩ := optStep_ok b p hp o rest hs
      obtain ⟨g1, g2⟩ := split_some _ _ _ hs
      have hlt := split_lt _ _ _ hs
      simp only [List.length_drop] at hlt
      rw [e1]
      simp only [Res.bind_ok]
      apply ih _ _ (by omega) (by omega)
      rintro ⟨os, h1, h2⟩
      apply hbad
      refine ⟨o :: os, ?_, ?_⟩
      · intro x hx
        rcases List.mem_cons.mp hx with rfl | hx
        · exact g1
        · exact h1 x hx
      · rw [g2, e2, h2]; simp [encs]

theorem lastPos_spec (os : List Opt) : ∀ (p : Nat) (ptr : Nat → Option Nat) (c q : Nat), c ≤ 17 →
    (lastPos os p ptr c = some q ↔
      (∃ pre o post, os = pre ++ o :: post ∧ o.1 = c ∧ (∀ x ∈ post, x.1 ≠ c) ∧ q = p + (encs pre).length) ∨
      ((∀ x ∈ os, x.1 ≠ c) ∧ ptr c = some q)) := by
  induction os with
  | nil => intro p ptr c q hc; simp [lastPos]
  | cons o os ih =>
    intro p ptr c q hc
    rw [lastPos, ih _ _ c q hc]
    constructor
    · rintro (⟨pre, o', post, h1, h2, h3, h4⟩ | ⟨h1, h2⟩)
      · left
        refine ⟨o :: pre, o', post, by rw [h1]; rfl, h2, h3, ?_⟩
        simp only [encs, List.flatMap_cons, List.length_append] at h4 ⊢; omega
      · by_cases ho : o.1 = c
        · left
          rw [if_pos (by omega), if_pos ho.symm] at h2
          injection h2 with h2
          exact ⟨[], o, os, rfl, ho, h1, by simp [encs, h2]⟩
        · right
          refine ⟨?_, ?_⟩
          · intro x hx
            rcases List.mem_cons.mp hx with rfl | hx
            · exact ho
            · exact h1 x hx
          · split at h2
            · have h2' : (if c = o.1 then some p else ptr c) = some q := h2
              rwa [if_neg (by omega)] at h2'
            · exact h2
    · rintro (⟨pre, o', post, h1, h2, h3, h4⟩ | ⟨h1, h2⟩)
      · cases pre with
        | nil =>
          right
          simp only [List.nil_append, List.cons.injEq] at h1
          obtain ⟨rfl, rfl⟩ := h1
          refine ⟨h3, ?_⟩
          rw [if_pos (by omega), if_pos h2.symm]
          simp [encs] at h4; rw [h4]
        | cons y ys =>
          left
          simp only [List.cons_append, List.cons.injEq] at h1
          obtain ⟨rfl, rfl⟩ := h1
          refine ⟨ys, o', post, rfl, h2, h3, ?_⟩
          simp only [encs, List.flatMap_cons, List.length_append] at h4 ⊢; omega
      · right
        refine ⟨fun x hx => h1 x (List.mem_cons_of_mem _ hx), ?_⟩
        have := h1 o List.mem_cons_self
        split
        · show (if c = o.1 then some p else ptr c) = some q
          rw [if_neg (by omega)]; exact h2
        · exact h2

end Edns

/-- C25. Adding an option appends its wire form to the rdata; exactly when the result would exceed
65535 bytes the code runs into undefined behaviour (a 16-bit length overflow and failed assertion)
instead of returning an error. -/
theorem C25_add (rdata : WireCtx.Bytes) (code : Nat) (data : WireCtx.Bytes) (hc : code < 65536) (hr : rdata.length < 65536)
    (hd : data.length < 65536) :
    addOption rdata code data =
      if rdata.length + 4 + data.length < 65536 then .ok (rdata ++ enc (code, data)) else .ub := by
  have l1 : (beBytes 2 code).length = 2 := length_beBytes 2 _
  have l2 : (beBytes 2 data.length).length = 2 := length_beBytes 2 _
  unfold addOption ednsAdd writeU
  simp only [clear_eq]
  rw [init_wctx _ _ (by simp)]
  split
  · rename_i hfit
    have hm : (rdata.length + 4 + data.length) % 65536 = rdata.length + 4 + data.length := Nat.mod_eq_of_lt hfit
    rw [hm, write_wctx _ _ _ (by simp; omega)]
    simp only [Res.bind_ok]
    rw [write_wctx _ _ _ (by simp [l1]; omega)]
    simp only [Res.bind_ok]
    rw [write_wctx _ _ _ (by simp [l1, l2]; omega)]
    simp only [Res.bind_ok]
    rw [write_wctx _ _ _ (by simp [l1, l2]; omega)]
    simp only [Res.bind_ok]
    rw [if_neg (by simp [available, wctx, l1, l2]; omega), if_neg (by simp [wctx])]
    simp only [Res.bind_ok]
    rw [store_ok _ _ _ (by simp [wctx, l1, l2]; omega)]
    have hz : (List.drop (List.replicate data.length (0 : UInt8)).length (List.drop (beBytes 2 data.length).length
        (List.drop (beBytes 2 code).length (List.drop rdata.length (List.replicate (rdata.length + 4 + data.length) (0 : UInt8)))))) = [] := by
      simp [l1, l2]; omega
    simp only [wctx, hz, List.append_nil, List.nil_append]
    rw [List.take_left, List.drop_eq_nil_of_le (by simp; omega)]
    simp [enc]
  · rename_i hfit
    obtain ⟨N, hN⟩ : ∃ N, (rdata.length + 4 + data.length) % 65536 = N := ⟨_, rfl⟩
    rw [hN]
    have hN2 : N < rdata.length + 4 + data.length := by omega
    by_cases h1 : rdata.length ≤ N
    · rw [write_wctx _ _ _ (by simpa using h1)]
      simp only [Res.bind_ok]
      by_cases h2 : rdata.length + 2 ≤ N
      · rw [write_wctx _ _ _ (by simp [l1]; omega)]
        simp only [Res.bind_ok]
        by_cases h3 : rdata.length + 4 ≤ N
        · rw [write_wctx _ _ _ (by simp [l1, l2]; omega)]
          simp only [Res.bind_ok]
          rw [write_wctx_short _ _ _ (by simp [l1, l2]; omega)]
          simp only [Res.bind_ok]
          split
          · rfl
          · simp
        · rw [write_wctx_short _ _ _ (by simp [l1, l2]; omega)]
          simp only [Res.bind_ok]
          rw [write_err _ _ (by simp)]
          simp only [Res.bind_ok]
          split
          · rfl
          · simp
      · rw [write_wctx_short _ _ _ (by simp [l1]; omega)]
        simp only [Res.bind_ok]
        rw [write_err _ _ (by simp)]
        simp only [Res.bind_ok]
        rw [write_err _ _ (by simp)]
        simp only [Res.bind_ok]
        split
        · rfl
        · simp
    · rw [write_wctx_short _ _ _ (by simpa using h1)]
      simp only [Res.bind_ok]
      rw [write_err _ _ (by simp)]
      simp only [Res.bind_ok]
      rw [write_err _ _ (by simp)]
      simp only [Res.bind_ok]
      rw [write_err _ _ (by simp)]
      simp only [Res.bind_ok]
      split
      · rfl
      · simp

/-- C25. Lookup of the first option with a code in arbitrary rdata: the result is the offset of the
first complete option with this code that is preceded by complete options only; there is no access
outside the rdata. -/
theorem C25_get_first (rdata : WireCtx.Bytes) (code : Nat) :
    ∃ r, getOption rdata code none = .ok r ∧ ∀ pos, (r = some pos ↔
      ∃ pre o rest, rdata = encs pre ++ enc o ++ rest ∧ (∀ x ∈ pre, OptOk x ∧ x.1 ≠ code) ∧
        OptOk o ∧ o.1 = code ∧ pos = (encs pre).length) := by
  unfold getOption
  by_cases h0 : rdata.length = 0
  · rw [if_pos h0]
    refine ⟨none, rfl, ?_⟩
    intro pos
    have : rdata = [] := List.length_eq_zero_iff.mp h0
    rw [this, ← findPos_iff]
    rw [findPos_none code [] (by simp [split])]
  · rw [if_neg h0]
    have := getLoop_eq code rdata (rdata.length + 1) 0 (by omega) (by omega)
    simp only [getStart, Res.bind_ok]
    have e : at_ rdata 0 = initConst rdata rdata.length := rfl
    rw [e] at this
    rw [this]
    refine ⟨_, rfl, ?_⟩
    intro pos
    simp only [List.drop_zero, Nat.add_zero, Option.map_id_fun', id]
    exact findPos_iff code rdata pos

/-- C25. Lookup after a previous option: the search continues right behind it. -/
theorem C25_get_next (rdata : WireCtx.Bytes) (code : Nat) (pre rest : WireCtx.Bytes) (o : Opt) (ho : OptOk o)
    (he : rdata = pre ++ enc o ++ rest) :
    ∃ r, getOption rest code none = .ok r ∧
      getOption rdata code (some pre.length) = .ok (r.map (· + (pre.length + (enc o).length))) := by
  have hlen : rdata.length = pre.length + (4 + o.2.length) + rest.length := by
    rw [he, List.length_append, List.length_append, length_enc]
  have h1 : getOption rest code none = .ok (findPos code rest) := by
    unfold getOption
    by_cases h0 : rest.length = 0
    · rw [if_pos h0, List.length_eq_zero_iff.mp h0, findPos_none code [] (by simp [split])]
    · rw [if_neg h0]
      have := getLoop_eq code rest (rest.length + 1) 0 (by omega) (by omega)
      simp only [getStart, Res.bind_ok]
      have e : at_ rest 0 = initConst rest rest.length := rfl
      rw [e] at this
      rw [this]
      simp
  refine ⟨_, h1, ?_⟩
  unfold getOption getStart
  rw [if_neg (by omega)]
  have hset : setOffset (initConst rdata rdata.length) (pre.length + 2) = at_ rdata (pre.length + 2) := by
    unfold setOffset
    rw [if_neg (by simp [initConst, init]), if_neg (by simp [initConst, init]; omega)]
    rfl
  simp only [hset]
  rw [readU_ok _ 2 rfl (by simp [at_, initConst, init]; omega) (by simp [at_, initConst, init])]
  simp only [Res.bind_ok]
  have hL : beVal (List.take 2 (List.drop (at_ rdata (pre.length + 2)).pos (at_ rdata (pre.length + 2)).mem)) = o.2.length := by
    have l1 : (beBytes 2 o.1).length = 2 := length_beBytes 2 _
    have l2 : (beBytes 2 o.2.length).length = 2 := length_beBytes 2 _
    have : (at_ rdata (pre.length + 2)).mem = (pre ++ beBytes 2 o.1) ++ (beBytes 2 o.2.length ++ (o.2 ++ rest)) := by
      simp [at_, initConst, init, he, enc]
    rw [this]
    have hp : (at_ rdata (pre.length + 2)).pos = (pre ++ beBytes 2 o.1).length := by simp [at_, l1]
    rw [hp, List.drop_left, List.take_left' l2, be2_val _ ho.2]
  rw [hL, skip_ok _ _ rfl (by simp [at_, initConst, init]; omega)]
  have := getLoop_eq code rdata (rdata.length + 1) (pre.length + (enc o).length) (by rw [length_enc]; omega) (by omega)
  have e : ({ (at_ rdata (pre.length + 2)) with pos := (at_ rdata (pre.length + 2)).pos + 2 + o.2.length } : Ctx) =
      at_ rdata (pre.length + (enc o).length) := by
    simp only [at_, initConst, init, length_enc]
    congr 1
    omega
  simp only at e ⊢
  rw [e, this]
  have hd : rdata.drop (pre.length + (enc o).length) = rest := by
    rw [he, ← List.length_append, List.drop_left]
  rw [hd]

/-- C25. The table of options: an error exactly for rdata that is not a sequence of complete options;
otherwise each code up to 17 has the offset of its last option. -/
theorem C25_get_options (rdata : WireCtx.Bytes) (hne : rdata ≠ []) :
    ((∃ e, getOptions rdata = .err e) ↔ ¬ ∃ os, (∀ o ∈ os, OptOk o) ∧ rdata = encs os) ∧
    ∀ os, (∀ o ∈ os, OptOk o) → rdata = encs os →
      ∃ ptr, getOptions rdata = .ok (some ptr) ∧ ∀ c ≤ 17, ∀ q, (ptr c = some q ↔
        ∃ pre o post, os = pre ++ o :: post ∧ o.1 = c ∧ (∀ x ∈ post, x.1 ≠ c) ∧ q = (encs pre).length) := by
  have h0 : ¬ rdata.length = 0 := fun h => hne (List.length_eq_zero_iff.mp h)
  have good : ∀ os, (∀ o ∈ os, OptOk o) → rdata = encs os →
      ∃ ptr, getOptions rdata = .ok (some ptr) ∧ ∀ c ≤ 17, ∀ q, (ptr c = some q ↔
        ∃ pre o post, os = pre ++ o :: post ∧ o.1 = c ∧ (∀ x ∈ post, x.1 ≠ c) ∧ q = (encs pre).length) := by
    intro os hok he
    unfold getOptions
    rw [if_neg h0]
    obtain ⟨w, g1, g2⟩ := getsLoop_ok rdata os (rdata.length + 1) 0 (fun _ => none) (by omega) (by omega) hok (by simpa using he)
    have e : at_ rdata 0 = initConst rdata rdata.length := rfl
    rw [e] at g1
    rw [g1]
    simp only [Res.bind_ok, g2]
    refine ⟨_, rfl, ?_⟩
    intro c hc q
    rw [lastPos_spec os 0 _ c q hc]
    simp
  refine ⟨?_, good⟩
  constructor
  · rintro ⟨e, he⟩ ⟨os, h1, h2⟩
    obtain ⟨ptr, h, _⟩ := good os h1 h2
    rw [h] at he
    cases he
  · intro hbad
    unfold getOptions
    rw [if_neg h0]
    obtain ⟨w, ptr', g1, e, g2⟩ := getsLoop_bad rdata (rdata.length + 1) 0 (fun _ => none) (by omega) (by omega) (by simpa using hbad)
    have ee : at_ rdata 0 = initConst rdata rdata.length := rfl
    rw [ee] at g1
    rw [g1]
    simp only [Res.bind_ok, g2]
    exact ⟨e, rfl⟩


/-- C25. Reading the extended RCODE and the version: bits 24-31 and 16-23 of the TTL. -/
theorem C25_ttl_get (ttl : Nat) (h : ttl < 4294967296) :
    getTtlByte ttl 0 = .ok (ttl / 16777216) ∧ getTtlByte ttl 1 = .ok (ttl / 65536 % 256) := by
  have hw : writeU (init [0, 0, 0, 0] 4) 4 ttl = .ok ⟨beBytes 4 ttl, 4, 4, none, false⟩ := by
    unfold writeU
    rw [init_wctx _ _ (by simp), write_wctx _ _ _ (by simp [length_beBytes])]
    simp [wctx, length_beBytes]
  constructor
  · unfold getTtlByte ttlCtx
    rw [hw]
    simp only [Res.bind_ok, setOffset]
    simp only [ne_eq, not_true_eq_false, if_false, gt_iff_lt, Nat.not_lt_zero]
    rw [readU_ok _ 1 rfl (by simp) (by simp [length_beBytes])]
    simp only [beBytes, List.drop_zero, List.take_succ_cons, List.take_zero, beVal, List.length_nil, Nat.pow_zero, Res.bind_ok]
    rw [UInt8.toNat_ofNat']
    congr 1
    omega
  · unfold getTtlByte ttlCtx
    rw [hw]
    simp only [Res.bind_ok, setOffset]
    rw [if_neg (by simp), if_neg (by omega)]
    rw [readU_ok _ 1 rfl (by simp) (by simp [length_beBytes])]
    simp only [beBytes, List.drop_succ_cons, List.drop_zero, List.take_succ_cons, List.take_zero, beVal, List.length_nil, Nat.pow_zero, Res.bind_ok]
    rw [UInt8.toNat_ofNat']
    congr 1
    omega

/-- C25. Setting the extended RCODE or the version changes exactly these bits of the TTL. -/
theorem C25_ttl_set (ttl v : Nat) (h : ttl < 4294967296) (hv : v < 256) :
    setTtlByte ttl 0 v = .ok (v * 16777216 + ttl % 16777216) ∧
    setTtlByte ttl 1 v = .ok (ttl / 16777216 * 16777216 + v * 65536 + ttl % 65536) := by
  have hw : writeU (init [0, 0, 0, 0] 4) 4 ttl = .ok ⟨beBytes 4 ttl, 4, 4, none, false⟩ := by
    unfold writeU
    rw [init_wctx _ _ (by simp), write_wctx _ _ _ (by simp [length_beBytes])]
    simp [wctx, length_beBytes]
  constructor
  · unfold setTtlByte ttlCtx
    rw [hw]
    simp only [Res.bind_ok, setOffset]
    simp only [ne_eq, not_true_eq_false, if_false, gt_iff_lt, Nat.not_lt_zero]
    unfold writeU
    rw [write_ok _ _ rfl rfl (by simp [length_beBytes]) (by simp [length_beBytes])]
    simp only [Res.bind_ok, not_true_eq_false, if_false, Nat.not_lt_zero]
    rw [readU_ok _ 4 rfl (by simp) (by simp [length_beBytes])]
    simp only [Res.bind_ok]
    refine congrArg Res.ok ?_
    simp [beBytes, beVal, UInt8.toNat_ofNat']
    omega
  · unfold setTtlByte ttlCtx
    rw [hw]
    simp only [Res.bind_ok, setOffset]
    rw [if_neg (by simp), if_neg (by omega)]
    unfold writeU
    rw [write_ok _ _ rfl rfl (by simp [length_beBytes]) (by simp [length_beBytes])]
    simp only [Res.bind_ok, ne_eq, not_true_eq_false, if_false, gt_iff_lt, Nat.not_lt_zero]
    rw [readU_ok _ 4 rfl (by simp) (by simp [length_beBytes])]
    simp only [Res.bind_ok]
    refine congrArg Res.ok ?_
    simp [beBytes, beVal, UInt8.toNat_ofNat']
    omega

/-- C25. The DO bit is bit 15; setting it changes no other bit. -/
theorem C25_do (ttl : Nat) : (getDo ttl = ttl.testBit 15) ∧ ∀ i, (setDo ttl).testBit i = (ttl.testBit i || decide (i = 15)) := by
  have h15 : (32768 : Nat) = 2 ^ 15 := by decide
  constructor
  · unfold getDo
    rw [h15]
    have hb : ∀ i, (ttl &&& 2 ^ 15).testBit i = (ttl.testBit i && decide (15 = i)) := by
      intro i; rw [Nat.testBit_and, Nat.testBit_two_pow]
    cases hc : ttl.testBit 15
    · have : ttl &&& 2 ^ 15 = 0 := by
        apply Nat.eq_of_testBit_eq
        intro i
        rw [hb]
        by_cases hi : 15 = i
        · subst hi; simp [hc]
        · simp [hi]
      rw [this]; rfl
    · have : ttl &&& 2 ^ 15 ≠ 0 := by
        intro h0
        have := hb 15
        rw [h0, hc] at this
        simp at this
      simp at this ⊢
      exact this
  · intro i
    unfold setDo
    rw [Nat.testBit_or, h15, Nat.testBit_two_pow]
    congr 1
    rw [decide_eq_decide]
    exact eq_comm

/-- C25. The whole RCODE: the extended part above the four bits of the header. -/
theorem C25_whole_rcode (ext rcode : Nat) (he : ext < 256) (hr : rcode < 16) : wholeRcode ext rcode = ext * 16 + rcode := by
  unfold wholeRcode
  have h1 : ext <<< 4 ||| rcode = ext <<< 4 + rcode := by
    rw [Nat.shiftLeft_eq]
    have := Nat.two_pow_add_eq_or_of_lt (i := 4) (b := rcode) (by omega) ext
    rw [Nat.mul_comm ext]
    exact this.symm
  rw [h1, Nat.shiftLeft_eq]
  omega

/-- C25. Padding: with the padding option of the returned size the message length is a multiple of
the block size, and no smaller option does it; −1 iff no padding is needed or no OPT or block size is given. -/
theorem C25_alignment (pkt opt block : Nat) :
    (alignmentSize pkt opt block = none ↔ opt = 0 ∨ block = 0 ∨ block ∣ pkt + opt) ∧
    ∀ n, alignmentSize pkt opt block = some n → block ∣ pkt + opt + 4 + n ∧ ∀ m < n, ¬ block ∣ pkt + opt + 4 + m := by
  unfold alignmentSize
  constructor
  · split
    · rename_i h; simp; rcases h with h | h <;> simp [h]
    · rename_i h
      have h' : ¬ opt = 0 ∧ ¬ block = 0 := ⟨fun x => h (.inl x), fun x => h (.inr x)⟩
      split
      · rename_i h2; simp [Nat.dvd_of_mod_eq_zero h2]
      · rename_i h2
        simp only [reduceCtorEq, false_iff]
        rintro (a | a | a)
        · exact h'.1 a
        · exact h'.2 a
        · exact h2 (Nat.mod_eq_zero_of_dvd a)
  · intro n hn
    split at hn
    · cases hn
    · rename_i h
      have hb : 0 < block := by omega
      split at hn
      · cases hn
      · simp only [Option.some.injEq] at hn
        have hlt := Nat.mod_lt (pkt + opt + 4) hb
        have hdm := Nat.div_add_mod (pkt + opt + 4) block
        generalize hq : (pkt + opt + 4) / block = q at *
        generalize hr : (pkt + opt + 4) % block = r at *
        split at hn
        · rename_i hr0
          subst hn
          refine ⟨⟨q, by omega⟩, by omega⟩
        · subst hn
          refine ⟨⟨q + 1, by rw [Nat.mul_add]; omega⟩, ?_⟩
          rintro m hm ⟨k, hk⟩
          have h1 : block * q < block * k := by omega
          have h2 : block * k < block * (q + 1) := by rw [Nat.mul_add]; omega
          have := Nat.lt_of_mul_lt_mul_left h1
          have := Nat.lt_of_mul_lt_mul_left h2
          omega

/-- C25. Keepalive: what was written is read back; the option is empty for timeout 0. -/
theorem C25_keepalive (t : Nat) (h : t < 65536) (buf : WireCtx.Bytes) (hb : buf.length = keepaliveSize t) :
    ∃ o, keepaliveWrite buf t = .ok o ∧ o.length = keepaliveSize t ∧ keepaliveParse o = .ok t := by
  unfold keepaliveSize at *
  unfold keepaliveWrite keepaliveParse
  by_cases h0 : t = 0
  · subst h0
    refine ⟨buf, by simp, hb, ?_⟩
    simp at hb; simp [hb]
  · rw [if_neg h0]
    rw [if_pos (by omega)] at hb ⊢
    unfold writeU
    rw [init_wctx _ _ rfl, write_wctx _ _ _ (by simp [length_beBytes, hb])]
    simp only [Res.bind_ok, wctx, List.nil_append, length_beBytes]
    have hd : buf.drop 2 = [] := List.drop_eq_nil_of_le (by omega)
    refine ⟨_, rfl, by simp [hd, length_beBytes], ?_⟩
    rw [hd, List.append_nil, if_pos (by simp [length_beBytes]), readU_ok _ 2 rfl (by simp [initConst, init, length_beBytes]) (by simp [initConst, init])]
    simp only [Res.bind_ok]
    have : (List.take 2 (List.drop (initConst (beBytes 2 t) (beBytes 2 t).length).pos (initConst (beBytes 2 t) (beBytes 2 t).length).mem)) = beBytes 2 t := by
      simp only [initConst, init, List.drop_zero]
      rw [List.take_of_length_le (by simp [length_beBytes])]
    rw [if_neg (by simp [initConst, init]), this, be2_val _ h]

/-- C25. A keepalive option is refused exactly when it has one byte. -/
theorem C25_keepalive_parse (o : WireCtx.Bytes) : (∃ e, keepaliveParse o = .err e) ↔ o.length = 1 := by
  unfold keepaliveParse
  by_cases h0 : o.length > 0
  · rw [if_pos h0]
    by_cases h2 : 2 ≤ o.length
    · rw [readU_ok _ 2 rfl (by simp [initConst, init]; omega) (by simp [initConst, init])]
      simp only [Res.bind_ok]
      rw [if_neg (by simp [initConst, init])]
      constructor
      · rintro ⟨e, he⟩; cases he
      · intro h; omega
    · rw [readU_short _ 2 rfl (by simp [initConst, init]; omega) (by simp [initConst, init])]
      simp only [Res.bind_ok]
      rw [if_pos (by simp)]
      constructor
      · intro _; omega
      · intro _; exact ⟨_, rfl⟩
  · rw [if_neg h0]
    constructor
    · rintro ⟨e, he⟩; cases he
    · intro h; omega

/-- C25. Cookies: a legal pair (client cookie of 8 bytes, server cookie empty or of 8 to 32 bytes)
written into a buffer of the computed size is read back, and the size is positive exactly for legal pairs. -/
theorem C25_cookie (cc sc : WireCtx.Bytes) :
    (cookieSize cc sc > 0 ↔ cc.length = 8 ∧ (sc = [] ∨ (8 ≤ sc.length ∧ sc.length ≤ 32))) ∧
    (cookieSize cc sc > 0 → ∀ buf : WireCtx.Bytes, buf.length = cookieSize cc sc →
      ∃ o, cookieWrite buf cc sc = .ok o ∧ cookieParse o = .ok (cc, sc)) := by
  have hnil : sc = [] ↔ sc.length = 0 := List.length_eq_zero_iff.symm
  have hpos : (cookieSize cc sc > 0 ↔ cc.length = 8 ∧ (sc = [] ∨ (8 ≤ sc.length ∧ sc.length ≤ 32))) := by
    rw [hnil]
    unfold cookieSize
    split
    · omega
    · split
      · omega
      · split <;> omega
  refine ⟨hpos, ?_⟩
  intro hp buf hb
  obtain ⟨h1, h2⟩ := hpos.mp hp
  rw [hnil] at h2
  have hsz : cookieSize cc sc = 8 + sc.length := by
    unfold cookieSize
    rw [if_neg (by omega)]
    split
    · omega
    · rw [if_neg (by omega)]; omega
  rw [hsz] at hb
  unfold cookieWrite cookieParse
  rw [if_neg (by omega), init_wctx _ _ rfl, write_wctx _ _ _ (by omega)]
  simp only [Res.bind_ok]
  rw [if_neg (by omega), write_wctx _ _ _ (by simp; omega)]
  simp only [Res.bind_ok, wctx, List.nil_append]
  have hd : (buf.drop cc.length).drop sc.length = [] := by
    rw [List.drop_drop]; exact List.drop_eq_nil_of_le (by omega)
  refine ⟨_, rfl, ?_⟩
  rw [hd, List.append_nil, if_neg (by simp only [List.length_append]; omega)]
  rw [load_ok _ _ _ (by simp only [List.length_append]; omega)]
  simp only [Res.bind_ok]
  rw [load_ok _ _ _ (by simp only [List.length_append]; omega)]
  simp only [Res.bind_ok, List.drop_zero]
  rw [List.take_left' h1, List.drop_left' h1, List.length_append, h1]
  simp

/-- C25. Cookie parsing: accepted exactly for the lengths 8 and 16 to 40; the cookies are the first
eight bytes and the rest; nothing outside the option is read. -/
theorem C25_cookie_parse (o : WireCtx.Bytes) :
    cookieParse o = if o.length = 8 ∨ (16 ≤ o.length ∧ o.length ≤ 40) then .ok (o.take 8, o.drop 8) else .err .emalf := by
  unfold cookieParse
  split
  · rw [if_neg (by omega)]
  · rw [if_pos (by omega), load_ok _ _ _ (by omega)]
    simp only [Res.bind_ok]
    rw [load_ok _ _ _ (by omega)]
    simp only [Res.bind_ok, List.drop_zero]
    rw [List.take_of_length_le (i := o.length - 8) (by simp)]


namespace Edns

/-- First `p` bits of a byte string, padded with zero bits to whole bytes: what a prefix write leaves. -/
def masked (p : Nat) (s : Bytes) : Bytes :=
  (s.take (prefixSize p - 1)) ++
    (if prefixSize p = 0 then [] else [UInt8.ofNat ((s.getD (prefixSize p - 1) 0).toNat &&& lsbMask p)])

theorem length_masked (p : Nat) (s : Bytes) (h : prefixSize p ≤ s.length) : (masked p s).length = prefixSize p := by
  unfold masked
  split <;> simp <;> omega

theorem lsbMask_bit : ∀ k < 8, ∀ j < 8, (lsbMask (8 * 0 + (k + 1))).testBit (7 - j) = decide (j < k + 1) := by decide

theorem lsbMask_mod (p : Nat) : lsbMask p = lsbMask (p % 8) := by
  unfold lsbMask; rw [Nat.mod_mod]

theorem bit_append_left (a b : Bytes) (i : Nat) (h : i < 8 * a.length) : Sockaddr.bit (a ++ b) i = Sockaddr.bit a i := by
  unfold Sockaddr.bit
  rw [List.getD_eq_getElem?_getD, List.getD_eq_getElem?_getD, List.getElem?_append_left (by omega)]

theorem bit_append_right (a b : Bytes) (i : Nat) (h : 8 * a.length ≤ i) :
    Sockaddr.bit (a ++ b) i = Sockaddr.bit b (i - 8 * a.length) := by
  unfold Sockaddr.bit
  rw [List.getD_eq_getElem?_getD, List.getD_eq_getElem?_getD, List.getElem?_append_right (by omega)]
  rw [show (i - 8 * a.length) / 8 = i / 8 - a.length by omega, show (i - 8 * a.length) % 8 = i % 8 by omega]

theorem bit_take (a : Bytes) (n i : Nat) (h : i < 8 * n) : Sockaddr.bit (a.take n) i = Sockaddr.bit a i := by
  unfold Sockaddr.bit
  rw [List.getD_eq_getElem?_getD, List.getD_eq_getElem?_getD, List.getElem?_take, if_pos (by omega)]

theorem bit_out (a : Bytes) (i : Nat) (h : 8 * a.length ≤ i) : Sockaddr.bit a i = false := by
  unfold Sockaddr.bit
  rw [List.getD_eq_getElem?_getD, List.getElem?_eq_none (by omega)]
  simp

theorem bit_masked (p : Nat) (s : Bytes) (h : prefixSize p ≤ s.length) (i : Nat) :
    Sockaddr.bit (masked p s) i = (decide (i < p) && Sockaddr.bit s i) := by
  by_cases h0 : prefixSize p = 0
  · have hp : p = 0 := by unfold prefixSize at h0; omega
    subst hp
    rw [bit_out]
    · simp
    · rw [length_masked _ _ h, h0]; omega
  · by_cases hi : i < 8 * (prefixSize p - 1)
    · unfold masked
      rw [bit_append_left _ _ _ (by simp; omega), bit_take _ _ _ hi]
      have : i < p := by unfold prefixSize at hi; omega
      simp [this]
    · by_cases hi2 : i < 8 * prefixSize p
      · unfold masked
        rw [if_neg h0, bit_append_right _ _ _ (by simp; omega)]
        have hl : (s.take (prefixSize p - 1)).length = prefixSize p - 1 := by simp; omega
        rw [hl]
        unfold Sockaddr.bit
        have e1 : (i - 8 * (prefixSize p - 1)) / 8 = 0 := by omega
        have e2 : (i - 8 * (prefixSize p - 1)) % 8 = i % 8 := by omega
        have e3 : i / 8 = prefixSize p - 1 := by omega
        rw [e1, e2, e3]
        simp only [List.getD_cons_zero]
        generalize (s.getD (prefixSize p - 1) 0) = b
        have hb := b.toNat_lt
        rw [UInt8.toNat_ofNat', Nat.mod_eq_of_lt (Nat.lt_of_le_of_lt Nat.and_le_left hb), Nat.testBit_and, Bool.and_comm]
        congr 1
        have e4 : i < p ↔ i % 8 < p - 8 * (prefixSize p - 1) := by omega
        have e5 : p - 8 * (prefixSize p - 1) - 1 < 8 := by unfold prefixSize at *; omega
        have e6 : 1 ≤ p - 8 * (prefixSize p - 1) := by unfold prefixSize at *; omega
        have e7 : lsbMask p = lsbMask (8 * 0 + (p - 8 * (prefixSize p - 1) - 1 + 1)) := by
          rw [lsbMask_mod p, lsbMask_mod (8 * 0 + _)]
          congr 1
          omega
        rw [e7, lsbMask_bit _ e5 _ (by omega)]
        rw [decide_eq_decide, e4]
        omega
      · rw [bit_out]
        · have : ¬ i < p := by unfold prefixSize at hi2; omega
          simp [this]
        · rw [length_masked _ _ h]; omega

theorem canWrite_wctx (a b : Bytes) (n : Nat) : canWrite (wctx a b) n = if b.length < n then some .espace else none := by
  have : available (wctx a b) = b.length := by simp [available, wctx]
  unfold canWrite
  rw [this]
  rfl

theorem writeAddress_ok (done rest : Bytes) (src : Ctx) (p : Nat) (he : src.error = none) (hs : src.size ≤ src.mem.length)
    (h1 : src.pos + prefixSize p ≤ src.size) (h2 : prefixSize p ≤ rest.length) :
    writeAddress (wctx done rest) src p =
      .ok (wctx (done ++ masked p (src.mem.drop src.pos) ++ List.replicate (rest.length - prefixSize p) 0) [],
        { src with pos := src.pos + prefixSize p }) := by
  unfold writeAddress
  have hav : ∀ a b : Bytes, available (wctx a b) = b.length := by intro a b; simp [available, wctx]
  by_cases h0 : prefixSize p = 0
  · rw [if_neg (by omega), clear_eq, hav, write_wctx _ _ _ (by simp)]
    simp only [Res.bind_ok]
    have : masked p (src.mem.drop src.pos) = [] := by unfold masked; simp [h0]
    rw [this]
    simp only [List.append_nil, h0, Nat.add_zero, Nat.sub_zero, List.length_replicate, List.drop_length]
  · rw [if_pos (by omega)]
    have hcopy : copy (wctx done rest) src (prefixSize p) =
        .ok (wctx (done ++ (src.mem.drop src.pos).take (prefixSize p)) (rest.drop (prefixSize p)), { src with pos := src.pos + prefixSize p }) := by
      unfold copy
      rw [if_neg (by simp [wctx]; omega)]
      have c1 : canRead src (prefixSize p) = none := by
        unfold canRead; rw [he]; simp only; rw [if_neg]; unfold available; omega
      have c2 : canWrite (wctx done rest) (prefixSize p) = none := by
        rw [canWrite_wctx, if_neg (by omega)]
      rw [if_neg (by simp [c1]), c2]
      simp only
      rw [load_ok _ _ _ (by omega)]
      simp only [Res.bind_ok]
      have hl : ((src.mem.drop src.pos).take (prefixSize p)).length = prefixSize p := by simp; omega
      have := write_wctx done rest ((src.mem.drop src.pos).take (prefixSize p)) (by omega)
      unfold write at this
      rw [hl] at this
      rw [if_neg (by simp [wctx]), if_neg h0, c2] at this
      simp only at this
      rw [store_ok _ _ _ (by simp [wctx, hl]; omega)] at this ⊢
      simp only [Res.bind_ok] at this ⊢
      injection this with this
      rw [this]
    rw [hcopy]
    simp only [Res.bind_ok]
    rw [if_neg (by simp [wctx])]
    have hl : ((src.mem.drop src.pos).take (prefixSize p)).length = prefixSize p := by simp; omega
    have hsplit : (src.mem.drop src.pos).take (prefixSize p) = (src.mem.drop src.pos).take (prefixSize p - 1) ++ [(src.mem.drop src.pos).getD (prefixSize p - 1) 0] := by
      obtain ⟨k, hk⟩ : ∃ k, prefixSize p = k + 1 := ⟨prefixSize p - 1, by omega⟩
      rw [hk, Nat.add_sub_cancel, List.take_add_one, List.getD_eq_getElem?_getD]
      rw [List.getElem?_eq_getElem (by simp; omega)]
      simp
    have hmask : maskLast (wctx (done ++ (src.mem.drop src.pos).take (prefixSize p)) (rest.drop (prefixSize p))) (lsbMask p) =
        .ok (wctx (done ++ masked p (src.mem.drop src.pos)) (rest.drop (prefixSize p))) := by
      have hlm := length_masked p (src.mem.drop src.pos) (by simp; omega)
      have hm : masked p (src.mem.drop src.pos) = (src.mem.drop src.pos).take (prefixSize p - 1) ++
          [UInt8.ofNat (((src.mem.drop src.pos).getD (prefixSize p - 1) 0).toNat &&& lsbMask p)] := by
        unfold masked; rw [if_neg h0]
      have hpos : (wctx (done ++ (src.mem.drop src.pos).take (prefixSize p)) (rest.drop (prefixSize p))).pos = done.length + prefixSize p := by
        simp only [wctx, List.length_append, hl]
      have hl2 : ((src.mem.drop src.pos).take (prefixSize p - 1)).length = prefixSize p - 1 := by simp; omega
      generalize (src.mem.drop src.pos).take (prefixSize p - 1) = A at *
      generalize (src.mem.drop src.pos).getD (prefixSize p - 1) 0 = b at *
      rw [hsplit] at hpos ⊢
      rw [hm]
      unfold maskLast
      rw [if_neg (by rw [hpos]; omega), hpos]
      have hmem : (wctx (done ++ (A ++ [b])) (rest.drop (prefixSize p))).mem = (done ++ A) ++ b :: rest.drop (prefixSize p) := by
        simp [wctx]
      have hlen : (done ++ A).length = done.length + prefixSize p - 1 := by rw [List.length_append, hl2]; omega
      rw [hmem]
      have hrd : Res.rd ((done ++ A) ++ b :: rest.drop (prefixSize p)) (done.length + prefixSize p - 1) = .ok b := by
        rw [← hlen]; unfold Res.rd; simp
      rw [hrd]
      simp only [Res.bind_ok]
      rw [store_ok _ _ _ (by rw [List.length_append, hlen]; simp)]
      simp only [Res.bind_ok]
      rw [← hlen, List.take_left]
      rw [List.drop_append, List.drop_eq_nil_of_le (by simp)]
      simp [wctx]
      omega
    rw [hmask]
    simp only [Res.bind_ok]
    rw [clear_eq, hav, write_wctx _ _ _ (by simp)]
    simp only [Res.bind_ok, List.length_drop, List.length_replicate]
    rw [List.drop_eq_nil_of_le (i := rest.length - prefixSize p) (by simp)]

theorem writeAddress_bad (done rest : Bytes) (src : Ctx) (p : Nat) (hp : src.pos ≤ src.size)
    (h : src.error ≠ none ∨ ¬ (src.pos + prefixSize p ≤ src.size ∧ prefixSize p ≤ rest.length)) (h0 : prefixSize p ≠ 0) :
    ∃ d e, writeAddress (wctx done rest) src p = .ok (d, src) ∧ d.error = some e := by
  unfold writeAddress
  rw [if_pos (by omega)]
  have hcopy : ∃ d e, copy (wctx done rest) src (prefixSize p) = .ok (d, src) ∧ d.error = some e := by
    unfold copy
    rw [if_neg (by simp [wctx]; omega)]
    by_cases c1 : canRead src (prefixSize p) = none
    · rw [if_neg (by simp [c1])]
      have c2 : canWrite (wctx done rest) (prefixSize p) = some .espace := by
        unfold canRead at c1
        rw [canWrite_wctx, if_pos]
        cases he : src.error with
        | some e => rw [he] at c1; simp at c1
        | none =>
          rw [he] at c1
          simp only [available] at c1
          have : ¬ src.size - src.pos < prefixSize p := by
            intro hc; rw [if_pos hc] at c1; cases c1
          rcases h with h | h
          · exact absurd he h
          · omega
      rw [c2]
      exact ⟨_, _, rfl, rfl⟩
    · rw [if_pos c1]
      exact ⟨_, _, rfl, rfl⟩
  obtain ⟨d, e, hc, he⟩ := hcopy
  rw [hc]
  simp only [Res.bind_ok]
  rw [if_pos (by simp [he])]
  exact ⟨d, e, rfl, he⟩

/-- Address size of a family, RFC 7871. -/
def ecsBits (family : Nat) : Nat := if family = 1 then 32 else if family = 2 then 128 else 0

theorem ecsValid_iff (e : Ecs) : ecsValid e = true ↔ (e.family = 1 ∨ e.family = 2) ∧ e.sourceLen ≤ ecsBits e.family ∧ e.scopeLen ≤ ecsBits e.family := by
  unfold ecsValid famSize ecsBits
  by_cases h1 : e.family = 1
  · simp [h1]
  · by_cases h2 : e.family = 2
    · simp [h2]
    · simp [h1, h2]

end Edns

/-- C25. Client subnet, parsing. The option is accepted exactly when it has the four bytes of the
header, a known family, prefix lengths within the size of its address, and enough address bytes.
The result carries the header fields and an address of 16 bytes, whose bits up to the source prefix
length are those of the option and zero beyond. The outcome is never undefined. -/
theorem C25_ecs_parse (o : WireCtx.Bytes) :
    (¬ (4 ≤ o.length ∧ (beVal (o.take 2) = 1 ∨ beVal (o.take 2) = 2) ∧
        beVal ((o.drop 2).take 1) ≤ ecsBits (beVal (o.take 2)) ∧ beVal ((o.drop 3).take 1) ≤ ecsBits (beVal (o.take 2)) ∧
        (beVal ((o.drop 2).take 1) + 7) / 8 + 4 ≤ o.length) → ecsParse o = .err .emalf) ∧
    ((4 ≤ o.length ∧ (beVal (o.take 2) = 1 ∨ beVal (o.take 2) = 2) ∧
        beVal ((o.drop 2).take 1) ≤ ecsBits (beVal (o.take 2)) ∧ beVal ((o.drop 3).take 1) ≤ ecsBits (beVal (o.take 2)) ∧
        (beVal ((o.drop 2).take 1) + 7) / 8 + 4 ≤ o.length) →
      ∃ addr, ecsParse o = .ok ⟨beVal (o.take 2), beVal ((o.drop 2).take 1), beVal ((o.drop 3).take 1), addr⟩ ∧
        addr.length = 16 ∧ ∀ i, Sockaddr.bit addr i = (decide (i < beVal ((o.drop 2).take 1)) && Sockaddr.bit (o.drop 4) i)) := by
  have hctx : ∀ p, ({ initConst o o.length with pos := p } : Ctx) = at_ o p := fun _ => rfl
  have hbits : ∀ f, ecsBits f ≤ 128 := by intro f; unfold ecsBits; repeat' split
                                          all_goals omega
  by_cases h4 : 4 ≤ o.length
  · have r1 : readU (initConst o o.length) 2 = .ok (beVal (o.take 2), at_ o 2) := by
      rw [readU_ok _ 2 rfl (by simp [initConst, init]; omega) (by simp [initConst, init])]; rfl
    have r2 : readU (at_ o 2) 1 = .ok (beVal ((o.drop 2).take 1), at_ o 3) := by
      rw [readU_ok _ 1 rfl (by simp [at_, initConst, init]; omega) (by simp [at_, initConst, init])]; rfl
    have r3 : readU (at_ o 3) 1 = .ok (beVal ((o.drop 3).take 1), at_ o 4) := by
      rw [readU_ok _ 1 rfl (by simp [at_, initConst, init]; omega) (by simp [at_, initConst, init])]; rfl
    generalize beVal (o.take 2) = f at *
    generalize beVal ((o.drop 2).take 1) = s at *
    generalize beVal ((o.drop 3).take 1) = c at *
    unfold ecsParse
    rw [r1]; simp only [Res.bind_ok]
    rw [r2]; simp only [Res.bind_ok]
    rw [r3]; simp only [Res.bind_ok]
    rw [init_wctx _ _ (by simp)]
    by_cases hfit : (s + 7) / 8 + 4 ≤ o.length ∧ (s + 7) / 8 ≤ 16
    · rw [writeAddress_ok [] (List.replicate 16 0) (at_ o 4) s rfl (by simp [at_, initConst, init])
        (by simp only [at_, initConst, init, prefixSize]; omega) (by simp only [List.length_replicate, prefixSize]; omega)]
      simp only [Res.bind_ok]
      rw [if_neg (by simp [wctx, at_, initConst, init])]
      have hval := ecsValid_iff ⟨f, s, c, (wctx ([] ++ masked s ((at_ o 4).mem.drop (at_ o 4).pos) ++ List.replicate ((List.replicate 16 (0 : UInt8)).length - prefixSize s) 0) []).mem⟩
      simp only at hval
      constructor
      · intro hn
        rw [if_pos]
        rw [Bool.not_eq_true', ← Bool.not_eq_true, hval]
        intro ⟨a1, a2, a3⟩
        exact hn ⟨h4, a1, a2, a3, hfit.1⟩
      · rintro ⟨_, a1, a2, a3, a4⟩
        rw [if_neg]
        · refine ⟨_, rfl, ?_, ?_⟩
          · simp only [wctx, List.append_nil, List.nil_append, List.length_append, List.length_replicate]
            rw [length_masked _ _ (by simp [at_, initConst, init, prefixSize]; omega)]
            unfold prefixSize; omega
          · intro i
            simp only [wctx, List.append_nil, List.nil_append, List.length_replicate]
            have hm : (at_ o 4).mem.drop (at_ o 4).pos = o.drop 4 := rfl
            rw [hm]
            have hlm := length_masked s (o.drop 4) (by simp only [List.length_drop, prefixSize]; omega)
            rw [← bit_masked s (o.drop 4) (by simp only [List.length_drop, prefixSize]; omega)]
            by_cases hi : i < 8 * (masked s (o.drop 4)).length
            · rw [bit_append_left _ _ _ hi]
            · rw [bit_append_right _ _ _ (by omega), bit_out (masked s _) _ (by omega)]
              unfold Sockaddr.bit
              rw [List.getD_eq_getElem?_getD, List.getElem?_replicate]
              split <;> simp
        · rw [Bool.not_eq_true', ← Bool.not_eq_true, hval]
          intro hn
          exact hn ⟨a1, a2, a3⟩
    · obtain ⟨d, e, hw, hd⟩ := writeAddress_bad [] (List.replicate 16 0) (at_ o 4) s (by simp [at_, initConst, init]; omega)
        (by right; simp only [at_, initConst, init, prefixSize, List.length_replicate]; omega) (by unfold prefixSize; omega)
      rw [hw]
      simp only [Res.bind_ok]
      rw [if_pos (by simp [hd])]
      refine ⟨fun _ => rfl, ?_⟩
      rintro ⟨_, _, a2, _, a4⟩
      have := hbits f
      omega
  · refine ⟨fun _ => ?_, fun h => absurd h.1 h4⟩
    have fin : ∀ (w : Ctx) (f s c : Nat), w.error ≠ none → w.pos ≤ w.size →
        (do let (addr, w) ← writeAddress (init (List.replicate 16 0) 16) w s
            if addr.error ≠ none ∨ w.error ≠ none then .err .emalf
            else
              let r : Ecs := ⟨f, s, c, addr.mem⟩
              if !ecsValid r then .err .emalf else .ok r : Res Ecs) = .err .emalf := by
      intro w f s c hw hp
      obtain ⟨d, hd⟩ : ∃ d, writeAddress (init (List.replicate 16 0) 16) w s = .ok (d, w) := by
        rw [init_wctx _ _ (by simp)]
        by_cases h0 : prefixSize s = 0
        · unfold writeAddress
          rw [if_neg (by omega), clear_eq, write_wctx _ _ _ (by simp [available, wctx])]
          exact ⟨_, rfl⟩
        · obtain ⟨d, e, h1, _⟩ := writeAddress_bad [] (List.replicate 16 0) w s hp (.inl hw) h0
          exact ⟨d, h1⟩
      rw [hd]
      simp only [Res.bind_ok]
      rw [if_pos (.inr hw)]
    unfold ecsParse
    by_cases h2 : 2 ≤ o.length
    · rw [readU_ok _ 2 rfl (by simp [at_, initConst, init]; omega) (by simp [at_, initConst, init]), hctx]
      simp only [Res.bind_ok]
      by_cases h3 : 3 ≤ o.length
      · rw [readU_ok _ 1 rfl (by simp [at_, initConst, init]; omega) (by simp [at_, initConst, init])]
        simp only [Res.bind_ok]
        rw [readU_short _ 1 rfl (by simp [at_, initConst, init]; omega) (by simp [at_, initConst, init]; omega)]
        simp only [Res.bind_ok]
        exact fin _ _ _ _ (by simp) (by simp [at_, initConst, init]; omega)
      · rw [readU_short _ 1 rfl (by simp [at_, initConst, init]; omega) (by simp [at_, initConst, init]; omega)]
        simp only [Res.bind_ok]
        rw [readU_err _ _ (by simp)]
        simp only [Res.bind_ok]
        exact fin _ _ _ _ (by simp) (by simp [at_, initConst, init]; omega)
    · rw [readU_short _ 2 rfl (by simp [at_, initConst, init]; omega) (by simp [at_, initConst, init])]
      simp only [Res.bind_ok]
      rw [readU_err _ _ (by simp)]
      simp only [Res.bind_ok]
      rw [readU_err _ _ (by simp)]
      simp only [Res.bind_ok]
      exact fin _ _ _ _ (by simp) (by simp [at_, initConst, init])

/-- C25. Client subnet, writing. A legal subnet (family, prefix lengths, address of 16 bytes)
written into a buffer of the computed size is read back with the same fields and the same prefix;
an illegal one is refused and has size 0. -/
theorem C25_ecs_write (e : Ecs) (hf : e.family < 65536) (hs : e.sourceLen < 256) (hc : e.scopeLen < 256) (ha : e.address.length = 16)
    (buf : WireCtx.Bytes) (hb : buf.length = ecsSize e) :
    (¬ ((e.family = 1 ∨ e.family = 2) ∧ e.sourceLen ≤ ecsBits e.family ∧ e.scopeLen ≤ ecsBits e.family) →
      ecsSize e = 0 ∧ ecsWrite buf e = .err .einval) ∧
    (((e.family = 1 ∨ e.family = 2) ∧ e.sourceLen ≤ ecsBits e.family ∧ e.scopeLen ≤ ecsBits e.family) →
      ∃ o addr, ecsWrite buf e = .ok o ∧ o.length = 4 + (e.sourceLen + 7) / 8 ∧
        ecsParse o = .ok { e with address := addr } ∧ addr.length = 16 ∧
        ∀ i, Sockaddr.bit addr i = (decide (i < e.sourceLen) && Sockaddr.bit e.address i)) := by
  have hv := ecsValid_iff e
  constructor
  · intro hn
    have : ecsValid e = false := by rw [← Bool.not_eq_true, hv]; exact hn
    constructor
    · unfold ecsSize; simp [this]
    · unfold ecsWrite; simp [this]
  · intro hy
    have hvt : ecsValid e = true := hv.mpr hy
    have hsz : ecsSize e = 4 + prefixSize e.sourceLen := by unfold ecsSize; simp [hvt]
    rw [hsz] at hb
    have hle : ecsBits e.family ≤ 128 := by unfold ecsBits; split <;> (try split) <;> omega
    have hp16 : prefixSize e.sourceLen ≤ 16 := by unfold prefixSize; omega
    have hbuf : ∀ n, (buf.drop n).length = buf.length - n := by simp
    have l1 : (beBytes 2 e.family).length = 2 := length_beBytes _ _
    have l2 : (beBytes 1 e.sourceLen).length = 1 := length_beBytes _ _
    have l3 : (beBytes 1 e.scopeLen).length = 1 := length_beBytes _ _
    have hw : ecsWrite buf e = .ok (beBytes 2 e.family ++ beBytes 1 e.sourceLen ++ beBytes 1 e.scopeLen ++ masked e.sourceLen e.address) := by
      unfold ecsWrite writeU
      rw [hvt, init_wctx _ _ rfl, write_wctx _ _ _ (by omega)]
      simp only [Bool.not_true, Bool.false_eq_true, if_false, Res.bind_ok]
      rw [write_wctx _ _ _ (by rw [hbuf]; omega)]
      simp only [Res.bind_ok]
      rw [write_wctx _ _ _ (by rw [List.length_drop, hbuf]; omega)]
      simp only [Res.bind_ok]
      rw [writeAddress_ok _ _ _ _ rfl (by simp [initConst, init, ha]) (by simp [initConst, init]; omega)
        (by rw [List.length_drop, List.length_drop, hbuf]; omega)]
      simp only [Res.bind_ok, wctx, List.append_nil, List.nil_append, List.length_drop, l1, l2, l3]
      have : buf.length - 2 - 1 - 1 - prefixSize e.sourceLen = 0 := by omega
      rw [this]
      simp [initConst, init]
    have hml := length_masked e.sourceLen e.address (by omega)
    have hpar := C25_ecs_parse (beBytes 2 e.family ++ beBytes 1 e.sourceLen ++ beBytes 1 e.scopeLen ++ masked e.sourceLen e.address)
    have t1 : (beBytes 2 e.family ++ beBytes 1 e.sourceLen ++ beBytes 1 e.scopeLen ++ masked e.sourceLen e.address).take 2 = beBytes 2 e.family := by
      simp only [List.append_assoc]; exact List.take_left' l1
    have t2 : ((beBytes 2 e.family ++ beBytes 1 e.sourceLen ++ beBytes 1 e.scopeLen ++ masked e.sourceLen e.address).drop 2).take 1 = beBytes 1 e.sourceLen := by
      simp only [List.append_assoc]; rw [List.drop_left' l1]; exact List.take_left' l2
    have t3 : ((beBytes 2 e.family ++ beBytes 1 e.sourceLen ++ beBytes 1 e.scopeLen ++ masked e.sourceLen e.address).drop 3).take 1 = beBytes 1 e.scopeLen := by
      rw [List.append_assoc (beBytes 2 e.family ++ beBytes 1 e.sourceLen), List.drop_left' (by rw [List.length_append, l1, l2])]; exact List.take_left' l3
    have t4 : (beBytes 2 e.family ++ beBytes 1 e.sourceLen ++ beBytes 1 e.scopeLen ++ masked e.sourceLen e.address).drop 4 = masked e.sourceLen e.address := by
      exact List.drop_left' (by simp only [List.length_append, l1, l2, l3])
    have v2 : beVal (beBytes 1 e.sourceLen) = e.sourceLen := by rw [beVal_beBytes]; omega
    have v3 : beVal (beBytes 1 e.scopeLen) = e.scopeLen := by rw [beVal_beBytes]; omega
    rw [t1, t2, t3, t4, be2_val _ hf, v2, v3] at hpar
    have hlen : (beBytes 2 e.family ++ beBytes 1 e.sourceLen ++ beBytes 1 e.scopeLen ++ masked e.sourceLen e.address).length = 4 + (e.sourceLen + 7) / 8 := by
      simp only [List.length_append, l1, l2, l3, hml, prefixSize]
    obtain ⟨addr, p1, p2, p3⟩ := hpar.2 ⟨by omega, hy.1, hy.2.1, hy.2.2, by omega⟩
    refine ⟨_, addr, hw, hlen, p1, p2, ?_⟩
    intro i
    rw [p3, bit_masked _ _ (by omega)]
    cases decide (i < e.sourceLen) <;> simp

/-- Adding a list of options one after another to an OPT record. -/
def Edns.addAll (rdata : WireCtx.Bytes) : List Opt → Res WireCtx.Bytes
  | [] => .ok rdata
  | o :: os => addOption rdata o.1 o.2 >>= fun r => Edns.addAll r os

/-- C25. After adding any list of options that fits an OPT record, a lookup returns the position of
the first option with the code, or nothing when there is none. -/
theorem C25_add_get (os : List Opt) (hok : ∀ o ∈ os, OptOk o) (hlen : (encs os).length < 65536) (code : Nat) :
    ∃ r, Edns.addAll [] os = .ok r ∧
      ((∀ o ∈ os, o.1 ≠ code) → getOption r code none = .ok none) ∧
      ∀ pre o post, os = pre ++ o :: post → o.1 = code → (∀ x ∈ pre, x.1 ≠ code) →
        getOption r code none = .ok (some (encs pre).length) ∧
        r.drop (encs pre).length = enc o ++ encs post := by
  have hadd : ∀ (os pre : List Opt), (∀ o ∈ os, OptOk o) → (encs (pre ++ os)).length < 65536 →
      Edns.addAll (encs pre) os = .ok (encs (pre ++ os)) := by
    intro os
    induction os with
    | nil => intro pre _ _; simp [Edns.addAll]
    | cons o os ih =>
      intro pre hk hl
      obtain ⟨h1, h2⟩ := hk o (by simp)
      have hl' := hl
      simp only [encs, List.flatMap_append, List.flatMap_cons, List.length_append, length_enc] at hl'
      unfold Edns.addAll
      rw [C25_add _ _ _ h1 (by simp only [encs]; omega) h2, if_pos (by simp only [encs]; omega)]
      simp only [Res.bind_ok]
      have : encs pre ++ enc (o.1, o.2) = encs (pre ++ [o]) := by simp [encs]
      rw [this, ih _ (fun x hx => hk x (by simp [hx])) (by simpa using hl)]
      simp
  have h := hadd os [] hok (by simpa using hlen)
  refine ⟨encs os, by simpa [encs] using h, ?_, ?_⟩
  · intro hno
    obtain ⟨r, hr, hiff⟩ := C25_get_first (encs os) code
    rw [hr]
    cases r with
    | none => rfl
    | some pos =>
      exfalso
      obtain ⟨pre, o, rest, he, hp, ho, hc, _⟩ := (hiff pos).mp rfl
      have key : ∀ (pre : List Opt) (os : List Opt), (∀ x ∈ os, OptOk x) → (∀ x ∈ pre, OptOk x ∧ x.1 ≠ code) →
          encs os = encs pre ++ enc o ++ rest → ∃ x ∈ os, x.1 = code := by
        intro pre
        induction pre with
        | nil =>
          intro os hos _ he
          cases os with
          | nil =>
            have := congrArg List.length he
            simp [encs, length_enc] at this
            omega
          | cons y ys =>
            have s1 := split_enc y (encs ys) (hos y (by simp))
            have s2 := split_enc o rest ho
            have e1 : encs (y :: ys) = enc y ++ encs ys := by simp [encs]
            have e2 : encs [] ++ enc o ++ rest = enc o ++ rest := by simp [encs]
            rw [← e1, he, e2, s2] at s1
            injection s1 with s1
            injection s1 with s1 _
            exact ⟨y, by simp, by rw [← s1]; exact hc⟩
        | cons z zs ih =>
          intro os hos hpre he
          have e2 : encs (z :: zs) ++ enc o ++ rest = enc z ++ (encs zs ++ enc o ++ rest) := by simp [encs]
          cases os with
          | nil =>
            have := congrArg List.length he
            rw [e2] at this
            simp [encs, length_enc] at this
            omega
          | cons y ys =>
            have s1 := split_enc y (encs ys) (hos y (by simp))
            have s2 := split_enc z (encs zs ++ enc o ++ rest) (hpre z (by simp)).1
            have e1 : encs (y :: ys) = enc y ++ encs ys := by simp [encs]
            rw [← e1, he, e2, s2] at s1
            injection s1 with s1
            injection s1 with _ s1
            obtain ⟨x, hx, hxc⟩ := ih ys (fun x hx => hos x (by simp [hx])) (fun x hx => hpre x (by simp [hx])) s1.symm
            exact ⟨x, by simp [hx], hxc⟩
      obtain ⟨x, hx, hxc⟩ := key pre os hok hp he
      exact hno x hx hxc
  · intro pre o post he hc hp
    have henc : encs os = encs pre ++ enc o ++ encs post := by rw [he]; simp [encs]
    constructor
    · obtain ⟨r, hr, hiff⟩ := C25_get_first (encs os) code
      rw [hr]
      congr 1
      exact (hiff _).mpr ⟨pre, o, encs post, henc, fun x hx => ⟨hok x (by rw [he]; simp [hx]), hp x hx⟩, hok o (by rw [he]; simp), hc, rfl⟩
    · rw [henc, List.append_assoc, List.drop_left]

/-! ## Non-vacuity -/

example : addOption [] 10 [1, 2, 3] = .ok [0, 10, 0, 3, 1, 2, 3] := by decide
example : getOption [0, 3, 0, 1, 9, 0, 10, 0, 3, 1, 2, 3] 10 none = .ok (some 5) := by decide
example : ecsParse [0, 1, 20, 0, 192, 168, 255] = .ok ⟨1, 20, 0, [192, 168, 240, 0, 0, 0, 0, 0, 0, 0, 0, 0, 0, 0, 0, 0]⟩ := by decide
example : alignmentSize 100 11 128 = some 13 := by decide
example : wholeRcode 1 7 = 23 := by decide
example : keepaliveWrite [0, 0] 300 = .ok [1, 44] := by decide
example : cookieParse [1, 2, 3, 4, 5, 6, 7, 8] = .ok ([1, 2, 3, 4, 5, 6, 7, 8], []) := by decide

end Knot
