import Verif.Lmdb.Spec
import Verif.Dname.Lemmas
import Verif.WireCtx.Props
namespace Knot.Lmdb
open WireCtx

theorem bigEndian_eq (w v : Nat) : bigEndian w v = beBytes w v := by
  induction w generalizing v with
  | zero => rfl
  | succ w ih =>
    rw [bigEndian, ih, beBytes_append w 1]
    simp [beBytes]

theorem length_bigEndian (w v : Nat) : (bigEndian w v).length = w := by
  rw [bigEndian_eq, length_beBytes]

theorem beVal_bigEndian {w v : Nat} (h : v < 256 ^ w) : beVal (bigEndian w v) = v := by
  rw [bigEndian_eq, beVal_beBytes, Nat.mod_eq_of_lt h]

theorem strlen_eq (t r : List UInt8) (h : 0 ∉ t) : strlen (t ++ 0 :: r) = .ok t.length := by
  induction t with
  | nil => rfl
  | cons c t ih =>
    simp only [List.mem_cons, not_or] at h
    simp only [List.cons_append, strlen]
    rw [if_neg (fun e => h.1 e.symm), ih h.2]; rfl

theorem argSize_eq {i : Item} {a : Arg} (hp : Passes i a) (hl : i.Legal) :
    argSize a = .ok i.stored.length := by
  cases hp with
  | b => simp [argSize, Item.stored, length_bigEndian]
  | h => simp [argSize, Item.stored, length_bigEndian]
  | i => simp [argSize, Item.stored, length_bigEndian]
  | l => simp [argSize, Item.stored, length_bigEndian]
  | s => simp only [argSize]; rw [strlen_eq _ _ hl]; simp [Item.stored]
  | n => simp only [argSize]; rw [Dname.size_wire _ hl.1]; simp [Item.stored, Dname.wire_length]
  | d => rfl

theorem keySize_eq {is : List Item} {as : List Arg} (hp : PassAll is as) (hl : ∀ i ∈ is, i.Legal) :
    keySize as = .ok (stored is).length := by
  induction is generalizing as with
  | nil => cases as with
    | nil => rfl
    | cons => exact hp.elim
  | cons i is ih => cases as with
    | nil => exact hp.elim
    | cons a as =>
      simp only [keySize]
      rw [argSize_eq hp.1 (hl i (by simp)), ih hp.2 (fun j hj => hl j (by simp [hj]))]
      simp [stored]

/-- A context in the middle of writing. -/
def mid (pre tail : Bytes) : Ctx := ⟨pre ++ tail, (pre ++ tail).length, pre.length, none, false⟩

theorem write_mid (pre tail d : Bytes) (h : d.length ≤ tail.length) :
    write (mid pre tail) d = .ok (mid (pre ++ d) (tail.drop d.length)) := by
  unfold write mid
  simp only [ne_eq, not_true_eq_false, if_false, canWrite, available, Bool.false_eq_true]
  split
  · rename_i h0
    have : d = [] := List.length_eq_zero_iff.mp h0
    subst this; simp
  · rw [if_neg (by simp; omega)]
    simp only
    rw [store_ok _ _ _ (by simp; omega)]
    simp only [Res.bind_ok, Res.ok.injEq, Ctx.mk.injEq, and_true]
    refine ⟨?_, ?_, ?_⟩
    · simp [List.drop_append]
    · simp; omega
    · simp

theorem putArg_mid {i : Item} {a : Arg} (hp : Passes i a) (hl : i.Legal) (pre tail : Bytes)
    (h : i.stored.length ≤ tail.length) :
    putArg (mid pre tail) a = .ok (mid (pre ++ i.stored) (tail.drop i.stored.length)) := by
  cases hp with
  | b => simp only [Item.stored] at h ⊢; simp only [bigEndian_eq] at h ⊢; exact write_mid pre tail _ h
  | h => simp only [Item.stored] at h ⊢; simp only [bigEndian_eq] at h ⊢; exact write_mid pre tail _ h
  | i => simp only [Item.stored] at h ⊢; simp only [bigEndian_eq] at h ⊢; exact write_mid pre tail _ h
  | l => simp only [Item.stored] at h ⊢; simp only [bigEndian_eq] at h ⊢; exact write_mid pre tail _ h
  | @s t r =>
    simp only [putArg]
    rw [strlen_eq _ _ hl]
    simp only [Res.bind_ok, fetch]
    rw [if_pos (by simp)]
    have : (t ++ 0 :: r).take (t.length + 1) = t ++ [0] := by
      rw [show t ++ 0 :: r = (t ++ [0]) ++ r by simp, List.take_left' (by simp)]
    simp only [Res.bind_ok, this]
    exact write_mid pre tail _ h
  | @n x r =>
    simp only [putArg]
    rw [Dname.size_wire _ hl.1]
    simp only [Res.bind_ok, fetch]
    rw [if_pos (by simp [Dname.wire_length]), List.take_left' (Dname.wire_length x)]
    exact write_mid pre tail _ h
  | d => exact write_mid pre tail _ h

theorem putArgs_mid {is : List Item} {as : List Arg} (hp : PassAll is as) (hl : ∀ i ∈ is, i.Legal)
    (pre tail : Bytes) (h : (stored is).length ≤ tail.length) :
    putArgs (mid pre tail) as = .ok (mid (pre ++ stored is) (tail.drop (stored is).length)) := by
  induction is generalizing as pre tail with
  | nil => cases as with
    | nil => simp [putArgs, stored]
    | cons => exact hp.elim
  | cons i is ih => cases as with
    | nil => exact hp.elim
    | cons a as =>
      have hlen : (stored (i :: is)).length = i.stored.length + (stored is).length := by simp [stored]
      simp only [putArgs]
      rw [putArg_mid hp.1 (hl i (by simp)) pre tail (by omega)]
      simp only [Res.bind_ok]
      rw [ih hp.2 (fun j hj => hl j (by simp [hj])) _ _ (by simp; omega)]
      simp [stored, List.drop_drop]

theorem makeKey_eq {is : List Item} {as : List Arg} (hp : PassAll is as) (hl : ∀ i ∈ is, i.Legal) :
    makeKey as = .ok (stored is) := by
  unfold makeKey
  rw [keySize_eq hp hl]
  simp only [Res.bind_ok]
  split
  · rename_i h; rw [List.length_eq_zero_iff.mp h]
  · simp only [makeKeyPart]
    have h := putArgs_mid hp hl [] (List.replicate (stored is).length 0) (by simp)
    simp only [mid, List.nil_append] at h
    rw [show init (List.replicate (stored is).length 0)
        (List.replicate (stored is).length (0 : UInt8)).length =
      ⟨List.replicate (stored is).length 0, (List.replicate (stored is).length (0 : UInt8)).length,
        ([] : Bytes).length, none, false⟩ from rfl, h]
    simp

/-- A context in the middle of reading: `post` is what is left of the record, `r` lies behind. -/
def midR (pre post r : Bytes) : Ctx := ⟨pre ++ (post ++ r), pre.length + post.length, pre.length, none, true⟩

theorem readU_midR (pre d post r : Bytes) :
    readU (midR pre (d ++ post) r) d.length = .ok (beVal d, midR (pre ++ d) post r) := by
  unfold readU WireCtx.read midR
  simp only [ne_eq, not_true_eq_false, if_false, canRead, available]
  rw [if_neg (by simp)]
  simp only
  rw [load_ok _ _ _ (by simp), List.drop_left]
  have : (d ++ post ++ r).take d.length = d := by rw [List.append_assoc, List.take_left]
  simp only [Res.bind_ok, this]
  simp [Nat.add_assoc]

theorem skip_midR (pre d post r : Bytes) :
    skip (midR pre (d ++ post) r) (d.length : Int) = midR (pre ++ d) post r := by
  unfold skip midR
  simp only [ne_eq, not_true_eq_false, if_false, available]
  rw [if_pos (by omega), if_neg (by simp)]
  simp [Nat.add_assoc]

theorem getFmt_midR {i : Item} (hl : i.Legal) (pre post r : Bytes) :
    ∃ v, getFmt (midR pre (i.stored ++ post) r) i.fmt = .ok (v, midR (pre ++ i.stored) post r) ∧
      Delivers i v := by
  cases i with
  | num w v =>
    obtain ⟨hw, hv⟩ := hl
    refine ⟨.num v, ?_, .num⟩
    have h := readU_midR pre (bigEndian w v) post r
    rw [length_bigEndian, beVal_bigEndian hv] at h
    rcases hw with rfl | rfl | rfl | rfl <;>
      (simp only [Item.fmt, Item.stored, getFmt, getNum]; simp [h])
  | text t =>
    have hd : (midR pre ((t ++ [0]) ++ post) r).mem.drop (midR pre ((t ++ [0]) ++ post) r).pos
        = t ++ 0 :: (post ++ r) := by
      simp [midR]
    refine ⟨.ptr (t ++ 0 :: (post ++ r)), ?_, .text⟩
    simp only [Item.fmt, Item.stored, getFmt, ptrVal, hd]
    rw [strlen_eq _ _ hl]
    have h := skip_midR pre (t ++ [0]) post r
    simp only [Res.bind_ok, if_true]
    rw [← h]; simp
  | name x =>
    have hd : (midR pre (Dname.wire x ++ post) r).mem.drop (midR pre (Dname.wire x ++ post) r).pos
        = Dname.wire x ++ (post ++ r) := by
      simp [midR]
    refine ⟨.ptr (Dname.wire x ++ (post ++ r)), ?_, .name⟩
    simp only [Item.fmt, Item.stored, getFmt, ptrVal, hd]
    rw [Dname.size_wire _ hl.1]
    have h := skip_midR pre (Dname.wire x) post r
    simp only [Res.bind_ok, if_true]
    rw [← h, Dname.wire_length]
  | octets d =>
    refine ⟨.data d, ?_, .octets⟩
    simp only [Item.fmt, Item.stored, getFmt, if_true]
    have hld : load (midR pre (d ++ post) r).mem (midR pre (d ++ post) r).pos d.length = .ok d := by
      simp only [midR]
      rw [load_ok _ _ _ (by simp), List.drop_left, List.append_assoc, List.take_left]
    rw [hld]
    simp only [Res.bind_ok]
    rw [skip_midR]

/-- The parts of the record a field has. -/
theorem getFmts_midR {is : List Item} (hl : ∀ i ∈ is, i.Legal) (hne : ∀ i ∈ is, i.stored ≠ [])
    (pre post r : Bytes) :
    ∃ vs, getFmts (midR pre (stored is ++ post) r) (is.map Item.fmt) =
      .ok (vs, midR (pre ++ stored is) post r) ∧ DeliverAll is vs := by
  induction is generalizing pre with
  | nil => exact ⟨[], by simp [getFmts, stored], trivial⟩
  | cons i is ih =>
    obtain ⟨v, h1, h2⟩ := getFmt_midR (hl i (by simp)) pre (stored is ++ post) r
    obtain ⟨vs, h3, h4⟩ := ih (fun j hj => hl j (by simp [hj])) (fun j hj => hne j (by simp [hj]))
      (pre ++ i.stored)
    refine ⟨v :: vs, ?_, h2, h4⟩
    have hs : stored (i :: is) = i.stored ++ stored is := by simp [stored]
    have hp := List.length_pos_iff.mpr (hne i (by simp))
    simp only [List.map_cons, getFmts, hs, List.append_assoc]
    rw [if_pos (by simp [midR, available]; omega), h1]
    simp only [Res.bind_ok]
    rw [h3]
    simp

theorem getFmt_unwanted {i : Item} (hl : i.Legal) (pre post r : Bytes) :
    getFmt (midR pre (i.stored ++ post) r) i.fmt.unwanted =
      .ok (.skip, midR (pre ++ i.stored) post r) := by
  have h := skip_midR pre i.stored post r
  cases i with
  | num w v =>
    obtain ⟨hw, hv⟩ := hl
    simp only [Item.stored, length_bigEndian] at h ⊢
    rcases hw with rfl | rfl | rfl | rfl <;>
      (simp only [Item.fmt, getFmt, getNum]; simp [Fmt.unwanted]; exact h)
  | text t =>
    have hd : (midR pre ((t ++ [0]) ++ post) r).mem.drop (midR pre ((t ++ [0]) ++ post) r).pos
        = t ++ 0 :: (post ++ r) := by
      simp [midR]
    simp only [Item.fmt, Fmt.unwanted, Item.stored, getFmt, ptrVal, hd] at h ⊢
    rw [strlen_eq _ _ hl]
    simp only [Res.bind_ok]
    rw [← h]; simp
  | name x =>
    have hd : (midR pre (Dname.wire x ++ post) r).mem.drop (midR pre (Dname.wire x ++ post) r).pos
        = Dname.wire x ++ (post ++ r) := by
      simp [midR]
    simp only [Item.fmt, Fmt.unwanted, Item.stored, getFmt, ptrVal, hd] at h ⊢
    rw [Dname.size_wire _ hl.1]
    simp only [Res.bind_ok]
    rw [← h, Dname.wire_length]
    simp
  | octets d =>
    simp only [Item.fmt, Fmt.unwanted, Item.stored, getFmt] at h ⊢
    rw [← h]; simp

theorem getFmts_select {ps : List (Item × Bool)} (hl : ∀ p ∈ ps, p.1.Legal)
    (hne : ∀ p ∈ ps, p.1.stored ≠ []) (pre post r : Bytes) :
    ∃ vs, getFmts (midR pre (stored (ps.map Prod.fst) ++ post) r) (ps.map selFmt) =
      .ok (vs, midR (pre ++ stored (ps.map Prod.fst)) post r) ∧ SelectAll ps vs := by
  induction ps generalizing pre with
  | nil => exact ⟨[], by simp [getFmts, stored], trivial⟩
  | cons p ps ih =>
    have h0 : ∃ v, getFmt (midR pre (p.1.stored ++ (stored (ps.map Prod.fst) ++ post)) r) (selFmt p) =
        .ok (v, midR (pre ++ p.1.stored) (stored (ps.map Prod.fst) ++ post) r) ∧
        (if p.2 then Delivers p.1 v else v = .skip) := by
      unfold selFmt
      cases p.2 with
      | true => exact getFmt_midR (hl p (by simp)) pre _ r
      | false => exact ⟨.skip, getFmt_unwanted (hl p (by simp)) pre _ r, rfl⟩
    obtain ⟨v, h1, h2⟩ := h0
    obtain ⟨vs, h3, h4⟩ := ih (fun j hj => hl j (by simp [hj])) (fun j hj => hne j (by simp [hj]))
      (pre ++ p.1.stored)
    refine ⟨v :: vs, ?_, h2, h4⟩
    have hs : stored ((p :: ps).map Prod.fst) = p.1.stored ++ stored (ps.map Prod.fst) := by simp [stored]
    have hp := List.length_pos_iff.mpr (hne p (by simp))
    simp only [List.map_cons, getFmts]
    rw [← List.map_cons, hs, List.append_assoc, if_pos (by simp [midR, available]; omega), h1]
    simp only [Res.bind_ok]
    rw [h3]
    simp

theorem item_prefix {i j : Item} (hi : i.Legal) (hj : j.Legal) (hf : i.fmt = j.fmt) {x y : Bytes}
    (h : i.stored ++ x = j.stored ++ y) : i = j ∧ x = y := by
  cases i with
  | num w v =>
    cases j with
    | num w' v' =>
      obtain ⟨hw, hv⟩ := hi
      obtain ⟨hw', hv'⟩ := hj
      have : w = w' := by
        revert hf
        rcases hw with rfl | rfl | rfl | rfl <;> rcases hw' with rfl | rfl | rfl | rfl <;>
          simp [Item.fmt]
      subst this
      have := List.append_inj h (by simp [Item.stored, length_bigEndian])
      have hb := congrArg beVal this.1
      simp only [Item.stored] at hb
      rw [beVal_bigEndian hv, beVal_bigEndian hv'] at hb
      exact ⟨by rw [hb], this.2⟩
    | text => obtain ⟨hw, _⟩ := hi; rcases hw with rfl | rfl | rfl | rfl <;> simp [Item.fmt] at hf
    | name => obtain ⟨hw, _⟩ := hi; rcases hw with rfl | rfl | rfl | rfl <;> simp [Item.fmt] at hf
    | octets => obtain ⟨hw, _⟩ := hi; rcases hw with rfl | rfl | rfl | rfl <;> simp [Item.fmt] at hf
  | text t =>
    cases j with
    | num => obtain ⟨hw, _⟩ := hj; rcases hw with rfl | rfl | rfl | rfl <;> simp [Item.fmt] at hf
    | text t' =>
      simp only [Item.stored, Item.Legal, List.append_assoc, List.singleton_append] at h hi hj
      induction t generalizing t' with
      | nil => cases t' with
        | nil => simp at h; exact ⟨rfl, h⟩
        | cons c t' => simp at h; simp [← h.1] at hj
      | cons c t ih => cases t' with
        | nil => simp at h; simp [h.1] at hi
        | cons c' t' =>
          simp only [List.cons_append, List.cons.injEq, List.mem_cons, not_or] at h hi hj
          obtain ⟨e, hx⟩ := ih hi.2 t' hj.2 rfl h.2
          injection e with e
          exact ⟨by rw [h.1, e], hx⟩
    | name => simp [Item.fmt] at hf
    | octets => simp [Item.fmt] at hf
  | name n =>
    cases j with
    | num => obtain ⟨hw, _⟩ := hj; rcases hw with rfl | rfl | rfl | rfl <;> simp [Item.fmt] at hf
    | text => simp [Item.fmt] at hf
    | name n' =>
      have e : n = n' := Dname.wire_inj hi.1 hj.1 h
      subst e
      exact ⟨rfl, List.append_cancel_left h⟩
    | octets => simp [Item.fmt] at hf
  | octets d =>
    cases j with
    | num => obtain ⟨hw, _⟩ := hj; rcases hw with rfl | rfl | rfl | rfl <;> simp [Item.fmt] at hf
    | text => simp [Item.fmt] at hf
    | name => simp [Item.fmt] at hf
    | octets d' =>
      simp only [Item.fmt, Fmt.d.injEq] at hf
      have := List.append_inj h hf.2
      simp only [Item.stored] at this
      exact ⟨by rw [this.1], this.2⟩

end Knot.Lmdb

namespace Knot
open Lmdb

/-- C41. The record made from any legal fields is exactly their stored forms one after another,
and the assertion in the code never fails. -/
theorem C41_make (is : List Item) (as : List Arg) (hp : PassAll is as) (hl : ∀ i ∈ is, i.Legal) :
    makeKey as = .ok (stored is) :=
  makeKey_eq hp hl

/-- C41. Reading the record with the matching format delivers every value and reports success;
nothing is read behind the record (`r` is whatever memory follows). -/
theorem C41_roundtrip (is : List Item) (hl : ∀ i ∈ is, i.Legal) (hne : ∀ i ∈ is, i.stored ≠ [])
    (r : List UInt8) :
    ∃ vs, unmakeKey (stored is ++ r) (stored is).length (is.map Item.fmt) = .ok (vs, true) ∧
      DeliverAll is vs := by
  obtain ⟨vs, h1, h2⟩ := getFmts_midR hl hne [] [] r
  refine ⟨vs, ?_, h2⟩
  unfold unmakeKey
  have : WireCtx.initConst (stored is ++ r) (stored is).length = midR [] (stored is ++ []) r := by
    simp [midR, WireCtx.initConst, WireCtx.init]
  rw [this, h1]
  simp [midR]

/-- C41. The same when only some of the values are asked for, and with octets left behind the
last field, which are an error. -/
theorem C41_select (ps : List (Item × Bool)) (hl : ∀ p ∈ ps, p.1.Legal) (hne : ∀ p ∈ ps, p.1.stored ≠ [])
    (extra r : List UInt8) :
    ∃ vs, unmakeKey (stored (ps.map Prod.fst) ++ extra ++ r) ((stored (ps.map Prod.fst)).length + extra.length)
      (ps.map selFmt) = .ok (vs, decide (extra = [])) ∧ SelectAll ps vs := by
  obtain ⟨vs, h1, h2⟩ := getFmts_select hl hne [] extra r
  refine ⟨vs, ?_, h2⟩
  unfold unmakeKey
  have : WireCtx.initConst (stored (ps.map Prod.fst) ++ extra ++ r)
      ((stored (ps.map Prod.fst)).length + extra.length) =
      midR [] (stored (ps.map Prod.fst) ++ extra) r := by
    simp [midR, WireCtx.initConst, WireCtx.init]
  rw [this, h1]
  cases extra <;> simp [midR, WireCtx.available]

/-- C41. Records of the same format are equal only if their fields are, and a record starts by
the octets of another only if its first fields are those of the other: iterating over a prefix
made from some leading fields meets exactly the records having them. -/
theorem C41_prefix (is js : List Item) (hi : ∀ i ∈ is, i.Legal) (hj : ∀ j ∈ js, j.Legal)
    (hf : (is.map Item.fmt) <+: (js.map Item.fmt)) :
    stored is <+: stored js ↔ is <+: js := by
  constructor
  · intro h
    induction is generalizing js with
    | nil => simp
    | cons i is ih =>
      cases js with
      | nil => simp at hf
      | cons j js =>
        simp only [List.map_cons, List.cons_prefix_cons] at hf
        obtain ⟨t, ht⟩ := h
        simp only [stored, List.flatMap_cons, List.append_assoc] at ht
        obtain ⟨rfl, e⟩ := item_prefix (hi i (by simp)) (hj j (by simp)) hf.1 ht
        rw [List.cons_prefix_cons]
        exact ⟨rfl, ih js (fun k hk => hi k (by simp [hk])) (fun k hk => hj k (by simp [hk])) hf.2 ⟨t, e⟩⟩
  · rintro ⟨t, rfl⟩
    exact ⟨stored t, by simp [stored]⟩

theorem C41_injective (is js : List Item) (hi : ∀ i ∈ is, i.Legal) (hj : ∀ j ∈ js, j.Legal)
    (hf : is.map Item.fmt = js.map Item.fmt) (h : stored is = stored js) : is = js := by
  have h1 := (C41_prefix is js hi hj (by rw [hf]; exact List.prefix_refl _)).mp (by rw [h]; exact List.prefix_refl _)
  have h2 : is.length = js.length := by have := congrArg List.length hf; simpa using this
  exact h1.eq_of_length h2

/-- C41 (finding). A record that ends between two fields is accepted although the remaining
values are not delivered: success does not mean that all the places have been filled. -/
theorem C41_short (is js : List Item) (hl : ∀ i ∈ is, i.Legal) (hne : ∀ i ∈ is, i.stored ≠ [])
    (hj : js ≠ []) :
    ∃ vs, unmakeKey (stored is) (stored is).length ((is ++ js).map Item.fmt) = .ok (vs, true) ∧
      DeliverAll is vs := by
  have gen : ∀ (is : List Item) (pre : List UInt8), (∀ i ∈ is, i.Legal) → (∀ i ∈ is, i.stored ≠ []) →
      ∃ vs, getFmts (midR pre (stored is) []) ((is ++ js).map Item.fmt) =
        .ok (vs, midR (pre ++ stored is) [] []) ∧ DeliverAll is vs := by
    intro is
    induction is with
    | nil =>
      intro pre _ _
      refine ⟨[], ?_, trivial⟩
      cases js with
      | nil => exact absurd rfl hj
      | cons j js => simp [getFmts, midR, stored, WireCtx.available]
    | cons i is ih =>
      intro pre hl hne
      obtain ⟨v, h1, h2⟩ := getFmt_midR (hl i (by simp)) pre (stored is) []
      obtain ⟨vs, h3, h4⟩ := ih (pre ++ i.stored) (fun j hj => hl j (by simp [hj]))
        (fun j hj => hne j (by simp [hj]))
      refine ⟨v :: vs, ?_, h2, h4⟩
      have hs : stored (i :: is) = i.stored ++ stored is := by simp [stored]
      have hp := List.length_pos_iff.mpr (hne i (by simp))
      simp only [List.cons_append, List.map_cons, getFmts, hs]
      rw [if_pos (by simp [midR, WireCtx.available]; omega), h1]
      simp only [Res.bind_ok]
      rw [h3]
      simp
  obtain ⟨vs, h1, h2⟩ := gen is [] hl hne
  refine ⟨vs, ?_, h2⟩
  unfold unmakeKey
  have : WireCtx.initConst (stored is) (stored is).length = midR [] (stored is) [] := by
    simp [midR, WireCtx.initConst, WireCtx.init]
  rw [this, h1]
  simp [midR]

/-- A record of which only the name is asked for. -/
example : let ps : List (Item × Bool) := [(.num 1 1, false), (.name [[99, 122]], true), (.text [97], false)]
    (∀ p ∈ ps, p.1.Legal) ∧ (∀ p ∈ ps, p.1.stored ≠ []) := by
  intro ps
  constructor <;> intro p hp <;> simp only [ps, List.mem_cons, List.not_mem_nil, or_false] at hp <;>
    rcases hp with rfl | rfl | rfl
  · exact ⟨by decide, by decide⟩
  · exact ⟨by decide, by decide⟩
  · exact (by decide : (0 : UInt8) ∉ [97])
  · decide
  · decide
  · decide

/-- A record of the key database: class, zone and key identifier. -/
example : let is : List Item := [.num 1 1, .name [[99, 122]], .text [97, 98]]
    (∀ i ∈ is, i.Legal) ∧ (∀ i ∈ is, i.stored ≠ []) ∧
    PassAll is [.b 1, .n [2, 99, 122, 0, 77], .s [97, 98, 0, 77]] ∧
    stored is = [1, 2, 99, 122, 0, 97, 98, 0] := by
  intro is
  refine ⟨?_, ?_, ⟨.b, Passes.n (x := [[99, 122]]) (r := [77]), Passes.s (t := [97, 98]) (r := [77]), trivial⟩,
    by decide⟩
  · intro i hi
    simp only [is, List.mem_cons, List.not_mem_nil, or_false] at hi
    rcases hi with rfl | rfl | rfl
    · exact ⟨by decide, by decide⟩
    · exact ⟨by decide, by decide⟩
    · simp [Item.Legal]
  · intro i hi
    simp only [is, List.mem_cons, List.not_mem_nil, or_false] at hi
    rcases hi with rfl | rfl | rfl <;> decide

end Knot
