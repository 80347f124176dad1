import Verif.Kasp.Model
import Verif.Lmdb.Props
/-!
# C42: stored parameters of DNSSEC keys
-/
namespace Knot.Kasp
open WireCtx Lmdb

/-- All values are in the range of their types. -/
def Params.Legal (p : Params) : Prop :=
  p.keytag < 2 ^ 16 ∧ p.algorithm < 2 ^ 8 ∧
  p.publicKey.length < 2 ^ 63 ∧ p.created < 2 ^ 64 ∧ p.preActive < 2 ^ 64 ∧ p.publish < 2 ^ 64 ∧
  p.ready < 2 ^ 64 ∧ p.active < 2 ^ 64 ∧ p.retireActive < 2 ^ 64 ∧ p.retire < 2 ^ 64 ∧
  p.postActive < 2 ^ 64 ∧ p.revoke < 2 ^ 64 ∧ p.remove < 2 ^ 64

def flagsOf (p : Params) : Nat :=
  2 + (if p.isKsk then 1 else 0) + (if p.isPubOnly then 4 else 0) + (if p.isCsk then 8 else 0)

def nums (p : Params) : List Item :=
  [.num 8 p.publicKey.length, .num 8 8, .num 2 p.keytag, .num 1 p.algorithm, .num 1 (flagsOf p),
    .num 8 p.created, .num 8 p.preActive, .num 8 p.publish, .num 8 p.ready, .num 8 p.active,
    .num 8 p.retireActive, .num 8 p.retire, .num 8 p.postActive, .num 8 p.remove]

theorem flags_lt (p : Params) : flagsOf p < 256 := by
  unfold flagsOf
  cases p.isKsk <;> cases p.isPubOnly <;> cases p.isCsk <;> decide

theorem nums_legal {p : Params} (h : p.Legal) : ∀ i ∈ nums p, i.Legal := by
  obtain ⟨h1, h2, h3, h4, h5, h6, h7, h8, h9, h10, h11, h12, h13⟩ := h
  intro i hi
  simp only [nums, List.mem_cons, List.not_mem_nil, or_false] at hi
  have hf := flags_lt p
  have hk : p.publicKey.length < 2 ^ 64 := by omega
  rcases hi with rfl | rfl | rfl | rfl | rfl | rfl | rfl | rfl | rfl | rfl | rfl | rfl | rfl | rfl <;>
    first
    | exact ⟨by decide, by decide⟩
    | exact ⟨by decide, by assumption⟩

theorem nums_ne (p : Params) : ∀ i ∈ nums p, i.stored ≠ [] := by
  intro i hi
  simp only [nums, List.mem_cons, List.not_mem_nil, or_false] at hi
  rcases hi with rfl | rfl | rfl | rfl | rfl | rfl | rfl | rfl | rfl | rfl | rfl | rfl | rfl | rfl <;>
    · intro h; have := congrArg List.length h; simp [Item.stored, length_bigEndian] at this

theorem serialize_eq {p : Params} (h : p.Legal) :
    serialize p = .ok (stored (nums p) ++ (p.publicKey ++ bigEndian 8 p.revoke)) := by
  unfold serialize
  have hn := nums_legal h
  rw [makeKey_eq (is := nums p ++ [.octets p.publicKey, .num 8 p.revoke])]
  · simp [stored, Item.stored]
  · exact ⟨.l, .l, .h, .b, .b, .l, .l, .l, .l, .l, .l, .l, .l, .l, .d, .l, trivial⟩
  · intro i hi
    rcases List.mem_append.mp hi with hi | hi
    · exact hn i hi
    · simp only [List.mem_cons, List.not_mem_nil, or_false] at hi
      rcases hi with rfl | rfl
      · trivial
      · exact ⟨by decide, h.2.2.2.2.2.2.2.2.2.2.2.1⟩

theorem deliver_nums {p : Params} {vs : List Val} (h : DeliverAll (nums p) vs) :
    vs = [.num p.publicKey.length, .num 8, .num p.keytag, .num p.algorithm, .num (flagsOf p),
    .num p.created, .num p.preActive, .num p.publish, .num p.ready, .num p.active,
    .num p.retireActive, .num p.retire, .num p.postActive, .num p.remove] := by
  have step : ∀ {w v : Nat} {is : List Item} {vs : List Val}, DeliverAll (.num w v :: is) vs →
      ∃ t, vs = .num v :: t ∧ DeliverAll is t := by
    intro w v is vs h
    cases vs with
    | nil => exact h.elim
    | cons x t =>
      obtain ⟨h1, h2⟩ := h
      cases h1
      exact ⟨t, rfl, h2⟩
  unfold nums at h
  obtain ⟨_, rfl, h1⟩ := step h
  obtain ⟨_, rfl, h2⟩ := step h1
  obtain ⟨_, rfl, h3⟩ := step h2
  obtain ⟨_, rfl, h4⟩ := step h3
  obtain ⟨_, rfl, h5⟩ := step h4
  obtain ⟨_, rfl, h6⟩ := step h5
  obtain ⟨_, rfl, h7⟩ := step h6
  obtain ⟨_, rfl, h8⟩ := step h7
  obtain ⟨_, rfl, h9⟩ := step h8
  obtain ⟨_, rfl, h10⟩ := step h9
  obtain ⟨_, rfl, h11⟩ := step h10
  obtain ⟨_, rfl, h12⟩ := step h11
  obtain ⟨_, rfl, h13⟩ := step h12
  obtain ⟨t, rfl, h14⟩ := step h13
  cases t with
  | nil => rfl
  | cons => exact h14.elim

theorem readU64_at (pre : Bytes) (v : Nat) (post : Bytes) (h : v < 2 ^ 64) :
    readU64 (pre ++ (bigEndian 8 v ++ post)) pre.length = .ok v := by
  unfold readU64
  rw [load_ok _ _ _ (by simp [length_bigEndian]), List.drop_left,
    List.take_left' (length_bigEndian 8 v)]
  simp only [Res.bind_ok]
  rw [beVal_bigEndian h]

/-- The values the reader delivers: the numbers, and the public key unless it is empty. -/
theorem unmake_params {p : Params} (h : p.Legal) (r : Bytes) :
    ∃ vs, unmakeKey (stored (nums p) ++ (p.publicKey ++ r)) ((stored (nums p)).length + p.publicKey.length)
      [.l true, .l true, .h true, .b true, .b true, .l true, .l true, .l true, .l true, .l true, .l true,
       .l true, .l true, .l true, .d true p.publicKey.length] = .ok (vs, true) ∧
      ∃ t, vs = [.num p.publicKey.length, .num 8, .num p.keytag, .num p.algorithm, .num (flagsOf p),
        .num p.created, .num p.preActive, .num p.publish, .num p.ready, .num p.active,
        .num p.retireActive, .num p.retire, .num p.postActive, .num p.remove] ++ t ∧
        ((p.publicKey = [] ∧ t = []) ∨ t = [.data p.publicKey]) := by
  obtain ⟨vs, h1, h2⟩ := getFmts_midR (nums_legal h) (nums_ne p) [] p.publicKey r
  have hvs := deliver_nums h2
  have split : ∀ (fs gs : List Fmt) (c c' : Ctx) (vs : List Val), getFmts c fs = .ok (vs, c') →
      vs.length = fs.length →
      getFmts c (fs ++ gs) = (do let (ws, c'') ← getFmts c' gs; .ok (vs ++ ws, c'')) := by
    intro fs gs
    induction fs with
    | nil =>
      intro c c' vs h _
      simp only [getFmts, Res.ok.injEq, Prod.mk.injEq] at h
      obtain ⟨rfl, rfl⟩ := h
      simp only [List.nil_append]
      cases getFmts c gs <;> rfl
    | cons f fs ih =>
      intro c c' vs h hl
      simp only [getFmts] at h
      split at h
      · rename_i hc
        cases hg : getFmt c f with
        | ok vc =>
          rw [hg] at h
          simp only [Res.bind_ok] at h
          cases hg2 : getFmts vc.2 fs with
          | ok q =>
            rw [hg2] at h
            simp only [Res.bind_ok, Res.ok.injEq, Prod.mk.injEq] at h
            obtain ⟨rfl, rfl⟩ := h
            simp only [List.length_cons, Nat.add_right_cancel_iff] at hl
            simp only [List.cons_append, getFmts]
            rw [if_pos hc, hg]
            simp only [Res.bind_ok]
            rw [ih vc.2 q.2 q.1 hg2 hl]
            cases getFmts q.2 gs <;> rfl
          | err => rw [hg2] at h; cases h
          | ub => rw [hg2] at h; cases h
        | err => rw [hg] at h; cases h
        | ub => rw [hg] at h; cases h
      · simp only [Res.ok.injEq, Prod.mk.injEq] at h
        obtain ⟨rfl, _⟩ := h
        simp at hl
  have hs := split ((nums p).map Item.fmt) [.d true p.publicKey.length] _ _ vs h1 (by rw [hvs]; rfl)
  have hc : initConst (stored (nums p) ++ (p.publicKey ++ r))
      ((stored (nums p)).length + p.publicKey.length) = midR [] (stored (nums p) ++ p.publicKey) r := by
    simp [midR, initConst, init]
  have hfmt : (nums p).map Item.fmt ++ [Fmt.d true p.publicKey.length] = [.l true, .l true, .h true, .b true,
      .b true, .l true, .l true, .l true, .l true, .l true, .l true, .l true, .l true, .l true,
      .d true p.publicKey.length] := rfl
  unfold unmakeKey
  rw [hc, ← hfmt, hs]
  by_cases hk : p.publicKey = []
  · refine ⟨vs, ?_, [], by rw [hvs]; rfl, .inl ⟨hk, rfl⟩⟩
    simp [hk, getFmts, midR, available]
  · refine ⟨vs ++ [.data p.publicKey], ?_, [.data p.publicKey], by rw [hvs], .inr rfl⟩
    have hp := List.length_pos_iff.mpr hk
    obtain ⟨v, h3, h4⟩ := getFmt_midR (i := .octets p.publicKey) trivial ([] ++ stored (nums p)) [] r
    cases h4
    simp only [Item.stored, List.append_nil, Item.fmt] at h3
    simp only [getFmts]
    rw [if_pos (by simp [midR, available]; omega), h3]
    simp [midR, available]

theorem flags_bits (p : Params) : decide (flagsOf p % 2 = 1) = p.isKsk ∧
    decide (flagsOf p / 8 % 2 = 1) = p.isCsk ∧ decide (flagsOf p / 4 % 2 = 1) = p.isPubOnly ∧
    flagsOf p / 2 % 2 = 1 := by
  unfold flagsOf
  cases p.isKsk <;> cases p.isPubOnly <;> cases p.isCsk <;> decide

theorem numAt_append {l t : List Val} {i v : Nat} (h : l[i]? = some (.num v)) :
    numAt (l ++ t) i = .ok v := by
  unfold numAt
  have h2 : i < l.length := by
    rcases Nat.lt_or_ge i l.length with h2 | h2
    · exact h2
    · rw [List.getElem?_eq_none h2] at h; cases h
  rw [List.getElem?_append_left h2, h]

theorem construct_ok (p : Params) (vs : List Val)
    (n2 : numAt vs 2 = .ok p.keytag) (n3 : numAt vs 3 = .ok p.algorithm)
    (n5 : numAt vs 5 = .ok p.created) (n6 : numAt vs 6 = .ok p.preActive)
    (n7 : numAt vs 7 = .ok p.publish) (n8 : numAt vs 8 = .ok p.ready)
    (n9 : numAt vs 9 = .ok p.active) (n10 : numAt vs 10 = .ok p.retireActive)
    (n11 : numAt vs 11 = .ok p.retire) (n12 : numAt vs 12 = .ok p.postActive)
    (n13 : numAt vs 13 = .ok p.remove) (hdata : dataAt vs 14 p.publicKey.length = .ok p.publicKey) :
    construct vs p.publicKey.length (flagsOf p) p.revoke =
      .ok (if p.isCsk ∧ ¬ p.isKsk then none else some p) := by
  obtain ⟨hb1, hb2, hb3, hb4⟩ := flags_bits p
  unfold construct
  rw [n2, n3, n5, n6, n7, n8, n9, n10, n11, n12, n13, hdata]
  simp only [Res.bind_ok, hb1, hb2, hb3, hb4, true_and]
  have e : (⟨p.isKsk, p.isCsk, p.isPubOnly, p.keytag, p.algorithm, p.publicKey, p.created,
      p.preActive, p.publish, p.ready, p.active, p.retireActive, p.retire, p.postActive, p.revoke,
      p.remove⟩ : Params) = p := rfl
  rw [e]
  cases p.isKsk <;> cases p.isCsk <;> simp

theorem deserialize_eq (val : Bytes) (keylen future n : Nat) (vs : List Val) (flags revoke : Nat)
    (hlen : ¬ val.length < 16)
    (hr0 : readU64 val 0 = .ok keylen) (hr8 : readU64 val 8 = .ok future) (hf : 8 ≤ future)
    (hn : sizeSub val.length future = n)
    (hu : unmakeKey val n
      [.l true, .l true, .h true, .b true, .b true, .l true, .l true, .l true, .l true, .l true, .l true,
       .l true, .l true, .l true, .d true keylen] = .ok (vs, true))
    (h4 : numAt vs 4 = .ok flags)
    (hrr : readU64 val (val.length - future) = .ok revoke) :
    deserialize val = construct vs keylen flags revoke := by
  unfold deserialize
  rw [if_neg hlen, hr0, Res.bind_ok, hr8, Res.bind_ok, hn, hu, Res.bind_ok, if_pos rfl]
  simp only []
  rw [h4, Res.bind_ok, if_neg (by omega), if_pos (by omega), hrr, Res.bind_ok]

theorem deserialize_tail (p : Params) (val : Bytes) (t : List Val) (future n : Nat)
    (hlen : ¬ val.length < 16)
    (hr0 : readU64 val 0 = .ok p.publicKey.length) (hr8 : readU64 val 8 = .ok future) (hf : 8 ≤ future)
    (hn : sizeSub val.length future = n)
    (hu : unmakeKey val n
      [.l true, .l true, .h true, .b true, .b true, .l true, .l true, .l true, .l true, .l true, .l true,
       .l true, .l true, .l true, .d true p.publicKey.length] =
      .ok ([.num p.publicKey.length, .num 8, .num p.keytag, .num p.algorithm, .num (flagsOf p),
        .num p.created, .num p.preActive, .num p.publish, .num p.ready, .num p.active,
        .num p.retireActive, .num p.retire, .num p.postActive, .num p.remove] ++ t, true))
    (hrr : readU64 val (val.length - future) = .ok p.revoke)
    (ht : (p.publicKey = [] ∧ t = []) ∨ t = [.data p.publicKey]) :
    deserialize val = .ok (if p.isCsk ∧ ¬ p.isKsk then none else some p) := by
  rw [deserialize_eq val _ _ _ _ _ _ hlen hr0 hr8 hf hn hu (numAt_append rfl) hrr]
  apply construct_ok
  iterate 11 exact numAt_append rfl
  rcases ht with ⟨h1, rfl⟩ | rfl
  · simp [dataAt, h1]
  · simp [dataAt]

end Knot.Kasp

namespace Knot
open Kasp Lmdb

/-- C42. Parameters of a key stored in the database are read back unchanged, for all values of
the timers, all flags and all public keys; only a combined key that is no key-signing key is
refused on reading. -/
theorem C42_roundtrip (p : Params) (h : p.Legal) :
    ∃ val, serialize p = .ok val ∧
      deserialize val = .ok (if p.isCsk ∧ ¬ p.isKsk then none else some p) := by
  refine ⟨_, serialize_eq h, ?_⟩
  obtain ⟨vs, hu, t, rfl, ht⟩ := unmake_params h (bigEndian 8 p.revoke)
  have hk : p.publicKey.length < 2 ^ 64 := by have := h.2.2.1; omega
  have hrev : p.revoke < 2 ^ 64 := h.2.2.2.2.2.2.2.2.2.2.2.1
  have hslen : (stored (nums p)).length = 92 := by
    simp [stored, nums, Item.stored, length_bigEndian]
  have hlen : (stored (nums p) ++ (p.publicKey ++ bigEndian 8 p.revoke)).length =
      92 + p.publicKey.length + 8 := by
    simp only [List.length_append, hslen, length_bigEndian]; omega
  have hr0 : readU64 (stored (nums p) ++ (p.publicKey ++ bigEndian 8 p.revoke)) 0 =
      .ok p.publicKey.length := by
    have := readU64_at [] p.publicKey.length ((nums p).tail.flatMap Item.stored ++
      (p.publicKey ++ bigEndian 8 p.revoke)) hk
    simp only [List.length_nil, List.nil_append] at this
    rw [← this]
    simp [stored, nums, Item.stored]
  have hr8 : readU64 (stored (nums p) ++ (p.publicKey ++ bigEndian 8 p.revoke)) 8 = .ok 8 := by
    have := readU64_at (bigEndian 8 p.publicKey.length) 8 ((nums p).tail.tail.flatMap Item.stored ++
      (p.publicKey ++ bigEndian 8 p.revoke)) (by decide)
    rw [length_bigEndian] at this
    rw [← this]
    simp [stored, nums, Item.stored]
  have hrr : readU64 (stored (nums p) ++ (p.publicKey ++ bigEndian 8 p.revoke))
      ((stored (nums p) ++ (p.publicKey ++ bigEndian 8 p.revoke)).length - 8) = .ok p.revoke := by
    have := readU64_at (stored (nums p) ++ p.publicKey) p.revoke [] hrev
    simp only [List.append_nil, List.append_assoc] at this
    have hp : (stored (nums p) ++ (p.publicKey ++ bigEndian 8 p.revoke)).length - 8 =
        (stored (nums p) ++ p.publicKey).length := by
      rw [hlen, List.length_append, hslen]; omega
    rw [hp]; exact this
  have hsz : sizeSub (stored (nums p) ++ (p.publicKey ++ bigEndian 8 p.revoke)).length 8 =
      (stored (nums p)).length + p.publicKey.length := by
    unfold sizeSub
    rw [hlen, hslen]
    have := h.2.2.1
    omega
  exact deserialize_tail p _ t 8 _ (by rw [hlen]; omega) hr0 hr8 (Nat.le_refl 8) hsz hu hrr ht

/-- C42. The database keys of key parameters (class, zone, identifier) of two keys are equal only
if zone and identifier are, and those of a zone are exactly the ones iterated over by the prefix
(class, zone). -/
theorem C42_zone_keys (cls : Nat) (hc : cls < 256) (z z' : Dname.Name) (hz : Dname.Valid z)
    (hz' : Dname.Valid z') (i : List UInt8) (hi : 0 ∉ i) :
    stored [.num 1 cls, .name z] <+: stored [.num 1 cls, .name z', .text i] ↔ z = z' := by
  rw [C41_prefix]
  · simp
  · intro x hx
    simp only [List.mem_cons, List.not_mem_nil, or_false] at hx
    rcases hx with rfl | rfl
    · exact ⟨by decide, hc⟩
    · exact hz
  · intro x hx
    simp only [List.mem_cons, List.not_mem_nil, or_false] at hx
    rcases hx with rfl | rfl | rfl
    · exact ⟨by decide, hc⟩
    · exact hz'
    · exact hi
  · simp [Item.fmt]

/-- Parameters of an active key-signing key. -/
example : (⟨true, false, false, 12345, 13, [1, 2, 3], 1, 0, 2, 3, 4, 0, 2 ^ 64 - 1, 0, 0, 0⟩ : Params).Legal := by
  refine ⟨?_, ?_, ?_, ?_, ?_, ?_, ?_, ?_, ?_, ?_, ?_, ?_, ?_⟩ <;> simp

end Knot
