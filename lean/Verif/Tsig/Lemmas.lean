import Verif.Tsig.Spec
import Verif.Dname.Lemmas
/-!
# TSIG: the fields of RDATA
-/
namespace Knot.Tsig
open Dname (Name wire Valid lowerName nameLen)
open WireCtx (Ctx beBytes beVal load store)

theorem beBytes_length (n v : Nat) : (beBytes n v).length = n := by
  induction n with
  | zero => rfl
  | succ n ih => simp [beBytes, ih]

theorem beVal_append (a b : Bytes) : beVal (a ++ b) = beVal a * 256 ^ b.length + beVal b := by
  induction a with
  | nil => simp [beVal]
  | cons x a ih =>
    simp only [List.cons_append, beVal, ih, List.length_append, Nat.pow_add, Nat.add_mul, Nat.mul_assoc]
    omega

theorem beVal_beBytes (n v : Nat) : beVal (beBytes n v) = v % 256 ^ n := by
  induction n with
  | zero => simp [beBytes, beVal, Nat.mod_one]
  | succ n ih =>
    simp only [beBytes, beVal, ih, beBytes_length]
    have : (UInt8.ofNat (v / 256 ^ n % 256)).toNat = v / 256 ^ n % 256 := by simp
    rw [this, Nat.pow_succ, Nat.mul_comm, Nat.mod_mul]
    omega

theorem beBytes_mod (n v : Nat) : beBytes n (v % 256 ^ n) = beBytes n v := by
  have key : ∀ k m v, k ≤ m → beBytes k (v % 256 ^ m) = beBytes k v := by
    intro k
    induction k with
    | zero => intros; rfl
    | succ k ih =>
      intro m v h
      simp only [beBytes]
      rw [ih m v (by omega)]
      congr 2
      obtain ⟨j, rfl⟩ : ∃ j, m = k + (j + 1) := ⟨m - k - 1, by omega⟩
      rw [Nat.pow_add, Nat.mod_mul_right_div_self]
      rw [Nat.pow_succ, Nat.mul_comm (256 ^ j) 256, Nat.mod_mul_right_mod]
  exact key n n v (Nat.le_refl n)

theorem beBytes_beVal (b : Bytes) : beBytes b.length (beVal b) = b := by
  induction b with
  | nil => rfl
  | cons x b ih =>
    have hlt : beVal b < 256 ^ b.length := by
      clear ih
      induction b with
      | nil => simp [beVal]
      | cons y b ih =>
        simp only [beVal, List.length_cons, Nat.pow_succ]
        have := y.toNat_lt
        have h1 : y.toNat * 256 ^ b.length ≤ 255 * 256 ^ b.length := Nat.mul_le_mul_right _ (by omega)
        omega
    have hp : 0 < 256 ^ b.length := Nat.pos_of_ne_zero (by simp)
    have h1 : (x.toNat * 256 ^ b.length + beVal b) / 256 ^ b.length = x.toNat := by
      rw [Nat.mul_comm, Nat.mul_add_div hp, Nat.div_eq_of_lt hlt]; rfl
    have h2 : (x.toNat * 256 ^ b.length + beVal b) % 256 ^ b.length = beVal b := by
      rw [Nat.mul_comm, Nat.mul_add_mod, Nat.mod_eq_of_lt hlt]
    simp only [List.length_cons, beBytes, beVal, h1]
    rw [← beBytes_mod, h2, ih]
    simp

/-! ## Reading and writing -/

theorem load_mid (a b c : Bytes) {p n : Nat} (hp : p = a.length) (hn : n = b.length) : load (a ++ b ++ c) p n = .ok b := by
  subst hp hn
  unfold load
  rw [if_pos (by simp only [List.length_append]; omega)]
  simp

theorem store_mid (a b c d : Bytes) {p : Nat} (hp : p = a.length) (hn : d.length = b.length) :
    store (a ++ b ++ c) p d = .ok (a ++ d ++ c) := by
  subst hp
  unfold store
  rw [if_pos (by simp only [List.length_append]; omega)]
  have e1 : (a ++ b ++ c).take a.length = a := by simp
  have e2 : (a ++ b ++ c).drop (a.length + d.length) = c := by rw [hn]; simp
  rw [e1, e2]

theorem store_fill (f d : Bytes) (k : Nat) {p : Nat} (hp : p = f.length) (hk : d.length ≤ k) :
    store (f ++ List.replicate k 0) p d = .ok (f ++ d ++ List.replicate (k - d.length) 0) := by
  have e : (List.replicate k 0 : Bytes) = List.replicate d.length 0 ++ List.replicate (k - d.length) 0 := by
    rw [← List.replicate_append_replicate.symm] <;> first | (congr 1; omega) | skip
  rw [e, ← List.append_assoc]
  exact store_mid f _ _ d hp (by simp)

/-! ## Seeking -/

theorem skip_ok {c : Ctx} {n : Nat} (h : c.error = none) (hn : n ≤ WireCtx.available c) :
    WireCtx.skip c (n : Int) = { c with pos := c.pos + n } := by
  unfold WireCtx.skip
  simp only [h, ne_eq, not_true_eq_false, if_false]
  rw [if_pos (by omega), if_neg (by omega)]
  simp

theorem readU_ok {c : Ctx} {n : Nat} {a b d : Bytes} (h : c.error = none) (hm : c.mem = a ++ b ++ d) (hp : c.pos = a.length)
    (hn : n = b.length) (hs : c.size = c.mem.length) : WireCtx.readU c n = .ok (beVal b, { c with pos := c.pos + n }) := by
  unfold WireCtx.readU WireCtx.read WireCtx.canRead
  have hl : c.mem.length = a.length + b.length + d.length := by rw [hm]; simp [Nat.add_assoc]
  simp only [h, ne_eq, not_true_eq_false, if_false]
  have : ¬ WireCtx.available c < n := by unfold WireCtx.available; omega
  simp only [this, if_false]
  rw [hm, load_mid a b d hp hn]
  simp

/-- RDATA by its fields; the tail begins with the length of the other data. -/
def shape (n time fudge mac id err tail : Bytes) : Bytes :=
  n ++ time ++ fudge ++ beBytes 2 mac.length ++ mac ++ id ++ err ++ tail

structure Shape (a : Name) (time fudge mac id err tail : Bytes) : Prop where
  alg : ∀ l ∈ a, 1 ≤ l.length ∧ l.length ≤ 63
  time : time.length = 6
  fudge : fudge.length = 2
  mac : mac.length < 65536
  id : id.length = 2
  err : err.length = 2
  tail : 2 ≤ tail.length

theorem size_shape {a : Name} {time fudge mac id err tail : Bytes} (h : Shape a time fudge mac id err tail) :
    Dname.size (shape (wire a) time fudge mac id err tail) = .ok (wire a).length := by
  unfold shape
  simp only [List.append_assoc]
  rw [Dname.size_wire _ h.alg, Dname.wire_length]

theorem shape_length {a : Name} {time fudge mac id err tail : Bytes} (h : Shape a time fudge mac id err tail) :
    (shape (wire a) time fudge mac id err tail).length = (wire a).length + 14 + mac.length + tail.length := by
  unfold shape
  simp only [List.length_append, beBytes_length, h.time, h.fudge, h.id, h.err]
  omega

theorem seek_at {a : Name} {time fudge mac id err tail : Bytes} (h : Shape a time fudge mac id err tail) (f : Field) (nb : Nat) :
    seek (shape (wire a) time fudge mac id err tail) f nb = (do
      let r ← seekField (WireCtx.initConst (shape (wire a) time fudge mac id err tail)
        (shape (wire a) time fudge mac id err tail).length) (wire a).length nb f
      match r with
      | none => .ok none
      | some (c, nb) =>
        if c.error ≠ none then .ok none
        else if WireCtx.available c < nb then .ok none
        else .ok (some c.pos)) := by
  unfold seek
  have hl := shape_length h
  rw [if_neg (by omega), size_shape h]
  rfl

theorem seek_time {a : Name} {time fudge mac id err tail : Bytes} (h : Shape a time fudge mac id err tail) {nb : Nat} (hnb : nb ≤ 14) :
    seek (shape (wire a) time fudge mac id err tail) .time nb = .ok (some (wire a).length) := by
  have hl := shape_length h
  rw [seek_at h]
  simp only [seekField, Res.bind_ok, WireCtx.initConst, WireCtx.init]
  rw [skip_ok rfl (by simp only [WireCtx.available]; omega)]
  simp only [ne_eq, not_true_eq_false, if_false]
  rw [if_neg (by simp only [WireCtx.available]; omega)]
  simp

theorem seek_fudge {a : Name} {time fudge mac id err tail : Bytes} (h : Shape a time fudge mac id err tail) {nb : Nat} (hnb : nb ≤ 8) :
    seek (shape (wire a) time fudge mac id err tail) .fudge nb = .ok (some ((wire a).length + 6)) := by
  have hl := shape_length h
  rw [seek_at h]
  simp only [seekField, Res.bind_ok, WireCtx.initConst, WireCtx.init]
  rw [skip_ok rfl (by simp only [WireCtx.available]; omega)]
  simp only [ne_eq, not_true_eq_false, if_false]
  rw [if_neg (by simp only [WireCtx.available]; omega)]
  simp

theorem seek_macLen {a : Name} {time fudge mac id err tail : Bytes} (h : Shape a time fudge mac id err tail) {nb : Nat} (hnb : nb ≤ 6) :
    seek (shape (wire a) time fudge mac id err tail) .macLen nb = .ok (some ((wire a).length + 8)) := by
  have hl := shape_length h
  rw [seek_at h]
  simp only [seekField, Res.bind_ok, WireCtx.initConst, WireCtx.init]
  rw [skip_ok rfl (by simp only [WireCtx.available]; omega)]
  simp only [ne_eq, not_true_eq_false, if_false]
  rw [if_neg (by simp only [WireCtx.available]; omega)]
  simp

theorem seek_mac {a : Name} {time fudge mac id err tail : Bytes} (h : Shape a time fudge mac id err tail) {nb : Nat}
    (hnb : nb ≤ mac.length) :
    seek (shape (wire a) time fudge mac id err tail) .mac nb = .ok (some ((wire a).length + 10)) := by
  have hl := shape_length h
  rw [seek_at h]
  simp only [seekField, Res.bind_ok, WireCtx.initConst, WireCtx.init]
  rw [skip_ok rfl (by simp only [WireCtx.available]; omega)]
  simp only [ne_eq, not_true_eq_false, if_false]
  rw [if_neg (by simp only [WireCtx.available]; omega)]
  simp

/-- After the MAC. -/
theorem skip16_shape {a : Name} {time fudge mac id err tail : Bytes} (h : Shape a time fudge mac id err tail) :
    skip16 (WireCtx.skip (WireCtx.initConst (shape (wire a) time fudge mac id err tail)
      (shape (wire a) time fudge mac id err tail).length) (((wire a).length + 8 : Nat) : Int)) =
    .ok ⟨shape (wire a) time fudge mac id err tail, (shape (wire a) time fudge mac id err tail).length,
      (wire a).length + 10 + mac.length, none, true⟩ := by
  have hl := shape_length h
  simp only [WireCtx.initConst, WireCtx.init]
  rw [skip_ok rfl (by simp only [WireCtx.available]; omega)]
  unfold skip16
  rw [readU_ok (a := wire a ++ time ++ fudge) (b := beBytes 2 mac.length) (d := mac ++ id ++ err ++ tail) rfl
    (by simp [shape, List.append_assoc]) (by simp [h.time, h.fudge]) (by simp [beBytes_length]) rfl]
  simp only [Res.bind_ok, beVal_beBytes, Res.ok.injEq]
  rw [Nat.mod_eq_of_lt (by have := h.mac; omega), skip_ok rfl (by simp only [WireCtx.available]; omega)]
  simp

theorem seek_origId {a : Name} {time fudge mac id err tail : Bytes} (h : Shape a time fudge mac id err tail) {nb : Nat} (hnb : nb ≤ 4) :
    seek (shape (wire a) time fudge mac id err tail) .origId nb = .ok (some ((wire a).length + 10 + mac.length)) := by
  have hl := shape_length h
  rw [seek_at h]
  simp only [seekField, skip16_shape h, Res.bind_ok, ne_eq, not_true_eq_false, if_false]
  rw [if_neg (by simp only [WireCtx.available]; omega)]

theorem seek_error {a : Name} {time fudge mac id err tail : Bytes} (h : Shape a time fudge mac id err tail) {nb : Nat} (hnb : nb ≤ 2) :
    seek (shape (wire a) time fudge mac id err tail) .error nb = .ok (some ((wire a).length + 12 + mac.length)) := by
  have hl := shape_length h
  rw [seek_at h]
  simp only [seekField, skip16_shape h, Res.bind_ok]
  have := skip_ok (c := ⟨shape (wire a) time fudge mac id err tail, (shape (wire a) time fudge mac id err tail).length,
    (wire a).length + 10 + mac.length, none, true⟩) (n := 2) rfl (by simp only [WireCtx.available]; omega)
  rw [show ((2 : Nat) : Int) = 2 from rfl] at this
  simp only [this, ne_eq, not_true_eq_false, if_false]
  rw [if_neg (by simp only [WireCtx.available]; omega)]
  simp; omega

theorem seek_otherLen {a : Name} {time fudge mac id err tail : Bytes} (h : Shape a time fudge mac id err tail) {nb : Nat}
    (hnb : nb ≤ tail.length) :
    seek (shape (wire a) time fudge mac id err tail) .otherLen nb = .ok (some ((wire a).length + 14 + mac.length)) := by
  have hl := shape_length h
  rw [seek_at h]
  simp only [seekField, skip16_shape h, Res.bind_ok]
  have := skip_ok (c := ⟨shape (wire a) time fudge mac id err tail, (shape (wire a) time fudge mac id err tail).length,
    (wire a).length + 10 + mac.length, none, true⟩) (n := 4) rfl (by simp only [WireCtx.available]; omega)
  rw [show ((4 : Nat) : Int) = 4 from rfl] at this
  simp only [this, ne_eq, not_true_eq_false, if_false]
  rw [if_neg (by simp only [WireCtx.available]; omega)]
  simp; omega

theorem seek_other {a : Name} {time fudge mac id err tail o : Bytes} {n : Bytes} (h : Shape a time fudge mac id err tail)
    (ht : tail = n ++ o) (hn : n.length = 2) :
    seek (shape (wire a) time fudge mac id err tail) .other 0 =
      if o.length = beVal n then .ok (some ((wire a).length + 16 + mac.length)) else .ok none := by
  have hl := shape_length h
  have htl : tail.length = 2 + o.length := by rw [ht]; simp [hn]
  rw [seek_at h]
  simp only [seekField, skip16_shape h, Res.bind_ok]
  have := skip_ok (c := ⟨shape (wire a) time fudge mac id err tail, (shape (wire a) time fudge mac id err tail).length,
    (wire a).length + 10 + mac.length, none, true⟩) (n := 4) rfl (by simp only [WireCtx.available]; omega)
  rw [show ((4 : Nat) : Int) = 4 from rfl] at this
  rw [this, readU_ok (a := wire a ++ time ++ fudge ++ beBytes 2 mac.length ++ mac ++ id ++ err) (b := n) (d := o) rfl
    (by simp [shape, ht, List.append_assoc]) (by simp [h.time, h.fudge, h.id, h.err, beBytes_length]; omega) hn.symm rfl]
  simp only [ne_eq, not_true_eq_false, if_false, Res.bind_ok, WireCtx.available, hl, htl]
  have e : (wire a).length + 14 + mac.length + (2 + o.length) - ((wire a).length + 10 + mac.length + 4 + 2) = o.length := by omega
  simp only [e]
  split
  · next h1 =>
    simp
  · next h1 =>
    have h1' : o.length = beVal n := by omega
    simp [h1']
    rw [if_neg (by omega)]
    simp only [Res.ok.injEq, Option.some.injEq]
    omega

end Knot.Tsig
