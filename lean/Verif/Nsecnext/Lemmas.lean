import Verif.Nsecnext.Model
import Verif.Nsecnext.Spec
import Verif.Dname.Lemmas
namespace Knot.Nsecnext
open Dname

theorem split_ff (l : Label) :
    (∃ a c k, l = a ++ c :: List.replicate k 0xff ∧ c ≠ 0xff) ∨ l = List.replicate l.length 0xff := by
  induction l with
  | nil => right; rfl
  | cons x t ih =>
    rcases ih with ⟨a, c, k, rfl, hc⟩ | h
    · exact .inl ⟨x :: a, c, k, rfl, hc⟩
    · by_cases hx : x = 0xff
      · right; simp only [List.length_cons, List.replicate_succ, hx]; rw [← h]
      · left; exact ⟨[], x, t.length, by rw [← h]; rfl, hx⟩

theorem rd_app {pre s : Bytes} {i : Nat} {b : UInt8} (h : s[i]? = some b) :
    Res.rd (pre ++ s) (pre.length + i) = .ok b := by
  unfold Res.rd
  rw [List.getElem?_append_right (by omega), Nat.add_sub_cancel_left, h]

theorem scan_hit (pre a s : Bytes) (x c : UInt8) (k : Nat) (hc : c ≠ 0xff) :
    ∀ j, j ≤ k → scan (pre ++ x :: (a ++ c :: List.replicate k 0xff) ++ s) pre.length
      (a.length + 1 + j) = .ok (a.length + 1) := by
  intro j
  induction j with
  | zero =>
    intro _
    simp only [Nat.add_zero, scan, List.append_assoc]
    rw [rd_app (b := c) (by simp)]
    simp [hc]
  | succ j ih =>
    intro hj
    rw [show a.length + 1 + (j + 1) = (a.length + 1 + j) + 1 by omega]
    simp only [scan]
    have := ih (by omega)
    simp only [List.append_assoc] at this ⊢
    rw [rd_app (b := 0xff) (by
      simp only [List.cons_append, List.append_assoc, List.getElem?_cons_succ]
      rw [List.getElem?_append_right (by omega),
        show a.length + 1 + j - a.length = j + 1 by omega, List.getElem?_cons_succ,
        List.getElem?_append_left (by simp; omega), List.getElem?_replicate]
      simp; omega)]
    simpa using this

theorem scan_miss (pre s : Bytes) (x : UInt8) (n : Nat) :
    ∀ j, j ≤ n → scan (pre ++ x :: List.replicate n 0xff ++ s) pre.length j = .ok 0 := by
  intro j
  induction j with
  | zero => intro _; rfl
  | succ j ih =>
    intro hj
    have := ih (by omega)
    simp only [scan, List.append_assoc] at this ⊢
    rw [rd_app (b := 0xff) (by
      simp only [List.cons_append, List.getElem?_cons_succ]
      rw [List.getElem?_append_left (by simp; omega), List.getElem?_replicate]
      simp; omega)]
    simpa using this

theorem store_mid (p d d' s : Bytes) (h : d'.length = d.length) :
    store (p ++ (d ++ s)) p.length d' = .ok (p ++ (d' ++ s)) := by
  unfold store
  rw [if_pos (by simp; omega), h, List.take_left, ← List.append_assoc p d s,
    List.drop_left' (by simp)]
  simp

theorem incLabel_hit (pre a s : Bytes) (c : UInt8) (k : Nat) (hc : c ≠ 0xff)
    (hl : (a ++ c :: List.replicate k 0xff).length ≤ 63) :
    incLabel (pre ++ UInt8.ofNat (a ++ c :: List.replicate k (0xff : UInt8)).length ::
        ((a ++ c :: List.replicate k 0xff) ++ s)) pre.length =
      .ok (some (pre ++ UInt8.ofNat (a ++ nextOctet c :: List.replicate k (0 : UInt8)).length ::
        ((a ++ nextOctet c :: List.replicate k 0) ++ s), pre.length)) := by
  have hlen : (a ++ c :: List.replicate k (0xff : UInt8)).length = a.length + 1 + k := by
    simp; omega
  have hlen' : (a ++ nextOctet c :: List.replicate k (0 : UInt8)).length = a.length + 1 + k := by
    simp; omega
  rw [hlen] at hl
  rw [hlen, hlen']
  have ht : (UInt8.ofNat (a.length + 1 + k)).toNat = a.length + 1 + k := ofNat_toNat (by omega)
  unfold incLabel
  have h0 : Res.rd (pre ++ UInt8.ofNat (a.length + 1 + k) ::
      ((a ++ c :: List.replicate k (0xff : UInt8)) ++ s)) pre.length
      = .ok (UInt8.ofNat (a.length + 1 + k)) := by
    have := rd_app (pre := pre) (i := 0) (b := UInt8.ofNat (a.length + 1 + k))
      (s := UInt8.ofNat (a.length + 1 + k) :: ((a ++ c :: List.replicate k (0xff : UInt8)) ++ s)) rfl
    simpa using this
  rw [h0]
  simp only [Res.bind_ok, ht]
  rw [if_neg (by omega)]
  have hs := scan_hit pre a s (UInt8.ofNat (a.length + 1 + k)) c k hc k (Nat.le_refl _)
  rw [show pre ++ UInt8.ofNat (a.length + 1 + k) :: ((a ++ c :: List.replicate k (0xff : UInt8)) ++ s)
    = pre ++ UInt8.ofNat (a.length + 1 + k) :: (a ++ c :: List.replicate k (0xff : UInt8)) ++ s by simp,
    hs]
  simp only [Res.bind_ok]
  rw [if_pos (by omega)]
  rw [show pre ++ UInt8.ofNat (a.length + 1 + k) :: (a ++ c :: List.replicate k (0xff : UInt8)) ++ s
    = (pre ++ UInt8.ofNat (a.length + 1 + k) :: a) ++ ((c :: List.replicate k (0xff : UInt8)) ++ s)
    by simp]
  have hp : pre.length + (a.length + 1) = (pre ++ UInt8.ofNat (a.length + 1 + k) :: a).length := by
    simp
  have hr := rd_app (pre := pre ++ UInt8.ofNat (a.length + 1 + k) :: a) (i := 0) (b := c)
      (s := (c :: List.replicate k (0xff : UInt8)) ++ s) rfl
  rw [hp]
  simp only [Nat.add_zero] at hr
  rw [hr]
  simp only [Res.bind_ok]
  rw [store_mid _ _ _ _ (by simp)]
  simp only [Res.bind_ok]
  rw [show a.length + 1 + k - (a.length + 1) = k by omega]
  simp [nextOctet]

theorem incLabel_miss (pre s : Bytes) (n : Nat) (hl : n ≤ 63) :
    incLabel (pre ++ UInt8.ofNat n :: (List.replicate n 0xff ++ s)) pre.length =
      if pre.length = 0 ∨ n = 63 then .ok none
      else .ok (some (pre.dropLast ++ UInt8.ofNat (n + 1) :: ((List.replicate n 0xff ++ [0]) ++ s),
        pre.length - 1)) := by
  have ht : (UInt8.ofNat n).toNat = n := ofNat_toNat (by omega)
  unfold incLabel
  have h0 : Res.rd (pre ++ UInt8.ofNat n :: (List.replicate n (0xff : UInt8) ++ s)) pre.length
      = .ok (UInt8.ofNat n) := by
    have := rd_app (pre := pre) (i := 0) (b := UInt8.ofNat n)
      (s := UInt8.ofNat n :: (List.replicate n (0xff : UInt8) ++ s)) rfl
    simpa using this
  rw [h0]
  simp only [Res.bind_ok, ht]
  rw [if_neg (by omega)]
  have hs := scan_miss pre s (UInt8.ofNat n) n n (Nat.le_refl _)
  rw [show pre ++ UInt8.ofNat n :: (List.replicate n (0xff : UInt8) ++ s)
    = pre ++ UInt8.ofNat n :: List.replicate n (0xff : UInt8) ++ s by simp, hs]
  simp only [Res.bind_ok, Nat.lt_irrefl, if_false]
  split
  · rfl
  · rename_i hn
    have hd : (pre ++ UInt8.ofNat n :: List.replicate n (0xff : UInt8) ++ s).drop (pre.length + 1)
        = List.replicate n (0xff : UInt8) ++ s := by
      rw [show pre ++ UInt8.ofNat n :: List.replicate n (0xff : UInt8) ++ s
        = (pre ++ [UInt8.ofNat n]) ++ (List.replicate n (0xff : UInt8) ++ s) by simp,
        List.drop_left' (by simp)]
    rw [hd, List.take_left' (by simp)]
    have hne : pre ≠ [] := by intro h; subst h; simp at hn
    have hpl : pre.length - 1 = pre.dropLast.length := by simp
    rw [hpl]
    have he : pre ++ UInt8.ofNat n :: List.replicate n (0xff : UInt8) ++ s
        = pre.dropLast ++ ((pre.getLast hne :: UInt8.ofNat n :: List.replicate n (0xff : UInt8)) ++ s) := by
      conv => lhs; rw [← List.dropLast_concat_getLast hne]
      simp
    rw [he, store_mid _ _ _ _ (by simp)]
    simp only [Res.bind_ok]
    have : UInt8.ofNat n + 1 = UInt8.ofNat (n + 1) := by
      apply byte_eq; rw [UInt8.toNat_add, ht, ofNat_toNat (by omega)]; simp; omega
    rw [this]; simp

theorem copy_wire {n : Name} (r : Bytes) (h : LabelsOk n) : copy (wire n ++ r) = .ok (wire n) := by
  unfold copy
  rw [size_wire r h]
  simp only [Res.bind_ok]
  rw [if_neg (by simp [wire_length]), List.take_left' (wire_length n)]

theorem nextLoop_spec (apex : Name) : ∀ (d p : Name) (pre : Bytes), d = p ++ apex → LabelsOk d →
    pre.length + nameLen d = 255 →
    ∃ n, nextLoop (pre ++ wire d) (255 - nameLen apex) pre.length = .ok (wire n) ∧
      Increased apex d n ∧ LabelsOk n ∧ nameLen n ≤ 255 := by
  intro d
  induction d with
  | nil =>
    intro p pre hd hok hlen
    have : apex = [] := by simpa using (List.append_eq_nil_iff.mp hd.symm).2
    subst this
    have : pre.length = 255 - nameLen [] := by omega
    rw [nextLoop, if_pos this]
    refine ⟨[], ?_, .apex, (by intro l hl; cases hl), by simp [nameLen]⟩
    rw [List.drop_left]
    simpa using copy_wire (n := []) [] hok
  | cons l q ih =>
    intro p pre hd hok hlen
    cases p with
    | nil =>
      simp only [List.nil_append] at hd
      rw [nextLoop, if_pos (by rw [hd] at hlen; omega)]
      refine ⟨l :: q, ?_, hd ▸ .apex, hok, by omega⟩
      rw [List.drop_left]
      simpa using copy_wire (n := l :: q) [] hok
    | cons l' p =>
      simp only [List.cons_append, List.cons.injEq] at hd
      obtain ⟨rfl, hq⟩ := hd
      have hlq : nameLen apex ≤ nameLen q := by
        have h : ∀ p : Name, nameLen apex ≤ nameLen (p ++ apex) := by
          intro p; induction p with
          | nil => simp
          | cons a p ih => simp [nameLen]; omega
        rw [hq]; exact h p
      have hll := hok.head
      have hn : nameLen (l :: q) = l.length + 1 + nameLen q := rfl
      have hpos : 1 ≤ nameLen apex := nameLen_pos apex
      rw [nextLoop, if_neg (by omega)]
      have hlt : pre.length < (pre ++ wire (l :: q)).length := by
        rw [List.length_append, wire_length]; omega
      rw [dif_pos hlt]
      rcases split_ff l with ⟨a, c, k, hl, hc⟩ | hl
      · subst hl
        simp only [wire]
        rw [incLabel_hit pre a (wire q) c k hc (by simpa using hll.2)]
        simp only
        rw [List.drop_left]
        refine ⟨(a ++ nextOctet c :: List.replicate k 0) :: q, ?_, .octet hq hc, ?_, ?_⟩
        · have hok' : LabelsOk ((a ++ nextOctet c :: List.replicate k 0) :: q) := by
            intro x hx
            rcases List.mem_cons.mp hx with rfl | hx
            · simpa using hll
            · exact hok.tail x hx
          simpa [wire] using copy_wire [] hok'
        · intro x hx
          rcases List.mem_cons.mp hx with rfl | hx
          · simpa using hll
          · exact hok.tail x hx
        · simp only [nameLen, List.length_append, List.length_cons, List.length_replicate] at hlen ⊢
          omega
      · generalize hk : l.length = k at *
        subst hl
        simp only [wire, List.length_replicate]
        rw [incLabel_miss pre (wire q) k (by omega)]
        by_cases hcond : pre.length = 0 ∨ k = 63
        · rw [if_pos hcond]
          simp only
          have hb : (pre ++ UInt8.ofNat k :: (List.replicate k (0xff : UInt8) ++ wire q))[pre.length]'(by simp)
              = UInt8.ofNat k := by
            rw [List.getElem_append_right (by omega)]; simp
          rw [hb, ofNat_toNat (by omega)]
          obtain ⟨n, h1, h2, h3, h4⟩ := ih p (pre ++ UInt8.ofNat k :: List.replicate k 0xff) hq hok.tail
            (by simp; omega)
          refine ⟨n, ?_, .strip hq (by rw [hn]; omega) h2, h3, h4⟩
          rw [← h1]
          congr 1
          · simp
          · simp; omega
        · rw [if_neg hcond]
          simp only
          rw [show pre.length - 1 = pre.dropLast.length by simp, List.drop_left]
          have hok' : LabelsOk ((List.replicate k 0xff ++ [0]) :: q) := by
            intro x hx
            rcases List.mem_cons.mp hx with rfl | hx
            · simp; omega
            · exact hok.tail x hx
          refine ⟨(List.replicate k 0xff ++ [0]) :: q, ?_, .append hq (by omega) (by rw [hn]; omega), hok', ?_⟩
          · simpa [wire] using copy_wire [] hok'
          · simp only [nameLen, List.length_append, List.length_cons, List.length_replicate, List.length_nil]
            omega

theorem next_short {d : Name} (apex : Bytes) (r : Bytes) (h : Valid d) (hs : nameLen d ≤ 253) :
    next (wire d ++ r) apex = .ok (wire ([0] :: d)) := by
  unfold next
  rw [size_wire r h.1]
  simp only [Res.bind_ok]
  rw [if_neg (by simp [wire_length]; omega), if_pos (by omega), List.take_left' (wire_length d)]
  have hp : 255 - nameLen d = (255 - nameLen d - 2) + 2 := by omega
  have he : List.replicate (255 - nameLen d) (0 : UInt8) ++ wire d =
      List.replicate (255 - nameLen d - 2) 0 ++ ([0, 0] ++ wire d) := by
    conv => lhs; rw [hp, List.replicate_succ', List.replicate_succ']
    simp
  rw [he]
  have hst := store_mid (List.replicate (255 - nameLen d - 2) 0) [0, 0] [1, 0] (wire d) rfl
  rw [List.length_replicate] at hst
  rw [hst]
  simp only [Res.bind_ok]
  rw [List.drop_left' (by simp)]
  have hok : LabelsOk ([0] :: d) := by
    intro x hx
    rcases List.mem_cons.mp hx with rfl | hx
    · simp
    · exact h.1 x hx
  simpa [wire] using copy_wire [] hok

theorem nameLen_suffix (p apex : Name) : nameLen apex ≤ nameLen (p ++ apex) := by
  induction p with
  | nil => simp
  | cons a p ih => simp [nameLen]; omega

theorem next_long {d apex : Name} (r s : Bytes) (h : Valid d) (hz : InZone apex d)
    (hs : 254 ≤ nameLen d) :
    ∃ n, next (wire d ++ r) (wire apex ++ s) = .ok (wire n) ∧ Increased apex d n ∧ Valid n := by
  obtain ⟨p, hp⟩ := hz
  have hoka : LabelsOk apex := fun x hx => h.1 x (by rw [hp]; simp [hx])
  have hle := nameLen_suffix p apex
  rw [← hp] at hle
  obtain ⟨n, h1, h2, h3, h4⟩ := nextLoop_spec apex d p (List.replicate (255 - nameLen d) 0) hp h.1
    (by have := h.2; simp; omega)
  refine ⟨n, ?_, h2, h3, h4⟩
  unfold next
  rw [size_wire r h.1]
  simp only [Res.bind_ok]
  have h255 := h.2
  rw [if_neg (by simp [wire_length]; omega), if_neg (by omega), List.take_left' (wire_length d),
    size_wire s hoka]
  simp only [Res.bind_ok]
  rw [if_neg (by omega)]
  have hdrop : (List.replicate (255 - nameLen d) (0 : UInt8) ++ wire d).drop (255 - nameLen apex)
      = wire apex ++ [] := by
    conv => lhs; rw [hp, wire_append]
    rw [← List.append_assoc, List.append_nil]
    apply List.drop_left'
    have : (wire p).dropLast.length + nameLen apex = nameLen (p ++ apex) := by
      rw [← wire_length (p ++ apex), wire_append, List.length_append, wire_length apex]
    rw [hp] at h255
    simp only [List.length_append, List.length_replicate]
    rw [← hp] at this h255 ⊢
    omega
  rw [hdrop]
  unfold isEqual
  rw [isEqualGen_wire s [] false hoka hoka]
  simp only [Bool.false_eq_true, if_false, Res.bind_ok, beq_self_eq_true, if_true]
  rw [List.length_replicate] at h1
  exact h1

end Knot.Nsecnext
