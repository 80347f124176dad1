import Verif.Pkt.Lemmas
/-!
# Lemmas about writing compressed names
-/
namespace Knot.Pkt
open Knot
open Knot.Dname (Name NameAt Valid wire nameLen lowerName lowerByte LabelsOk)

theorem labelLoop_spec (name mem : Bytes) (pos : Nat) (a b : Bytes) (i : Nat) (hl : a.length = b.length)
    (ha : BytesAt name i a) (hb : BytesAt mem (pos + i) b) :
    labelLoop name mem pos i a.length = .ok (decide (a = b.map lowerByte)) := by
  induction a generalizing b i with
  | nil =>
    cases b with
    | nil => rfl
    | cons _ _ => simp at hl
  | cons x a ih =>
    cases b with
    | nil => simp at hl
    | cons y b =>
      obtain ⟨ha1, ha2⟩ := BytesAt.cons.mp ha
      obtain ⟨hb1, hb2⟩ := BytesAt.cons.mp hb
      simp only [List.length_cons, labelLoop, Res.rd, ha1, hb1, Res.bind_ok]
      rw [Dname.toLower_eq]
      by_cases hxy : x = lowerByte y
      · rw [if_neg (by simp [hxy]), ih b (i + 1) (by simpa using hl) ha2 (by rw [← Nat.add_assoc]; exact hb2)]
        simp [hxy]
      · rw [if_pos (fun h => hxy (UInt8.toNat_inj.mp h))]
        simp [hxy]

theorem labelEq_spec {l : Dname.Label} {ls : Name} (r : Bytes) {mem : Bytes} {pos : Nat} {m : Dname.Label}
    (hl : l.length ≤ 63) (hm : m.length ≤ 63) (hb : BytesAt mem pos (UInt8.ofNat m.length :: m)) :
    labelEq (wire (l :: ls) ++ r) mem pos = .ok (decide (l = m.map lowerByte)) := by
  have h1 := (BytesAt.cons.mp hb)
  unfold labelEq
  simp only [wire, List.cons_append, Res.rd, h1.1, List.getElem?_cons_zero, Res.bind_ok]
  rw [Dname.ofNat_toNat (by omega), Dname.ofNat_toNat (by omega)]
  by_cases hlen : l.length = m.length
  · rw [if_neg (by omega)]
    have : BytesAt (UInt8.ofNat l.length :: (l ++ wire ls ++ r)) 1 l := by
      intro i hi
      rw [Nat.add_comm, List.getElem?_cons_succ, List.append_assoc, List.getElem?_append_left hi]
    exact labelLoop_spec _ mem pos l m 1 hlen this h1.2
  · rw [if_pos hlen]
    rw [decide_eq_false]
    intro h
    rw [h] at hlen
    simp at hlen

theorem lowerByte_idem : ∀ b : UInt8, lowerByte (lowerByte b) = lowerByte b := by
  intro b
  have key : ∀ n < 256, lowerByte (lowerByte (UInt8.ofNat n)) = lowerByte (UInt8.ofNat n) := by decide +kernel
  have h := key b.toNat b.toNat_lt
  rwa [UInt8.ofNat_toNat] at h

theorem lower_of_match {l m : Dname.Label} (h : l = m.map lowerByte) : l.map lowerByte = m.map lowerByte := by
  subst h
  rw [List.map_map]
  apply List.map_congr_left
  intro b _
  exact lowerByte_idem b

theorem writeLabel_spec {w : W} {dst max written : Nat} {src : Bytes} {len : Nat} (hm : dst + max ≤ w.buf.length)
    (hl : len ≤ src.length) :
    (writeLabel w dst max written src len).Post
      (fun n w' => n = written + len ∧ n ≤ max ∧ ∃ b, w' = { w with buf := b } ∧ Fr (dst + written) (dst + (written + len)) w.buf b ∧
        BytesAt b (dst + written) (src.take len))
      (fun e w' => e = .espace ∧ w' = w ∧ max < written + len) := by
  unfold writeLabel
  by_cases h : written + len > max
  · rw [if_pos h]; exact ⟨rfl, rfl, h⟩
  · rw [if_neg h, if_neg (by omega)]
    obtain ⟨b, e1, e2, e3⟩ := put_spec (w := w) (pos := dst + written) (d := src.take len)
      (by simp only [List.length_take]; omega)
    rw [e1, bind_ok]
    simp only [List.length_take, Nat.min_eq_left hl] at e2
    exact ⟨rfl, by omega, b, rfl, by rwa [← Nat.add_assoc], e3⟩

/-- Failures while a name is written: not enough space for `need` octets; only the buffer has changed, above `dst`. -/
def NameErr (w : W) (dst max need : Nat) (e : Err) (w' : W) : Prop :=
  e = .espace ∧ max < need ∧ ∃ b, w' = { w with buf := b } ∧ Fr dst (dst + max) w.buf b

theorem alignLabels_spec {dst max : Nat} (a r : Name) (t : Bytes) (hok : LabelsOk (a ++ r)) (w : W) (written : Nat)
    (hm : dst + max ≤ w.buf.length) (hw : written ≤ max) :
    (alignLabels dst max a.length (wire (a ++ r) ++ t) written w).Post
      (fun x w' => x = (wire r ++ t, written + (labs a).length) ∧ x.2 ≤ max ∧ ∃ b, w' = { w with buf := b } ∧
        Fr (dst + written) (dst + x.2) w.buf b ∧ BytesAt b (dst + written) (labs a))
      (NameErr w dst max (written + nameLen (a ++ r))) := by
  induction a generalizing w written with
  | nil => exact ⟨rfl, hw, w.buf, rfl, Fr.refl _ _ _, BytesAt.nil _ _⟩
  | cons l a ih =>
    simp only [List.length_cons, List.cons_append] at hok ⊢
    have hh := hok.head
    have hn := Dname.nextLabel_wire t hok
    have h0 : Res.rd (wire (l :: (a ++ r)) ++ t) 0 = .ok (UInt8.ofNat l.length) := rfl
    unfold alignLabels
    rw [ask_ok h0, bind_ok, hok.head_toNat]
    have htake : (wire (l :: (a ++ r)) ++ t).take (l.length + 1) = UInt8.ofNat l.length :: l := by
      simp [wire]
    have hlen : l.length + 1 ≤ (wire (l :: (a ++ r)) ++ t).length := by
      simp only [wire, List.cons_append, List.length_cons, List.length_append]; omega
    refine Post.bind (Post.mono (writeLabel_spec hm hlen) (fun _ _ h => h) ?_) ?_
    · rintro e w' ⟨he, rfl, hx⟩; exact ⟨he, by simp only [nameLen]; omega, _, rfl, Fr.refl _ _ _⟩
    · rintro n w' ⟨rfl, hn2, b, rfl, hfr, hby⟩
      rw [ask_ok hn, bind_ok]
      rw [htake] at hby
      refine Post.mono (ih hok.tail { w with buf := b } (written + (l.length + 1)) (by rw [show (W.buf { w with buf := b }) = b from rfl, hfr.1]; exact hm) hn2) ?_ ?_
      · rintro x w' ⟨rfl, h2, b', rfl, hfr', hby'⟩
        simp only at h2 hfr' hby'
        refine ⟨by rw [labs_cons]; simp only [List.length_append, List.length_cons, Nat.add_assoc],
          h2, b', rfl, (hfr.mono (Nat.le_refl _) (by simp only; omega)).trans (hfr'.mono (by omega) (by simp only; omega)), ?_⟩
        rw [labs_cons, BytesAt.append]
        refine ⟨hby.congr ?_, ?_⟩
        · intro i a1 a2
          simp only [List.length_cons] at a2
          exact hfr'.2 i (by omega)
        · simp only [List.length_cons]
          rw [← Nat.add_assoc] at hby'
          exact hby'
      · rintro e w' ⟨he, hx, b', rfl, hfr'⟩
        exact ⟨he, by simp only [nameLen]; omega, b', rfl, (hfr.mono (by omega) (by omega)).trans hfr'⟩

theorem skipSuffix_spec {mem : Bytes} {G : Nat → Prop} (k : Nat) {pos : Nat} {ls : Name} {n : Nat} (h : At mem G pos ls n)
    (hp : Plain mem pos) (hk : k ≤ ls.length) :
    ∃ p n', skipSuffix mem k pos = .ok p ∧ At mem G p (ls.drop k) n' ∧ Plain mem p := by
  induction k generalizing pos ls n with
  | zero => exact ⟨pos, n, rfl, by simpa using h, hp⟩
  | succ k ih =>
    cases ls with
    | nil => simp at hk
    | cons l ls =>
      obtain ⟨p, n', e1, e2, e3⟩ := h.next hp
      obtain ⟨q, n'', f1, f2, f3⟩ := ih e2 e3 (by simpa using hk)
      refine ⟨q, n'', ?_, by simpa using f2, f3⟩
      unfold skipSuffix
      rw [e1, Res.bind_ok]
      exact f1

theorem At.of_below {buf buf' : Bytes} {G : Nat → Prop} {dst hi pos ls n} (h : At buf G pos ls n) (hG : ∀ i, G i → i < dst)
    (hf : Fr dst hi buf buf') : At buf' G pos ls n :=
  h.congr (fun _ h => h) (fun i hi => hf.2 i (.inl (hG i hi)))

/-- The result of the matching loop: `pre` has been written, `pend` is to be covered by the pointer. -/
def MatchPost (dst max : Nat) (G : Nat → Prop) (t : Bytes) (ls : Name) (w : W) (m : Matched) (w' : W) : Prop :=
  ∃ pre pend spend n b, ls = pre ++ pend ∧ m.mb = wire pend ++ t ∧ m.rest = wire [] ++ t ∧ m.written = (labs pre).length ∧
    m.written ≤ max ∧ w' = { w with buf := b } ∧ Fr dst (dst + m.written) w.buf b ∧ BytesAt b dst (labs pre) ∧
    At b G m.cptr spend n ∧ lowerName spend = lowerName pend

theorem matchLoop_spec {dst max : Nat} {G : Nat → Prop} (hG : ∀ i, G i → i < dst) (t : Bytes) (rest : Name) :
    ∀ (pre pend srest spend : Name) (suf cptr n n' : Nat) (w w0 : W),
    LabelsOk (pre ++ pend ++ rest) → At w.buf G suf srest n → Plain w.buf suf → srest.length = rest.length →
    At w.buf G cptr (spend ++ srest) n' → lowerName spend = lowerName pend →
    dst + max ≤ w.buf.length → (labs pre).length ≤ max → BytesAt w.buf dst (labs pre) →
    w = { w0 with buf := w.buf } → Fr dst (dst + (labs pre).length) w0.buf w.buf →
    (matchLoop dst max (wire rest ++ t) (wire (pend ++ rest) ++ t) suf cptr (labs pre).length w).Post
      (MatchPost dst max G t (pre ++ pend ++ rest) w0) (NameErr w0 dst max (nameLen (pre ++ pend ++ rest))) := by
  induction rest with
  | nil =>
    intro pre pend srest spend suf cptr n n' w w0 hok hs hp hlen hc hlow hm hle hby hw hfr
    have hsr : srest = [] := by simpa using hlen
    subst hsr
    unfold matchLoop
    simp only [wire, List.singleton_append, UInt8.toNat_zero, if_true]
    refine ⟨pre, pend, spend, n', w.buf, by simp, by simp, rfl, rfl, hle, hw, hfr, hby, by simpa using hc, hlow⟩
  | cons l rest ih =>
    intro pre pend srest spend suf cptr n n' w w0 hok hs hp hlen hc hlow hm hle hby hw hfr
    cases srest with
    | nil => simp at hlen
    | cons s srest =>
      have hok2 : LabelsOk (l :: rest) := fun x hx => hok x (by simp only [List.mem_append]; exact .inr hx)
      have hh := hok2.head
      have hn := Dname.nextLabel_wire t hok2
      obtain ⟨p, np, e1, e2, e3⟩ := hs.next hp
      obtain ⟨_, _, _, s63, sb, _⟩ := hp.label hs
      have heq := labelEq_spec (ls := rest) t hh.2 s63 sb
      have hwl : wire (l :: rest) ++ t = UInt8.ofNat l.length :: (l ++ wire rest ++ t) := by simp [wire]
      rw [hwl] at hn heq ⊢
      unfold matchLoop
      rw [hok2.head_toNat, if_neg (by omega)]
      split
      · rename_i next hnext
        rw [hn] at hnext
        cases hnext
        rw [e1]
        simp only
        rw [heq]
        simp only
        by_cases hls : l = s.map lowerByte
        · rw [decide_eq_true hls]
          simp only [mismatch, if_true]
          have := ih pre (pend ++ [l]) srest (spend ++ [s]) p cptr np n' w w0 (by simpa using hok) e2 e3 (by simpa using hlen)
            (by simpa using hc) (by
              unfold lowerName at hlow ⊢
              rw [List.map_append, List.map_append, hlow]
              simp only [List.map_cons, List.map_nil]
              rw [lower_of_match hls]) hm hle hby hw hfr
          rw [show wire (pend ++ l :: rest) = wire (pend ++ [l] ++ rest) by simp,
              show pre ++ pend ++ l :: rest = pre ++ (pend ++ [l]) ++ rest by simp]
          exact this
        · rw [decide_eq_false hls]
          simp only [mismatch, Bool.false_eq_true, if_false]
          have hmb : wire (pend ++ l :: rest) ++ t = labs (pend ++ [l]) ++ (wire rest ++ t) := by
            rw [show pend ++ l :: rest = (pend ++ [l]) ++ rest by simp, wire_append_labs, List.append_assoc]
          have hmlen : (wire (pend ++ l :: rest) ++ t).length - (UInt8.ofNat l.length :: (l ++ wire rest ++ t)).length + (l.length + 1)
              = (labs (pend ++ [l])).length := by
            rw [hmb, labs_append, labs_cons]
            simp only [List.length_append, List.length_cons]
            simp only [labs, List.flatMap_nil, List.length_nil]
            omega
          have hwr := writeLabel_spec (w := w) (dst := dst) (max := max) (written := (labs pre).length)
            (src := wire (pend ++ l :: rest) ++ t) (len := (labs (pend ++ [l])).length) hm (by
              rw [hmb]; simp only [List.length_append]; omega)
          rw [hmlen]
          cases hx : writeLabel w dst max (labs pre).length (wire (pend ++ l :: rest) ++ t) (labs (pend ++ [l])).length with
          | ub => rw [hx] at hwr; exact hwr.elim
          | fail e w' =>
            rw [hx] at hwr
            obtain ⟨he, rfl, hx⟩ := hwr
            simp only [bind_fail]
            have hnl : (labs pre).length + (labs (pend ++ [l])).length ≤ nameLen (pre ++ pend ++ l :: rest) := by
              rw [← labs_length, show pre ++ pend ++ l :: rest = pre ++ (pend ++ [l]) ++ rest by simp, labs_append (pre ++ (pend ++ [l])) rest, labs_append pre,
                List.length_append, List.length_append]
              omega
            exact ⟨he, by omega, w'.buf, hw, hfr.mono (Nat.le_refl _) (by omega)⟩
          | ok k w' =>
            rw [hx] at hwr
            obtain ⟨rfl, hk, b, rfl, hfr', hby'⟩ := hwr
            simp only [bind_ok]
            rw [hmb, List.take_left] at hby'
            have hbelow : Fr dst (dst + max) w.buf b := hfr'.mono (by omega) (by omega)
            have e2' := e2.of_below hG hbelow
            have hpl : (labs (pre ++ (pend ++ [l]))).length = (labs pre).length + (labs (pend ++ [l])).length := by
              rw [labs_append, List.length_append]
            have := ih (pre ++ (pend ++ [l])) [] srest [] p p np np { w with buf := b } w0 (by simpa using hok) e2'
              (e3.congr (hbelow.2 p (.inl (hG p e2.mem)))) (by simpa using hlen) e2' rfl
              (by rw [show (W.buf { w with buf := b }) = b from rfl, hbelow.1]; exact hm)
              (by rw [hpl]; exact hk) (by
                rw [labs_append, BytesAt.append]
                refine ⟨hby.congr ?_, hby'⟩
                intro i a1 a2
                exact hfr'.2 i (.inl a2)) (by rw [hw])
              ((hfr.mono (Nat.le_refl _) (by omega)).trans (hfr'.mono (by omega) (by rw [hpl]; omega)))
            rw [hpl] at this
            simp only [List.nil_append, List.append_nil] at this
            rw [show pre ++ pend ++ l :: rest = pre ++ (pend ++ [l]) ++ rest by simp]
            exact this
      · rename_i hx
        exact (hx _ hn).elim

end Knot.Pkt
