import Verif.Pkt.Lemmas2
/-!
# Lemmas about writing names (continued)
-/
namespace Knot.Pkt
open Knot
open Knot.Dname (Name NameAt Valid wire nameLen lowerName lowerByte LabelsOk)

/-- The set with the bytes of `[dst, dst + n)` added. -/
def Ext (G : Nat → Prop) (dst n : Nat) (i : Nat) : Prop := G i ∨ (dst ≤ i ∧ i < dst + n)

/-- The bytes that a compression pointer can point at. -/
def Low (G : Nat → Prop) (i : Nat) : Prop := G i ∧ i < 16384

/-- The compression context's suffix is a name in the settled part of the buffer. -/
def SufOk (G : Nat → Prop) (w : W) : Prop :=
  ∃ ls n, At w.buf (Low G) w.suf ls n ∧ Plain w.buf w.suf ∧ ls.length = w.sufLabels

theorem SufOk.congr {G G' : Nat → Prop} {w w' : W} (h : SufOk G w) (hG : ∀ i, G i → G' i) (hb : ∀ i, G i → w'.buf[i]? = w.buf[i]?)
    (h1 : w'.suf = w.suf) (h2 : w'.sufLabels = w.sufLabels) : SufOk G' w' := by
  obtain ⟨ls, n, a, b, c⟩ := h
  refine ⟨ls, n, ?_, ?_, by rw [h2]; exact c⟩
  · rw [h1]; exact a.congr (fun i hi => ⟨hG i hi.1, hi.2⟩) (fun i hi => hb i hi.1)
  · rw [h1]; exact b.congr (hb _ a.mem.1)

theorem putPointer_spec {w : W} {pos ptr : Nat} (h : pos + 2 ≤ w.buf.length) (h1 : ptr < pos) (h2 : ptr < 16384) :
    ∃ b, putPointer w pos ptr = .ok () { w with buf := b } ∧ Fr pos (pos + 2) w.buf b ∧
      ∃ b1 b2 : UInt8, b[pos]? = some b1 ∧ b[pos + 1]? = some b2 ∧ 192 ≤ b1.toNat ∧ (b1.toNat - 192) * 256 + b2.toNat = ptr := by
  unfold putPointer
  rw [if_neg (by omega), if_neg (by omega)]
  obtain ⟨b, e1, e2, e3⟩ := put_spec (w := w) (pos := pos) (d := [UInt8.ofNat (192 + ptr / 256), UInt8.ofNat (ptr % 256)]) h
  obtain ⟨f1, f2⟩ := BytesAt.cons.mp e3
  obtain ⟨f2, _⟩ := BytesAt.cons.mp f2
  refine ⟨b, e1, e2, _, _, f1, f2, ?_, ?_⟩
  · rw [Dname.ofNat_toNat (by omega)]; omega
  · rw [Dname.ofNat_toNat (by omega), Dname.ofNat_toNat (by omega)]; omega

theorem At.pointer {b : Bytes} {G : Nat → Prop} {pos ptr : Nat} {ls : Name} {n : Nat} {b1 b2 : UInt8} (h1 : b[pos]? = some b1)
    (h2 : b[pos + 1]? = some b2) (h3 : 192 ≤ b1.toNat) (h4 : (b1.toNat - 192) * 256 + b2.toNat = ptr) (hlt : ptr < pos)
    (hg1 : G pos) (hg2 : G (pos + 1)) (h : At b G ptr ls n) : At b G pos ls 2 := by
  subst h4
  exact .ptr hg1 hg2 h1 h2 h3 hlt h

theorem wire_ge {ls : Name} (h : LabelsOk ls) (hne : ls ≠ []) : 3 ≤ nameLen ls := by
  cases ls with
  | nil => exact absurd rfl hne
  | cons l ls =>
    have := h.head
    have := Dname.nameLen_pos ls
    simp only [nameLen]
    omega

theorem finishName_spec {dst max : Nat} {G : Nat → Prop} (hG : ∀ i, G i → i < dst ∧ i < 16384) (t : Bytes) (ls : Name)
    (hok : LabelsOk ls) (w0 w : W) (m : Matched) (hm : dst + max ≤ w.buf.length) (h : MatchPost dst max G t ls w0 m w) :
    (finishName dst max m w).Post
      (fun n w' => ∃ b ls', w' = { w0 with buf := b } ∧ 1 ≤ n ∧ n ≤ max ∧ n ≤ nameLen ls ∧ Fr dst (dst + n) w0.buf b ∧
        At b (Ext G dst n) dst ls' n ∧ lowerName ls' = lowerName ls ∧ (n > 2 → Plain b dst))
      (NameErr w0 dst max (nameLen ls)) := by
  obtain ⟨pre, pend, spend, k, b, rfl, hmb, hrest, hwr, hle, rfl, hfr, hby, hat, hlow⟩ := h
  have hokp : LabelsOk pre := fun x hx => hok x (by simp [hx])
  have hokq : LabelsOk pend := fun x hx => hok x (by simp [hx])
  have hmx : dst + max ≤ b.length := hm
  have hnl : nameLen (pre ++ pend) = (labs pre).length + nameLen pend := by
    rw [← labs_length, labs_append, List.length_append, ← labs_length pend]; omega
  have plain : ∀ (b' : Bytes), BytesAt b' dst (labs pre) → pre ≠ [] → Plain b' dst := by
    intro b' hb' hne
    cases pre with
    | nil => exact absurd rfl hne
    | cons l pre =>
      rw [labs_cons] at hb'
      have := (BytesAt.cons.mp hb').1
      have := hokp.head
      exact ⟨_, by assumption, by rw [Dname.ofNat_toNat (by omega)]; omega⟩
  unfold finishName
  by_cases hp : pend = []
  · subst hp
    rw [if_pos (by rw [hmb, hrest]), hwr, hrest]
    refine Post.mono (writeLabel_spec hm (by simp [wire])) ?_ ?_
    · rintro n w' ⟨rfl, hn, b', rfl, hfr', hby'⟩
      have hz : b'[dst + (labs pre).length]? = some 0 := by
        have := hby' 0 (by simp [wire])
        simpa [wire] using this
      refine ⟨b', pre, rfl, by omega, hn, by rw [hnl]; simp [nameLen], ?_, ?_, by simp, ?_⟩
      · exact (hfr.mono (Nat.le_refl _) (by omega)).trans (hfr'.mono (by omega) (by omega))
      · have hby2 : BytesAt b' dst (labs pre) := hby.congr (fun i _ a2 => hfr'.2 i (.inl a2))
        have := At.prepend (G := Ext G dst ((labs pre).length + 1)) pre hokp (fun i a1 a2 => .inr ⟨a1, by omega⟩) hby2
          (.root (.inr ⟨by omega, by omega⟩) hz)
        simpa using this
      · intro h2
        refine plain b' (hby.congr (fun i _ a2 => hfr'.2 i (.inl a2))) ?_
        intro hpre
        rw [hpre] at h2
        simp [labs] at h2
    · rintro e w' ⟨he, rfl, hx⟩
      exact ⟨he, by rw [hnl]; simp only [nameLen]; omega, b, rfl, hfr.mono (Nat.le_refl _) (by omega)⟩
  · have h3 := wire_ge hokq hp
    have hneq : m.mb.length ≠ m.rest.length := by
      rw [hmb, hrest]
      simp only [List.length_append, Dname.wire_length]
      simp only [nameLen]
      omega
    rw [if_neg hneq]
    by_cases hs : m.written + 2 > max
    · rw [if_pos hs]
      exact ⟨rfl, by rw [hnl]; omega, b, rfl, hfr.mono (Nat.le_refl _) (by omega)⟩
    · rw [if_neg hs]
      have hcp := hG _ hat.mem
      obtain ⟨b', e1, e2, b1, b2, e3, e4, e5, e6⟩ := putPointer_spec (w := { w0 with buf := b }) (pos := dst + m.written) (ptr := m.cptr)
        (by show dst + m.written + 2 ≤ b.length; omega) (by omega) hcp.2
      rw [e1, bind_ok]
      have e2 : Fr (dst + m.written) (dst + m.written + 2) b b' := e2
      have hby2 : BytesAt b' dst (labs pre) := hby.congr (fun i _ a2 => e2.2 i (.inl (by omega)))
      have hat2 : At b' (Ext G dst (m.written + 2)) m.cptr spend k :=
        hat.congr (fun i hi => .inl hi) (fun i hi => e2.2 i (.inl (by have := hG i hi; omega)))
      have hptr := At.pointer (G := Ext G dst (m.written + 2)) e3 e4 e5 e6 (by omega) (.inr ⟨by omega, by omega⟩)
        (.inr ⟨by omega, by omega⟩) hat2
      rw [hwr] at hptr
      have := At.prepend (G := Ext G dst ((labs pre).length + 2)) pre hokp (fun i a1 a2 => .inr ⟨a1, by omega⟩) hby2 hptr
      refine ⟨b', pre ++ spend, rfl, by omega, by omega, by rw [hnl]; omega,
        (hfr.mono (Nat.le_refl _) (by omega)).trans (e2.mono (by omega) (by omega)), ?_, ?_, ?_⟩
      · rw [hwr]; exact this
      · unfold lowerName at hlow ⊢
        rw [List.map_append, List.map_append, hlow]
      · intro h2
        refine plain b' hby2 ?_
        intro hpre
        rw [hpre] at hwr
        simp only [labs, List.flatMap_nil, List.length_nil] at hwr
        omega

theorem lowerName_length {a b : Name} (h : lowerName a = lowerName b) : a.length = b.length := by
  have := congrArg List.length h
  simpa [lowerName] using this

/-- A name has been written at `dst`. -/
def NamePost (w : W) (dst max : Nat) (G : Nat → Prop) (ls : Name) (n : Nat) (w' : W) : Prop :=
  ∃ b suf sl, w' = { w with buf := b, suf := suf, sufLabels := sl } ∧ 1 ≤ n ∧ n ≤ max ∧ n ≤ nameLen ls ∧
    Fr dst (dst + n) w.buf b ∧ (∃ ls', At b (Ext G dst n) dst ls' n ∧ lowerName ls' = lowerName ls) ∧ SufOk (Ext G dst n) w' ∧
    ((suf = w.suf ∧ sl = w.sufLabels) ∨ suf = dst)

theorem labels_lt {ls : Name} (h : Valid ls) : ls.length < 128 := by
  have key : ∀ ls : Name, LabelsOk ls → 2 * ls.length + 1 ≤ nameLen ls := by
    intro ls
    induction ls with
    | nil => intro _; simp [nameLen]
    | cons l ls ih =>
      intro h
      have := ih h.tail
      have := h.head
      simp only [nameLen, List.length_cons]
      omega
  have := key ls h.1
  have := h.2
  omega

theorem comprName_spec {dst max : Nat} {G : Nat → Prop} (hG : ∀ i, G i → i < dst) (t : Bytes) (ls : Name)
    (hv : Valid ls) (w : W) (hm : dst + max ≤ w.buf.length) (hd : dst + max ≤ 65535) (hs : SufOk G w) :
    (comprName (wire ls ++ t) dst max w).Post (NamePost w dst max G ls) (NameErr w dst max (nameLen ls)) := by
  obtain ⟨sls, sn, sat, spl, slen⟩ := hs
  have hGL : ∀ i, Low G i → i < dst := fun i hi => hG i hi.1
  have hok : LabelsOk ls := hv.1
  have h128 := labels_lt hv
  unfold comprName
  rw [ask_ok (Dname.labels_wire t hok), bind_ok]
  obtain ⟨p, n', e1, e2, e3⟩ := skipSuffix_spec (w.sufLabels - ls.length) sat spl (by omega)
  rw [ask_ok e1, bind_ok]
  -- the name in two parts
  obtain ⟨a, r, hls, hal, hrl⟩ : ∃ a r, ls = a ++ r ∧ a.length = ls.length - min w.sufLabels ls.length ∧
      r.length = (sls.drop (w.sufLabels - ls.length)).length := by
    refine ⟨ls.take (ls.length - min w.sufLabels ls.length), ls.drop (ls.length - min w.sufLabels ls.length),
      (List.take_append_drop _ _).symm, ?_, ?_⟩
    · rw [List.length_take]; omega
    · rw [List.length_drop, List.length_drop]; omega
  rw [← hal]
  subst hls
  refine Post.bind (Post.mono (alignLabels_spec a r t hok w 0 hm (by omega)) (fun _ _ h => h) (fun _ _ h => by rwa [Nat.zero_add] at h)) ?_
  rintro x w1 ⟨rfl, hx, b1, rfl, hfr1, hby1⟩
  simp only [Nat.zero_add, Nat.add_zero] at hx hfr1 hby1 ⊢
  have hb1 : Fr dst (dst + max) w.buf b1 := hfr1.mono (Nat.le_refl _) (by omega)
  have e2' := e2.of_below hGL hb1
  have hml := matchLoop_spec (dst := dst) (max := max) hGL t r a [] (sls.drop (w.sufLabels - (a ++ r).length)) [] p p n' n'
    { w with buf := b1 } w (by simpa using hok) e2' (e3.congr (hb1.2 p (.inl (hGL p e2.mem)))) hrl.symm e2' rfl
    (by rw [show (W.buf { w with buf := b1 }) = b1 from rfl, hb1.1]; exact hm) hx hby1 rfl hfr1
  simp only [List.nil_append, List.append_nil] at hml
  refine Post.bind (Post.mono hml (fun _ _ h => h) (fun _ _ h => h)) ?_
  intro m w2 hmp
  have hw2 : dst + max ≤ w2.buf.length := by
    obtain ⟨_, _, _, _, b, _, _, _, _, h5, rfl, h7, _⟩ := hmp
    show dst + max ≤ b.length
    rw [h7.1]; exact hm
  refine Post.bind (Post.mono (finishName_spec (G := Low G) (fun i hi => ⟨hGL i hi, hi.2⟩) t (a ++ r) hok w w2 m hw2 hmp)
    (fun _ _ h => h) (fun _ _ h => h)) ?_
  rintro n w3 ⟨b, ls', rfl, h1, h2, h3, h4, h5, h6, h7⟩
  rw [if_neg (by omega)]
  have hll := lowerName_length h6
  have hext : ∀ i, Ext (Low G) dst n i → Ext G dst n i := fun i hi => hi.imp (fun h => h.1) (fun h => h)
  have hat := h5.congr (buf' := b) hext (fun _ _ => rfl)
  unfold newSuffix
  by_cases hc : n > 2 ∧ dst + n < 16383
  · rw [if_pos hc]
    refine ⟨b, dst, (a ++ r).length % 256, rfl, h1, h2, h3, h4, ⟨ls', hat, h6⟩, ⟨ls', n, ?_, h7 hc.1, ?_⟩, .inr rfl⟩
    · refine h5.congr (buf' := b) ?_ (fun _ _ => rfl)
      rintro i (hi | hi)
      · exact ⟨.inl hi.1, hi.2⟩
      · exact ⟨.inr hi, by omega⟩
    · show ls'.length = (a ++ r).length % 256
      rw [hll]; omega
  · rw [if_neg hc]
    refine ⟨b, w.suf, w.sufLabels, rfl, h1, h2, h3, h4, ⟨ls', hat, h6⟩, ⟨sls, sn, ?_, ?_, slen⟩, .inl ⟨rfl, rfl⟩⟩
    · exact sat.congr (buf' := b) (fun i hi => ⟨.inl hi.1, hi.2⟩) (fun i hi => h4.2 i (.inl (hGL i hi)))
    · exact spl.congr (h4.2 _ (.inl (hGL _ sat.mem)))

theorem toWire_spec {dst max : Nat} (t : Bytes) (ls : Name) (hok : LabelsOk ls) (w : W) (hm : dst + max ≤ w.buf.length) :
    (toWire w dst max (wire ls ++ t)).Post
      (fun n w' => n = nameLen ls ∧ n ≤ max ∧ ∃ b, w' = { w with buf := b } ∧ Fr dst (dst + n) w.buf b ∧ BytesAt b dst (wire ls))
      (NameErr w dst max (nameLen ls)) := by
  unfold toWire
  rw [ask_ok (Dname.size_wire t hok), bind_ok]
  by_cases h : nameLen ls > max
  · rw [if_pos h]; exact ⟨rfl, h, w.buf, rfl, Fr.refl _ _ _⟩
  · rw [if_neg h, if_neg (by rw [List.length_append, Dname.wire_length]; omega)]
    have htk : (wire ls ++ t).take (nameLen ls) = wire ls := by rw [← Dname.wire_length, List.take_left]
    rw [htk]
    obtain ⟨b, e1, e2, e3⟩ := put_spec (w := w) (pos := dst) (d := wire ls) (by rw [Dname.wire_length]; omega)
    rw [e1, bind_ok]
    rw [Dname.wire_length] at e2
    exact ⟨rfl, by omega, b, rfl, e2, e3⟩

theorem At.of_wire {b : Bytes} {G : Nat → Prop} {dst : Nat} {ls : Name} (hok : LabelsOk ls) (h : BytesAt b dst (wire ls))
    (hG : ∀ i, dst ≤ i → i < dst + nameLen ls → G i) : At b G dst ls (nameLen ls) := by
  have hl := labs_length ls
  rw [wire_labs, BytesAt.append] at h
  have := At.prepend (G := G) ls hok (fun i a1 a2 => hG i a1 (by omega)) h.1
    (.root (hG _ (by omega) (by omega)) (BytesAt.cons.mp h.2).1)
  rw [List.append_nil, hl] at this
  exact this

/-- `compr_put_dname` with a compression context. -/
theorem comprPut_spec {dst max : Nat} {G : Nat → Prop} (hG : ∀ i, G i → i < dst) (t : Bytes) (ls : Name)
    (hv : Valid ls) (w : W) (hm : dst + max ≤ w.buf.length) (hd : dst + max ≤ 65535) (hs : SufOk G w) :
    (comprPutDname true (wire ls ++ t) dst max w).Post (NamePost w dst max G ls) (NameErr w dst max (nameLen ls)) := by
  unfold comprPutDname
  cases ls with
  | nil =>
    rw [ask_ok (show Res.rd (wire [] ++ t) 0 = .ok 0 from rfl), bind_ok, if_pos (.inr rfl)]
    refine Post.mono (toWire_spec t [] hv.1 w hm) ?_ (fun _ _ h => h)
    rintro n w' ⟨rfl, h1, b, rfl, h2, h3⟩
    refine ⟨b, w.suf, w.sufLabels, rfl, by simp [nameLen], h1, by simp, h2, ⟨[], ?_, rfl⟩, ?_, .inl ⟨rfl, rfl⟩⟩
    · exact At.of_wire hv.1 h3 (fun i a1 a2 => .inr ⟨a1, a2⟩)
    · exact hs.congr (fun i hi => .inl hi) (fun i hi => h2.2 i (.inl (hG i hi))) rfl rfl
  | cons l ls =>
    have hok : LabelsOk (l :: ls) := hv.1
    have := hok.head
    rw [ask_ok (show Res.rd (wire (l :: ls) ++ t) 0 = .ok (UInt8.ofNat l.length) from rfl), bind_ok,
      if_neg (by rw [hok.head_toNat]; intro h; rcases h with h | h; cases h; omega)]
    exact comprName_spec hG t (l :: ls) hv w hm hd hs

/-- `compr_put_dname` without a compression context. -/
theorem plainPut_spec {dst max : Nat} (t : Bytes) (ls : Name) (hok : LabelsOk ls) (w : W) (hm : dst + max ≤ w.buf.length) :
    (comprPutDname false (wire ls ++ t) dst max w).Post
      (fun n w' => n = nameLen ls ∧ n ≤ max ∧ ∃ b, w' = { w with buf := b } ∧ Fr dst (dst + n) w.buf b ∧ BytesAt b dst (wire ls))
      (NameErr w dst max (nameLen ls)) := by
  unfold comprPutDname
  obtain ⟨b, hb⟩ : ∃ b, Res.rd (wire ls ++ t) 0 = .ok b := by cases ls <;> exact ⟨_, rfl⟩
  rw [ask_ok hb, bind_ok, if_pos (.inl rfl)]
  exact toWire_spec t ls hok w hm

end Knot.Pkt
