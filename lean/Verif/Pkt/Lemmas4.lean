import Verif.Pkt.Lemmas3
/-!
# Lemmas about writing owner names
-/
namespace Knot.Pkt
open Knot
open Knot.Dname (Name NameAt Valid wire nameLen lowerName lowerByte LabelsOk)

/-! ## Invariant of the compression context -/

/-- QNAME is in the settled part. -/
def QOk (G : Nat → Prop) (w : W) : Prop :=
  ∃ ls, Valid ls ∧ BytesAt w.buf 12 (wire ls) ∧ ∀ i, 12 ≤ i → i < 12 + nameLen ls → G i

/-- Every hint refers to one of the names allowed for it; hints for the root are never used. -/
def HintsOk (own : Nat → List Name) (G : Nat → Prop) (w : W) : Prop :=
  ∀ k, w.hints k = 0 ∨ own k = [[]] ∨ (w.hints k < 16384 ∧ ∃ ls n nm, At w.buf G (w.hints k) ls n ∧ nm ∈ own k ∧ lowerName ls = lowerName nm)

/-- Names allowed for each hint, and the settled part of the buffer, ending before `d0`, when writing
of the record set began. -/
structure Env where
  own : Nat → List Name
  G0 : Nat → Prop
  d0 : Nat

/-- The suffix was already there at the beginning, or has been written since; without compression
there is none. -/
def Base (c : Bool) (own : Env) (w : W) : Prop := (c = false → w.suf = 0) ∧ (c = true → SufOk own.G0 w ∨ own.d0 ≤ w.suf)

/-- The invariant; `c` tells whether there is a compression context. -/
def Ok (c : Bool) (own : Env) (G : Nat → Prop) (w : W) : Prop :=
  HintsOk own.own G w ∧ (c = true → SufOk G w ∧ QOk own.G0 w) ∧ (∀ i, own.G0 i → G i) ∧ Base c own w

theorem QOk.congr {G G' : Nat → Prop} {w w' : W} (h : QOk G w) (hG : ∀ i, G i → G' i) (hb : ∀ i, G i → w'.buf[i]? = w.buf[i]?) :
    QOk G' w' := by
  obtain ⟨ls, a, b, c⟩ := h
  exact ⟨ls, a, b.congr (fun i h1 h2 => hb i (c i h1 (by rw [Dname.wire_length] at h2; exact h2))), fun i h1 h2 => hG i (c i h1 h2)⟩

theorem QOk.at {G : Nat → Prop} {w : W} (h : QOk G w) :
    ∃ ls, Valid ls ∧ At w.buf (Low G) 12 ls (nameLen ls) ∧ Plain w.buf 12 ∧ ls.length < w.buf.length := by
  obtain ⟨ls, a, b, c⟩ := h
  refine ⟨ls, a, At.of_wire a.1 b (fun i h1 h2 => ⟨c i h1 h2, by have := a.2; omega⟩), ?_, ?_⟩
  · have hok : LabelsOk ls := a.1
    cases ls with
    | nil => exact ⟨0, (BytesAt.cons.mp b).1, by simp⟩
    | cons l ls =>
      have := hok.head
      exact ⟨_, (BytesAt.cons.mp b).1, by rw [hok.head_toNat]; omega⟩
  · have hl : ls.length < nameLen ls := by
      clear a b c
      induction ls with
      | nil => simp [nameLen]
      | cons l ls ih => simp only [nameLen, List.length_cons]; omega
    have := b (nameLen ls - 1) (by rw [Dname.wire_length]; omega)
    rw [List.getElem?_eq_getElem (l := wire ls) (by rw [Dname.wire_length]; omega)] at this
    have := (List.getElem?_eq_some_iff.mp this).1
    omega

theorem HintsOk.congr {own : Nat → List Name} {G G' : Nat → Prop} {w w' : W} (h : HintsOk own G w) (hG : ∀ i, G i → G' i)
    (hb : ∀ i, G i → w'.buf[i]? = w.buf[i]?) (hh : w'.hints = w.hints) : HintsOk own G' w' := by
  intro k
  rw [hh]
  rcases h k with h | h | ⟨h1, ls, n, nm, h2, h3, h4⟩
  · exact .inl h
  · exact .inr (.inl h)
  · exact .inr (.inr ⟨h1, ls, n, nm, h2.congr hG hb, h3, h4⟩)

theorem Base.congr {c : Bool} {own : Env} {w w' : W} (h : Base c own w) (hb : ∀ i, own.G0 i → w'.buf[i]? = w.buf[i]?)
    (h1 : w'.suf = w.suf) (h2 : w'.sufLabels = w.sufLabels) : Base c own w' :=
  ⟨fun hc => by rw [h1]; exact h.1 hc, fun hc => (h.2 hc).imp (fun h => h.congr (fun _ h => h) hb h1 h2) (fun h => by rw [h1]; exact h)⟩

theorem Ok.congr {c : Bool} {own : Env} {G G' : Nat → Prop} {w w' : W} (h : Ok c own G w) (hG : ∀ i, G i → G' i)
    (hb : ∀ i, G i → w'.buf[i]? = w.buf[i]?) (hh : w'.hints = w.hints) (h1 : w'.suf = w.suf) (h2 : w'.sufLabels = w.sufLabels) :
    Ok c own G' w' :=
  ⟨h.1.congr hG hb hh, fun hc => ⟨(h.2.1 hc).1.congr hG hb h1 h2, (h.2.1 hc).2.congr (fun _ h => h) (fun i hi => hb i (h.2.2.1 i hi))⟩,
    fun i hi => hG i (h.2.2.1 i hi), h.2.2.2.congr (fun i hi => hb i (h.2.2.1 i hi)) h1 h2⟩

theorem At.hintTarget {w : W} {G : Nat → Prop} {pos : Nat} {ls : Name} {n : Nat} (h : At w.buf G pos ls n) (hp : pos < 65536) :
    ∃ v m, Pkt.hintTarget w pos = .ok v ∧ At w.buf G v ls m := by
  unfold Pkt.hintTarget Res.rd
  cases h with
  | root h1 h2 =>
    rw [h2]
    refine ⟨pos % 65536, 1, rfl, ?_⟩
    rw [Nat.mod_eq_of_lt hp]
    exact .root h1 h2
  | @label _ l ls m h1 h2 h3 h4 h5 =>
    rw [(BytesAt.cons.mp h4).1]
    refine ⟨pos % 65536, _, ?_, by rw [Nat.mod_eq_of_lt hp]; exact .label h1 h2 h3 h4 h5⟩
    simp only [Res.bind_ok]
    rw [if_neg (by rw [Dname.isPtr_iff, Dname.ofNat_toNat (by omega)]; omega)]
  | @ptr _ _ m b1 b2 h1 h2 h3 h4 h5 h6 h7 =>
    rw [h3]
    refine ⟨_, m, ?_, h7⟩
    simp only [Res.bind_ok]
    rw [if_pos ((Dname.isPtr_iff _).mpr h5), h4]
    simp only [Res.bind_ok]
    rw [Dname.getPtr_eq b2 h5]

theorem setHint_spec {c : Bool} {own : Env} {G : Nat → Prop} {w : W} {hint pos size : Nat} {ls nm : Name} {n : Nat}
    (h : Ok c own G w) (hat : At w.buf G pos ls n) (hp : pos < 65536) (hown : nm ∈ own.own hint) (hl : lowerName ls = lowerName nm) :
    (setHint c w hint pos size).Post (fun _ w' => w'.buf = w.buf ∧ Ok c own G w') (fun _ _ => False) := by
  unfold setHint
  cases c with
  | false => exact ⟨rfl, h⟩
  | true =>
    rw [if_pos rfl]
    obtain ⟨v, m, e1, e2⟩ := hat.hintTarget hp
    rw [ask_ok e1, bind_ok]
    refine ⟨by unfold hintSet; split <;> rfl, ?_⟩
    unfold hintSet
    by_cases hc : hint < 16 ∧ v + size < 16383
    · rw [if_pos hc]
      refine ⟨?_, h.2⟩
      intro k
      by_cases hk : k = hint
      · subst hk
        simp only [if_true]
        exact .inr (.inr ⟨by omega, ls, m, nm, e2, hown, hl⟩)
      · simp only [if_neg hk]
        exact h.1 k
    · rw [if_neg hc]
      exact h

/-! ## Owner -/

theorem lowerName_idem (a : Name) : lowerName (lowerName a) = lowerName a := by
  simp only [lowerName, List.map_map]
  apply List.map_congr_left
  intro l _
  simp only [Function.comp_apply, List.map_map]
  apply List.map_congr_left
  intro b _
  exact lowerByte_idem b

theorem equalLoop_spec {mem : Bytes} {G : Nat → Prop} (t : Bytes) (ls : Name) (hok : LabelsOk ls) :
    ∀ {pos : Nat} {sls : Name} {n : Nat}, At mem G pos sls n → Plain mem pos →
    equalLoop (wire ls ++ t) mem pos = .ok (decide (ls = lowerName sls)) := by
  induction ls with
  | nil =>
    intro pos sls n h hp
    unfold equalLoop
    cases sls with
    | nil =>
      rw [h.nil_plain hp]
      simp [wire, lowerName]
    | cons s sls =>
      obtain ⟨m, h1, h2, h3, h4, h5⟩ := hp.label h
      have hb := (BytesAt.cons.mp h4).1
      rw [hb]
      simp only [wire, List.singleton_append]
      rw [if_neg (by rw [Dname.ofNat_toNat (by omega)]; omega)]
      have : labelEq (0 :: t) mem pos = .ok false := by
        unfold labelEq
        simp only [Res.rd, List.getElem?_cons_zero, hb, Res.bind_ok]
        rw [if_pos (by rw [Dname.ofNat_toNat (by omega), UInt8.toNat_zero]; omega)]
      rw [this]
      simp [lowerName]
  | cons l ls ih =>
    intro pos sls n h hp
    have hh := hok.head
    have hwl : wire (l :: ls) ++ t = UInt8.ofNat l.length :: (l ++ wire ls ++ t) := by simp [wire]
    have hn := Dname.nextLabel_wire t hok
    cases sls with
    | nil =>
      have hb := h.nil_plain hp
      rw [hwl]
      unfold equalLoop
      rw [hb]
      simp only
      rw [if_neg (by rw [Dname.ofNat_toNat (by omega)]; omega)]
      have : labelEq (UInt8.ofNat l.length :: (l ++ wire ls ++ t)) mem pos = .ok false := by
        unfold labelEq
        simp only [Res.rd, List.getElem?_cons_zero, hb, Res.bind_ok]
        rw [if_pos (by rw [Dname.ofNat_toNat (by omega), UInt8.toNat_zero]; omega)]
      rw [this]
      simp [lowerName]
    | cons s sls =>
      obtain ⟨m, h1, h2, h3, h4, h5⟩ := hp.label h
      have hb := (BytesAt.cons.mp h4).1
      have heq := labelEq_spec (ls := ls) t hh.2 h3 h4
      obtain ⟨p, np, e1, e2, e3⟩ := h.next hp
      rw [hwl] at hn heq ⊢
      unfold equalLoop
      rw [hb]
      simp only
      rw [if_neg (by rw [Dname.ofNat_toNat (by omega)]; omega), heq]
      by_cases hls : l = s.map lowerByte
      · rw [decide_eq_true hls]
        simp only
        split
        · rename_i n1 hn1
          rw [hn] at hn1
          cases hn1
          rw [e1]
          simp only
          rw [ih hok.tail e2 e3]
          congr 1
          apply decide_eq_decide.mpr
          simp [lowerName, ← hls]
        · rename_i hx
          exact (hx _ hn).elim
      · rw [decide_eq_false hls]
        simp [lowerName, hls]

theorem equalWire_spec {mem : Bytes} {G : Nat → Prop} {pos : Nat} {sls ls : Name} {n : Nat} (t : Bytes) (hok : LabelsOk ls)
    (h : At mem G pos sls n) : equalWire (wire ls ++ t) mem pos = .ok (decide (ls = lowerName sls)) := by
  obtain ⟨p, n', e1, e2, e3⟩ := h.seek
  unfold equalWire
  rw [e1, Res.bind_ok]
  exact equalLoop_spec t ls hok e2 e3

/-- Failure for lack of space for `need` octets; bytes outside `[dst, dst + avail)` are kept. -/
def SpaceErr (c : Bool) (own : Env) (w : W) (cur : Cur) (need : Nat) (e : Err) (w' : W) : Prop :=
  e = .espace ∧ Fr cur.dst (cur.dst + cur.avail) w.buf w'.buf ∧ Base c own w' ∧ cur.avail < need

/-- An owner has been written at `cur`. -/
def OwnerPost (c : Bool) (own : Env) (G : Nat → Prop) (ls : Name) (cur : Cur) (w : W) (cur' : Cur) (w' : W) : Prop :=
  ∃ n, cur' = cur.adv n ∧ 1 ≤ n ∧ n ≤ cur.avail ∧ n ≤ nameLen ls ∧ Fr cur.dst (cur.dst + n) w.buf w'.buf ∧
    (∃ ls', At w'.buf (Ext G cur.dst n) cur.dst ls' n ∧ lowerName ls' = lowerName ls) ∧ Ok c own (Ext G cur.dst n) w'

theorem ownerPointer_spec {c : Bool} {own : Env} {G : Nat → Prop} {cur : Cur} {w : W} {ptr : Nat} {ls ls' : Name} {n : Nat}
    (hG : ∀ i, G i → i < cur.dst) (hm : cur.dst + cur.avail ≤ w.buf.length) (h : Ok c own G w) (hp : ptr < 16384)
    (hat : At w.buf G ptr ls' n) (hl : lowerName ls' = lowerName ls) (h3 : 3 ≤ nameLen ls) :
    (ownerPointer ptr cur w).Post (fun cur' w' => OwnerPost c own G ls cur w cur' w' ∧ w'.suf = w.suf) (SpaceErr c own w cur (nameLen ls)) := by
  unfold ownerPointer
  by_cases h2 : 2 > cur.avail
  · rw [if_pos h2]; exact ⟨rfl, Fr.refl _ _ _, h.2.2.2, by omega⟩
  · rw [if_neg h2]
    have hlt := hG _ hat.mem
    obtain ⟨b, e1, e2, b1, b2, e3, e4, e5, e6⟩ := putPointer_spec (w := w) (pos := cur.dst) (ptr := ptr) (by omega) hlt hp
    rw [e1, bind_ok]
    refine ⟨⟨2, rfl, by omega, by omega, by omega, e2, ⟨ls', ?_, hl⟩, ?_⟩, rfl⟩
    · exact At.pointer e3 e4 e5 e6 hlt (.inr ⟨by omega, by omega⟩) (.inr ⟨by omega, by omega⟩)
        (hat.congr (fun i hi => .inl hi) (fun i hi => e2.2 i (.inl (hG i hi))))
    · exact h.congr (fun i hi => .inl hi) (fun i hi => e2.2 i (.inl (hG i hi))) rfl rfl rfl

theorem resetSuffix_spec {c : Bool} {own : Env} {G : Nat → Prop} {w : W} (h1 : HintsOk own.own G w)
    (h2 : c = true → QOk own.G0 w) (h3 : ∀ i, own.G0 i → G i) (h0 : c = false → w.suf = 0) :
    (resetSuffix c w).Post (fun _ w' => w'.buf = w.buf ∧ Ok c own G w') (fun _ _ => False) := by
  unfold resetSuffix
  cases c with
  | false => exact ⟨rfl, h1, by simp, h3, h0, fun h => by cases h⟩
  | true =>
    rw [if_pos rfl]
    obtain ⟨ls, hv, q1, ⟨b, hb, h63⟩, q3⟩ := (h2 rfl).at
    have hq : qnameLabels w.buf = .ok ls.length := by
      unfold qnameLabels
      rw [Dname.labelsWire_of_NameAt ls (q1.nameAt (e := 16384) (fun i hi => hi.2)) hb h63 (by omega)]
    rw [ask_ok hq, bind_ok]
    have hl : ls.length = ls.length % 256 := by have := labels_lt hv; omega
    refine ⟨rfl, h1, fun _ => ⟨⟨ls, _, q1.congr (fun i hi => ⟨h3 i hi.1, hi.2⟩) (fun _ _ => rfl), ⟨b, hb, h63⟩, hl⟩, h2 rfl⟩,
      h3, fun h => (by cases h), fun _ => .inl ⟨ls, _, q1, ⟨b, hb, h63⟩, hl⟩⟩

theorem ownerSuffix_spec {c : Bool} {own : Env} {G : Nat → Prop} {cur : Cur} {w : W} {ls sls : Name} {n : Nat}
    (hG : ∀ i, G i → i < cur.dst) (hm : cur.dst + cur.avail ≤ w.buf.length) (h : Ok c own G w) (hok : LabelsOk ls)
    (hat : At w.buf (Low G) w.suf sls n) (hl : ls = lowerName sls) (hne : ls ≠ []) (hown : ls ∈ own.own 0) :
    (ownerSuffix c (wire ls) cur w).Post (OwnerPost c own G ls cur w) (SpaceErr c own w cur (nameLen ls)) := by
  have hll : lowerName sls = lowerName ls := by rw [hl, lowerName_idem]
  have hatG : At w.buf G w.suf sls n := hat.congr (fun i hi => hi.1) (fun _ _ => rfl)
  unfold ownerSuffix
  refine Post.bind (ownerPointer_spec (ls := ls) hG hm h hat.mem.2 hatG hll (wire_ge hok hne)) ?_
  rintro cur' w' ⟨⟨k, rfl, h1, h2, h3, h4, h5, h6⟩, hs⟩
  have hsz := Dname.size_wire [] hok
  rw [List.append_nil] at hsz
  rw [ask_ok hsz, bind_ok, hs]
  have hat' : At w'.buf (Ext G cur.dst k) w.suf sls n := hatG.congr (fun i hi => .inl hi) (fun i hi => h4.2 i (.inl (hG i hi)))
  refine Post.bind (Post.mono (setHint_spec h6 hat' (by have := hat.mem.2; omega) hown hll) (fun _ _ h => h) (fun _ _ h => h.elim)) ?_
  rintro _ w'' ⟨hb, hok''⟩
  exact ⟨k, rfl, h1, h2, h3, by rw [hb]; exact h4, by rw [hb]; exact h5, hok''⟩

theorem ownerName_spec {c : Bool} {own : Env} {G : Nat → Prop} {cur : Cur} {w : W} {ls : Name}
    (hG : ∀ i, G i → i < cur.dst) (hm : cur.dst + cur.avail ≤ w.buf.length) (hd : cur.dst + cur.avail ≤ 65535) (h : Ok c own G w) (hv : Valid ls) (h0 : own.d0 ≤ cur.dst)
    (hown : ls ∈ own.own 0) :
    (ownerName c (wire ls) cur w).Post (OwnerPost c own G ls cur w) (SpaceErr c own w cur (nameLen ls)) := by
  unfold ownerName
  refine Post.bind (Post.mono (resetSuffix_spec h.1 (fun hc => (h.2.1 hc).2) h.2.2.1 h.2.2.2.1) (fun _ _ h => h) (fun _ _ h => h.elim)) ?_
  rintro _ w1 ⟨hb1, h1⟩
  have hmx : cur.dst + dnameMax cur.avail ≤ w1.buf.length := by rw [hb1]; unfold dnameMax; omega
  have hmax : dnameMax cur.avail ≤ cur.avail := by unfold dnameMax; omega
  have hput : (comprPutDname c (wire ls) cur.dst (dnameMax cur.avail) w1).Post
      (fun n w' => 1 ≤ n ∧ n ≤ cur.avail ∧ n ≤ nameLen ls ∧ Fr cur.dst (cur.dst + n) w1.buf w'.buf ∧
        (∃ ls', At w'.buf (Ext G cur.dst n) cur.dst ls' n ∧ lowerName ls' = lowerName ls) ∧ Ok c own (Ext G cur.dst n) w')
      (SpaceErr c own w cur (nameLen ls)) := by
    cases c with
    | true =>
      have := comprPut_spec hG [] ls hv w1 hmx (by unfold dnameMax; omega) (h1.2.1 rfl).1
      rw [List.append_nil] at this
      refine Post.mono this ?_ ?_
      · rintro n w' ⟨b, suf, sl, rfl, a1, a2, a3, a4, a5, a6, a7⟩
        have hk : ∀ i, G i → b[i]? = w1.buf[i]? := fun i hi => a4.2 i (.inl (hG i hi))
        refine ⟨a1, by omega, a3, a4, a5, ?_, fun _ => ⟨a6, ?_⟩, fun i hi => .inl (h1.2.2.1 i hi), ?_⟩
        · exact h1.1.congr (fun i hi => .inl hi) hk rfl
        · exact (h1.2.1 rfl).2.congr (fun _ h => h) (fun i hi => hk i (h1.2.2.1 i hi))
        · rcases a7 with ⟨rfl, rfl⟩ | rfl
          · exact h1.2.2.2.congr (fun i hi => hk i (h1.2.2.1 i hi)) rfl rfl
          · exact ⟨fun h => (by cases h), fun _ => .inr h0⟩
      · rintro e w' ⟨he, hx, b, rfl, hf⟩
        exact ⟨he, by rw [← hb1]; exact hf.mono (Nat.le_refl _) (by omega),
          h1.2.2.2.congr (fun i hi => hf.2 i (.inl (hG i (h1.2.2.1 i hi)))) rfl rfl,
          by have : nameLen ls ≤ 255 := hv.2; unfold dnameMax at hx; omega⟩
    | false =>
      have := plainPut_spec (dst := cur.dst) (max := dnameMax cur.avail) [] ls hv.1 w1 hmx
      rw [List.append_nil] at this
      refine Post.mono this ?_ ?_
      · rintro n w' ⟨rfl, a2, b, rfl, a4, a5⟩
        refine ⟨Dname.nameLen_pos ls, by omega, Nat.le_refl _, a4, ⟨ls, At.of_wire hv.1 a5 (fun i x y => .inr ⟨x, y⟩), rfl⟩, ?_⟩
        exact h1.congr (fun i hi => .inl hi) (fun i hi => a4.2 i (.inl (hG i hi))) rfl rfl rfl
      · rintro e w' ⟨he, hx, b, rfl, hf⟩
        exact ⟨he, by rw [← hb1]; exact hf.mono (Nat.le_refl _) (by omega),
          h1.2.2.2.congr (fun i hi => hf.2 i (.inl (hG i (h1.2.2.1 i hi)))) rfl rfl,
          by have : nameLen ls ≤ 255 := hv.2; unfold dnameMax at hx; omega⟩
  refine Post.bind hput ?_
  rintro n w2 ⟨a1, a2, a3, a4, ⟨ls', a5, a6⟩, a7⟩
  refine Post.bind (Post.mono (setHint_spec a7 a5 (by omega) hown a6) (fun _ _ h => h) (fun _ _ h => h.elim)) ?_
  rintro _ w3 ⟨hb3, h3⟩
  exact ⟨n, rfl, a1, a2, by omega, by rw [hb3, ← hb1]; exact a4, ⟨ls', by rw [hb3]; exact a5, a6⟩, h3⟩

theorem writeOwner_spec {c : Bool} {own : Env} {G : Nat → Prop} {cur : Cur} {w : W} {ls : Name}
    (hG : ∀ i, G i → i < cur.dst) (hm : cur.dst + cur.avail ≤ w.buf.length) (hd : cur.dst + cur.avail ≤ 65535) (h : Ok c own G w) (hv : Valid ls) (h0 : own.d0 ≤ cur.dst)
    (hown : own.own 0 = [ls]) :
    (writeOwner c (wire ls) cur w).Post (OwnerPost c own G ls cur w) (SpaceErr c own w cur (nameLen ls)) := by
  have hmem : ls ∈ own.own 0 := by rw [hown]; simp
  unfold writeOwner
  obtain ⟨b, hb, hb0⟩ : ∃ b : UInt8, Res.rd (wire ls) 0 = .ok b ∧ (b.toNat = 0 ↔ ls = []) := by
    have hok : LabelsOk ls := hv.1
    cases ls with
    | nil => exact ⟨0, rfl, by simp⟩
    | cons l ls =>
      have := hok.head
      exact ⟨_, rfl, by rw [hok.head_toNat]; exact ⟨fun h => by omega, fun h => by cases h⟩⟩
  rw [ask_ok hb, bind_ok]
  generalize hptr : (if b.toNat ≠ 0 then getHint c w 0 else 0) = ptr
  simp only
  by_cases hp : ptr > 0
  · rw [if_pos hp]
    have hg : ptr = w.hints 0 := by
      rw [← hptr] at hp ⊢
      unfold getHint at hp ⊢
      split at hp
      · rename_i h0
        rw [if_pos h0]
        split at hp
        · rename_i hc; rw [if_pos hc]; rfl
        · omega
      · omega
    rcases h.1 0 with hz | hz | ⟨h1, ls', n, nm, h2, h3, h4⟩
    · omega
    · rw [hown, List.cons.injEq] at hz
      rw [← hptr, if_neg (fun hb => hb (hb0.mpr hz.1))] at hp
      omega
    · rw [hown] at h3
      rw [List.mem_singleton] at h3
      subst h3
      rw [← hg] at h1 h2
      exact Post.mono (ownerPointer_spec (ls := nm) hG hm h h1 h2 h4 (wire_ge hv.1 (fun hz => by
        rw [← hptr, if_neg (fun hb => hb (hb0.mpr hz))] at hp; omega))) (fun _ _ h => h.1) (fun _ _ h => h)
  · rw [if_neg hp]
    unfold sameAsSuffix
    by_cases hc : c = true ∧ w.suf ≠ 0 ∧ decide (b.toNat = 0) = false
    · rw [if_pos hc]
      obtain ⟨sls, n, s1, s2, s3⟩ := (h.2.1 hc.1).1
      have := equalWire_spec (ls := ls) [] hv.1 s1
      rw [List.append_nil] at this
      rw [ask_ok this, bind_ok]
      by_cases he : ls = lowerName sls
      · rw [if_pos (by simpa using he)]
        exact ownerSuffix_spec hG hm h hv.1 s1 he (fun hz => by have := hb0.mpr hz; simp [this] at hc) hmem
      · rw [if_neg (by simpa using he)]
        exact ownerName_spec hG hm hd h hv h0 hmem
    · rw [if_neg hc, ask_ok rfl, bind_ok, if_neg (by simp)]
      exact ownerName_spec hG hm hd h hv h0 hmem

end Knot.Pkt
