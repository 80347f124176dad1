import Verif.Pkt.Lemmas7
/-!
# Lemmas about writing records: whole records and sets of them
-/
namespace Knot.Pkt
open Knot
open Knot.Dname (Name NameAt Valid wire nameLen lowerName lowerByte LabelsOk)
open Knot.Rrwire (Block Field Rec NaptrAt parseDesc rdataDesc obsoleteDesc descIn descTable emptyAllowed encAll slice num RRAt RdAt HeadAt)
open Knot.WireCtx (beBytes beVal)

/-- RDATA `fs` may occur in a record of the type and class. -/
def DataOk (type rclass : Nat) (fs : List Field) : Prop :=
  (fs = [] ∧ emptyAllowed type rclass) ∨
    (Fits (parseDesc type).blocks fs ∧ 0 < (encAll fs).length ∧ (encAll fs).length ≤ 65535)

/-- RDLENGTH and RDATA in the settled part of the buffer. -/
def LenG (buf : Bytes) (G : Nat → Prop) (type rclass pos : Nat) (fs : List Field) (stop : Nat) : Prop :=
  ∃ k, (k ≤ (encAll fs).length ∧ (encAll fs).length ≤ 65535) ∧ BytesAt buf pos (beBytes 2 k) ∧ G pos ∧ G (pos + 1) ∧ stop = pos + 2 + k ∧
    ((k = 0 ∧ fs = [] ∧ emptyAllowed type rclass) ∨ (0 < k ∧ RdG buf G (parseDesc type).blocks (pos + 2) fs stop))

def RdataPost (c : Bool) (own : Env) (G : Nat → Prop) (cur : Cur) (w : W) (type rclass : Nat) (fs : List Field) (cur' : Cur) (w' : W) : Prop :=
  ∃ n, cur' = cur.adv n ∧ n ≤ cur.avail ∧ n ≤ 2 + (encAll fs).length ∧ Fr cur.dst (cur.dst + n) w.buf w'.buf ∧ Ok c own (Ext G cur.dst n) w' ∧
    ∃ fs', LenG w'.buf (Ext G cur.dst n) type rclass cur.dst fs' (cur.dst + n) ∧ fs'.map Field.lower = fs.map Field.lower ∧
      (type ∉ comprTypes → fs' = fs)

theorem nameLen_lowerName (ls : Name) : nameLen (lowerName ls) = nameLen ls := by
  induction ls with
  | nil => rfl
  | cons l ls ih =>
    simp only [lowerName, List.map_cons, nameLen, List.length_map] at ih ⊢
    omega

theorem encAll_length_lower : ∀ {fs fs' : List Field}, fs'.map Field.lower = fs.map Field.lower → (encAll fs').length = (encAll fs).length
  | [], [], _ => rfl
  | [], _ :: _, h => by cases h
  | _ :: _, [], h => by cases h
  | f :: fs, f' :: fs', h => by
    rw [List.map_cons, List.map_cons, List.cons.injEq] at h
    have ih := encAll_length_lower h.2
    have h1 := h.1
    have hl : ∀ a b : Name, lowerName a = lowerName b → nameLen a = nameLen b := by
      intro a b hab
      rw [← nameLen_lowerName a, ← nameLen_lowerName b, hab]
    have : f'.enc.length = f.enc.length := by
      cases f <;> cases f' <;> simp only [Field.lower, Field.name.injEq, Field.raw.injEq, reduceCtorEq] at h1
      · simp only [Field.enc, Dname.wire_length]; exact hl _ _ h1
      · rw [h1]
    simp only [encAll, List.flatMap_cons, List.length_append, this] at ih ⊢
    omega

theorem writeRdata_spec {c : Bool} {own : Env} {G : Nat → Prop} {cur : Cur} {w : W} {type rclass idx : Nat} {fs : List Field}
    (hf : DataOk type rclass fs)
    (hG : ∀ i, G i → i < cur.dst) (hm : cur.dst + cur.avail ≤ w.buf.length) (hd : cur.dst + cur.avail ≤ 65535)
    (h : Ok c own G w) (h0 : own.d0 ≤ cur.dst) (hn : ∀ ls ∈ namesOf fs, ls ∈ own.own (1 + idx)) :
    (writeRdata c type idx (encAll fs) cur w).Post (RdataPost c own G cur w type rclass fs) (SpaceErr c own w cur (2 + (encAll fs).length)) := by
  unfold writeRdata
  by_cases h2 : 2 > cur.avail
  · rw [if_pos h2]; exact ⟨rfl, Fr.refl _ _ _, h.2.2.2, by omega⟩
  · rw [if_neg h2]
    have hdata : (writeData c type (1 + idx) ⟨encAll fs, cur.adv 2⟩ w).Post
        (fun s' w' => ∃ n, s' = ⟨[], (cur.adv 2).adv n⟩ ∧ n ≤ cur.avail - 2 ∧ n ≤ 65535 ∧ n ≤ (encAll fs).length ∧ Fr (cur.dst + 2) (cur.dst + 2 + n) w.buf w'.buf ∧
          Ok c own (Ext G (cur.dst + 2) n) w' ∧ ∃ fs', fs'.map Field.lower = fs.map Field.lower ∧ (type ∉ comprTypes → fs' = fs) ∧
            ((n = 0 ∧ fs' = [] ∧ emptyAllowed type rclass) ∨
              (0 < n ∧ RdG w'.buf (Ext G (cur.dst + 2) n) (parseDesc type).blocks (cur.dst + 2) fs' (cur.dst + 2 + n))))
        (SpaceErr c own w cur (2 + (encAll fs).length)) := by
      rcases hf with ⟨rfl, he⟩ | ⟨hf, hp, hl⟩
      · unfold writeData
        rw [if_neg (by simp [encAll])]
        refine ⟨0, by simp [encAll, Cur.adv], by omega, by omega, by omega, Fr.refl _ _ _, ?_, [], rfl, fun _ => rfl, .inl ⟨rfl, rfl, he⟩⟩
        exact h.congr (fun i hi => .inl hi) (fun _ _ => rfl) rfl rfl rfl
      · refine Post.mono (writeData_spec (cur := cur.adv 2) hf hp (fun i hi => ?_) ?_ ?_ h ?_ hn) ?_ ?_
        · have := hG i hi; show i < cur.dst + 2; omega
        · show cur.dst + 2 + (cur.avail - 2) ≤ _; omega
        · show cur.dst + 2 + (cur.avail - 2) ≤ _; omega
        · show _ ≤ cur.dst + 2; omega
        · rintro s' w' ⟨n, a1, a2, a3, a4, a5, a6, fs', b1, b2, b3⟩
          exact ⟨n, a1, a2, by omega, a3, a5, a6, fs', b2, b3, .inr ⟨a4 hp, b1⟩⟩
        · intro e w' he
          exact he.adv (by omega) (Nat.le_refl _) (Fr.refl _ _ _)
    refine Post.bind hdata ?_
    rintro s w1 ⟨n, rfl, a1, a2, ale, a3, a4, fs', a5, a6, a7⟩
    rw [if_neg (by simp)]
    have hk : (({ src := [], cur := (cur.adv 2).adv n } : Src).cur.dst - (cur.dst + 2)) = n := by simp only [Cur.adv]; omega
    rw [hk]
    have hlen := WireCtx.length_beBytes 2 n
    obtain ⟨b, e1, e2, e3⟩ := put_spec (w := w1) (pos := cur.dst) (d := beBytes 2 n) (by rw [hlen, a3.1]; omega)
    rw [e1, bind_ok]
    rw [hlen] at e2
    have hin : ∀ i, Ext G (cur.dst + 2) n i → Ext G cur.dst (2 + n) i := by
      rintro i (hi | hi)
      · exact .inl hi
      · exact .inr ⟨by omega, by omega⟩
    have hsame : ∀ i, Ext G (cur.dst + 2) n i → b[i]? = w1.buf[i]? := by
      rintro i (hi | hi)
      · exact e2.2 i (.inl (hG i hi))
      · exact e2.2 i (.inr hi.1)
    refine ⟨2 + n, ?_, by omega, by omega, ?_, a4.congr hin hsame rfl rfl rfl, fs', ?_, a5, a6⟩
    · simp only [Cur.adv, Cur.mk.injEq]; omega
    · exact (a3.mono (by omega) (by omega)).trans (e2.mono (Nat.le_refl _) (by omega))
    · refine ⟨n, ⟨?_, ?_⟩, e3, .inr ⟨by omega, by omega⟩, .inr ⟨by omega, by omega⟩, by omega, ?_⟩
      · rw [encAll_length_lower a5]; exact ale
      · rw [encAll_length_lower a5]
        rcases hf with ⟨rfl, _⟩ | ⟨_, _, h⟩
        · simp [encAll]
        · exact h
      rcases a7 with a7 | ⟨hp, a7⟩
      · exact .inl a7
      · refine .inr ⟨hp, ?_⟩
        rw [← Nat.add_assoc]
        exact a7.congr hin hsame

/-- A record in the settled part of the buffer. -/
def RecG (buf : Bytes) (G : Nat → Prop) (pos : Nat) (r : Rec) (stop : Nat) : Prop :=
  r.type < 65536 ∧ r.rclass < 65536 ∧ r.ttl < 4294967296 ∧
  ∃ n, At buf G pos r.owner n ∧ Valid r.owner ∧ BytesAt buf (pos + n) (headBytes r.type r.rclass r.ttl) ∧
    (∀ i, pos + n ≤ i → i < pos + n + 8 → G i) ∧ LenG buf G r.type r.rclass (pos + n + 8) r.rdata stop

theorem LenG.congr {buf buf' : Bytes} {G G' : Nat → Prop} {type rclass pos fs stop} (h : LenG buf G type rclass pos fs stop) (hG : ∀ i, G i → G' i)
    (hb : ∀ i, G i → buf'[i]? = buf[i]?) : LenG buf' G' type rclass pos fs stop := by
  obtain ⟨k, h1, h2, h3, h4, h5, h6⟩ := h
  refine ⟨k, h1, h2.congr ?_, hG _ h3, hG _ h4, h5, h6.imp (fun h => h) (fun h => ⟨h.1, h.2.congr hG hb⟩)⟩
  intro i x y
  rw [WireCtx.length_beBytes] at y
  have : i = pos ∨ i = pos + 1 := by omega
  rcases this with rfl | rfl
  · exact hb _ h3
  · exact hb _ h4

theorem RecG.congr {buf buf' : Bytes} {G G' : Nat → Prop} {pos r stop} (h : RecG buf G pos r stop) (hG : ∀ i, G i → G' i)
    (hb : ∀ i, G i → buf'[i]? = buf[i]?) : RecG buf' G' pos r stop := by
  obtain ⟨h1, h2, h3, n, h4, h5, h6, h7, h8⟩ := h
  refine ⟨h1, h2, h3, n, h4.congr hG hb, h5, h6.congr ?_, fun i x y => hG i (h7 i x y), h8.congr hG hb⟩
  intro i x y
  have : (headBytes r.type r.rclass r.ttl).length = 8 := by simp [headBytes, WireCtx.length_beBytes]
  exact hb i (h7 i x (by omega))

theorem RecG.rrAt {buf : Bytes} {G : Nat → Prop} {pos r stop e} (h : RecG buf G pos r stop) (hG : ∀ i, G i → i < stop) (he : stop ≤ e) :
    RRAt buf e pos r stop := by
  obtain ⟨h1, h2, h3, n, h4, h5, h6, h7, k, k1, k2, k3, k4, k5, k6⟩ := h
  unfold headBytes at h6
  rw [BytesAt.append, BytesAt.append, WireCtx.length_beBytes, WireCtx.length_beBytes] at h6
  refine ⟨k, pos + n + 10, ⟨n, h4.nameAt (fun i hi => Nat.lt_of_lt_of_le (hG i hi) he), h5, rfl, ?_, ?_, ?_, ?_, ?_⟩, by omega, ?_⟩
  · exact (num_at h6.1 h1).symm
  · exact (num_at h6.2.1 h2).symm
  · exact (num_at h6.2.2 h3).symm
  · exact (num_at k2 (by omega)).symm
  · omega
  · rcases k6 with k6 | ⟨k6, k7⟩
    · exact .inl k6
    · exact .inr ⟨k6, k7.rdAt hG⟩

/-- Length of a record without compression. -/
def recLen (o : Name) (fs : List Field) : Nat := nameLen o + 10 + (encAll fs).length

def RrPost (c : Bool) (own : Env) (G : Nat → Prop) (cur : Cur) (w : W) (r : Rec) (cur' : Cur) (w' : W) : Prop :=
  ∃ n, cur' = cur.adv n ∧ n ≤ cur.avail ∧ n ≤ recLen r.owner r.rdata ∧ Fr cur.dst (cur.dst + n) w.buf w'.buf ∧ Ok c own (Ext G cur.dst n) w' ∧
    ∃ r', RecG w'.buf (Ext G cur.dst n) cur.dst r' (cur.dst + n) ∧ Same r r'

theorem writeRr_spec {c : Bool} {own : Env} {G : Nat → Prop} {cur : Cur} {w : W} {flags idx id : Nat} {r : RSet} {fs : List Field}
    (hr : r.Good) (hmem : fs ∈ r.rdatas) (hfl : FlagsOk flags fs)
    (hG : ∀ i, G i → i < cur.dst) (hm : cur.dst + cur.avail ≤ w.buf.length) (hd : cur.dst + cur.avail ≤ 65535)
    (h : Ok c own G w) (h0 : own.d0 ≤ cur.dst) (hown : own.own 0 = [r.owner]) (hn : ∀ ls ∈ namesOf fs, ls ∈ own.own (1 + idx)) :
    (writeRr c (r.enc id) flags idx (encAll fs) cur w).Post
      (RrPost c own G cur w ⟨r.owner, r.type, r.rclass, ttlOf flags r fs, fs⟩) (SpaceErr c own w cur (recLen r.owner fs)) := by
  obtain ⟨g1, g2, g3, g4, g5⟩ := hr
  have hdata : DataOk r.type r.rclass fs := g5 fs hmem
  unfold writeRr
  refine Post.bind (Post.mono (writeOwner_spec hG hm hd h g1 h0 hown) (fun _ _ h => h) (fun _ _ h => h.more (by unfold recLen; omega))) ?_
  rintro _ w1 ⟨n1, rfl, a1, a2, a3, a4, ⟨ls', a5, a6⟩, a7⟩
  have hG1 : ∀ i, Ext G cur.dst n1 i → i < (cur.adv n1).dst := fun i hi => Ext_lt hG hi
  have hav1 : (cur.adv n1).dst + (cur.adv n1).avail = cur.dst + cur.avail := by
    show cur.dst + n1 + (cur.avail - n1) = _; omega
  have hff : (flags.testBit 6 = false ∧ flags.testBit 7 = false) ∨ Fits (parseDesc r.type).blocks fs := by
    rcases hdata with ⟨he, _⟩ | hf
    · left
      refine ⟨?_, ?_⟩
      · cases hb : flags.testBit 6 with
        | false => rfl
        | true => exact absurd he (hfl (.inl hb))
      · cases hb : flags.testBit 7 with
        | false => rfl
        | true => exact absurd he (hfl (.inr hb))
    · exact .inr hf.1
  have hf1 : Fr cur.dst (cur.dst + cur.avail) w.buf w1.buf := a4.mono (Nat.le_refl _) (by omega)
  refine Post.bind (Post.mono (writeHeader_spec (id := id) hff hG1 (by rw [hav1, a4.1]; exact hm) a7) (fun _ _ h => h) (fun e w' h => (h.adv a2 a3 hf1).more (by unfold recLen; omega))) ?_
  have hl8 : (headBytes r.type r.rclass (ttlOf flags r fs)).length = 8 := by simp [headBytes, WireCtx.length_beBytes]
  rintro _ w2 ⟨rfl, b2, b3, b4, b5⟩
  rw [hl8] at b2 b3 b4 ⊢
  have b2' : 8 ≤ cur.avail - n1 := b2
  have e0 : (cur.adv n1).dst = cur.dst + n1 := rfl
  rw [e0] at b3 b4 b5
  have hadv : (cur.adv n1).adv 8 = cur.adv (n1 + 8) := by simp only [Cur.adv, Cur.mk.injEq]; omega
  rw [hadv]
  have b4' : Ok c own (Ext G cur.dst (n1 + 8)) w2 := b4.congr (fun i hi => Ext_assoc.mp hi) (fun _ _ => rfl) rfl rfl rfl
  have hG2 : ∀ i, Ext G cur.dst (n1 + 8) i → i < (cur.adv (n1 + 8)).dst := fun i hi => Ext_lt hG hi
  have hav2 : (cur.adv (n1 + 8)).dst + (cur.adv (n1 + 8)).avail = cur.dst + cur.avail := by
    show cur.dst + (n1 + 8) + (cur.avail - (n1 + 8)) = _; omega
  have hf2 : Fr cur.dst (cur.dst + cur.avail) w.buf w2.buf := hf1.trans (b3.mono (by omega) (by omega))
  refine Post.mono (writeRdata_spec (rclass := r.rclass) hdata hG2 (by rw [hav2, b3.1, a4.1]; exact hm) (by rw [hav2]; exact hd) b4' ?_ hn) ?_
    (fun e w' h => (h.adv (used := nameLen r.owner + 8) (by omega) (by omega) hf2).more (by unfold recLen; omega))
  · show _ ≤ cur.dst + (n1 + 8); omega
  · rintro cur' w' ⟨n, rfl, c1, cle, c2, c3, fs', c4, c5, c6⟩
    have e2 : (cur.adv (n1 + 8)).dst = cur.dst + (n1 + 8) := rfl
    rw [e2] at c2 c3 c4
    have c1' : n ≤ cur.avail - (n1 + 8) := c1
    have hin2 : ∀ i, Ext G cur.dst (n1 + 8) i → w'.buf[i]? = w2.buf[i]? := fun i hi => c2.2 i (.inl (hG2 i hi))
    have hin1 : ∀ i, Ext G cur.dst n1 i → w'.buf[i]? = w1.buf[i]? := by
      intro i hi
      rw [hin2 i (hi.imp (fun h => h) (fun h => ⟨h.1, by omega⟩))]
      exact b3.2 i (.inl (hG1 i hi))
    have hx1 : ∀ i, Ext G cur.dst n1 i → Ext G cur.dst (n1 + 8 + n) i := fun i hi => hi.imp (fun h => h) (fun h => ⟨h.1, by omega⟩)
    refine ⟨n1 + 8 + n, ?_, by omega, by show _ ≤ nameLen r.owner + 10 + (encAll fs).length; omega, ?_, c3.congr (fun i hi => Ext_assoc.mp hi) (fun _ _ => rfl) rfl rfl rfl,
      ⟨ls', r.type, r.rclass, ttlOf flags r fs, fs'⟩, ?_, ⟨a6, rfl, rfl, rfl, c5, c6⟩⟩
    · simp only [Cur.adv, Cur.mk.injEq]; omega
    · exact ((a4.mono (Nat.le_refl _) (by omega)).trans (b3.mono (by omega) (by omega))).trans (c2.mono (by omega) (by omega))
    · refine ⟨g2, g3, ttlOf_lt g4, n1, a5.congr hx1 hin1, valid_of_lower a6 g1, b5.congr ?_, ?_, ?_⟩
      · intro i x y
        rw [hl8] at y
        exact hin2 i (.inr ⟨by omega, by omega⟩)
      · intro i x y
        exact .inr ⟨by omega, by omega⟩
      · have := c4.congr (G' := Ext G cur.dst (n1 + 8 + n)) (fun i hi => Ext_assoc.mp hi) (fun _ _ => rfl)
        have e3 : cur.dst + n1 + 8 = cur.dst + (n1 + 8) := by omega
        have e4 : cur.dst + (n1 + 8 + n) = cur.dst + (n1 + 8) + n := by omega
        show LenG _ _ r.type r.rclass (cur.dst + n1 + 8) fs' _
        rw [e3, e4]
        exact this

/-! ## Sets -/

/-- A record that depends on nothing but the octets before its end. -/
def RecAt (buf : Bytes) (pos : Nat) (r : Rec) (stop : Nat) : Prop :=
  ∃ G : Nat → Prop, (∀ i, G i → 12 ≤ i ∧ i < stop) ∧ RecG buf G pos r stop

inductive RecsAt (buf : Bytes) : Nat → List Rec → Nat → Prop
  | nil {pos} : RecsAt buf pos [] pos
  | cons {pos r mid rs stop} : RecAt buf pos r mid → mid ≤ stop → RecsAt buf mid rs stop → RecsAt buf pos (r :: rs) stop

theorem RecAt.congr {buf buf' : Bytes} {pos r stop} (h : RecAt buf pos r stop) (hb : ∀ i, 12 ≤ i → i < stop → buf'[i]? = buf[i]?) :
    RecAt buf' pos r stop := by
  obtain ⟨G, h1, h2⟩ := h
  exact ⟨G, h1, h2.congr (fun _ h => h) (fun i hi => hb i (h1 i hi).1 (h1 i hi).2)⟩

theorem RecsAt.congr {buf buf' : Bytes} {pos rs stop} (h : RecsAt buf pos rs stop) (hb : ∀ i, 12 ≤ i → i < stop → buf'[i]? = buf[i]?) :
    RecsAt buf' pos rs stop := by
  induction h with
  | nil => exact .nil
  | cons h1 h2 _ ih => exact .cons (h1.congr (fun i x y => hb i x (by omega))) h2 (ih hb)

theorem RecsAt.rrsAt {buf : Bytes} {pos rs stop e} (h : RecsAt buf pos rs stop) (he : stop ≤ e) : RRsAt buf e pos rs stop := by
  induction h with
  | nil => exact .nil
  | cons h1 h2 _ ih =>
    obtain ⟨G, g1, g2⟩ := h1
    exact .cons (g2.rrAt (fun i hi => (g1 i hi).2) (by omega)) (ih he)

/-- The index after `i` of a circular walk. -/
def posOf (len i : Nat) : Nat := if i < len then i else i - len

def SetPost (c : Bool) (own : Env) (G : Nat → Prop) (cur : Cur) (w : W) (rs : List Rec) (cur' : Cur) (w' : W) : Prop :=
  ∃ n, cur' = cur.adv n ∧ n ≤ cur.avail ∧ n ≤ (rs.map fun r => recLen r.owner r.rdata).sum ∧ Fr cur.dst (cur.dst + n) w.buf w'.buf ∧ Ok c own (Ext G cur.dst n) w' ∧
    ∃ rs', RecsAt w'.buf cur.dst rs' (cur.dst + n) ∧ Each Same rs rs'

theorem writeLoop_spec {c : Bool} {own : Env} {flags id : Nat} {r : RSet} (hr : r.Good) (hfl : ∀ fs ∈ r.rdatas, FlagsOk flags fs)
    (hown : own.own 0 = [r.owner]) (hn : ∀ i fs, r.rdatas[i]? = some fs → ∀ ls ∈ namesOf fs, ls ∈ own.own (1 + i)) :
    ∀ (L : List (List Field)) (i curi : Nat) (G : Nat → Prop) (cur : Cur) (w : W),
      (∀ j, j < L.length → L[j]? = r.rdatas[posOf r.rdatas.length (i + j)]?) →
      (posOf r.rdatas.length i = 0 ∨ curi + 1 = posOf r.rdatas.length i) →
      (∀ i, G i → 12 ≤ i ∧ i < cur.dst) → 12 ≤ cur.dst → cur.dst + cur.avail ≤ w.buf.length → cur.dst + cur.avail ≤ 65535 →
      Ok c own G w → own.d0 ≤ cur.dst →
      (writeLoop c (r.enc id) flags L.length i curi cur w).Post
        (SetPost c own G cur w (L.map fun fs => ⟨r.owner, r.type, r.rclass, ttlOf flags r fs, fs⟩)) (SpaceErr c own w cur (L.map (recLen r.owner)).sum) := by
  intro L
  induction L with
  | nil =>
    intro i curi G cur w hL hc hG h12 hm hd h h0
    refine ⟨0, rfl, by omega, by omega, Fr.refl _ _ _, h.congr (fun i hi => .inl hi) (fun _ _ => rfl) rfl rfl rfl, [], .nil, .nil⟩
  | cons fs L ih =>
    intro i curi G cur w hL hc hG h12 hm hd h h0
    rw [List.length_cons]
    unfold writeLoop
    have hlen : (r.enc id).rrs.length = r.rdatas.length := by simp [RSet.enc]
    have hpos : (if i < (r.enc id).rrs.length then i else i - (r.enc id).rrs.length) = posOf r.rdatas.length i := by rw [hlen]; rfl
    simp only [hpos]
    have hcur : (if posOf r.rdatas.length i ≠ 0 then curi + 1 else 0) = posOf r.rdatas.length i := by
      split <;> omega
    rw [hcur]
    have hget : r.rdatas[posOf r.rdatas.length i]? = some fs := by
      have := hL 0 (by simp)
      simpa using this.symm
    have hrd : Res.rd (r.enc id).rrs (posOf r.rdatas.length i) = .ok (encAll fs) := by
      unfold Res.rd
      simp only [RSet.enc, List.getElem?_map, hget, Option.map_some]
    rw [ask_ok hrd, bind_ok]
    have hmem : fs ∈ r.rdatas := List.mem_of_getElem? hget
    rw [List.map_cons, List.map_cons, List.sum_cons]
    refine Post.bind (Post.mono (writeRr_spec hr hmem (hfl fs hmem) (fun i hi => (hG i hi).2) hm hd h h0 hown (hn _ _ hget)) (fun _ _ h => h)
      (fun _ _ h => h.more (by omega))) ?_
    rintro _ w1 ⟨n, rfl, a1, ale, a2, a3, r', a4, a5⟩
    have hG1 : ∀ i, Ext G cur.dst n i → 12 ≤ i ∧ i < (cur.adv n).dst := by
      intro j hj
      refine ⟨?_, Ext_lt (fun i hi => (hG i hi).2) hj⟩
      rcases hj with hj | hj
      · exact (hG j hj).1
      · omega
    have hav : (cur.adv n).dst + (cur.adv n).avail = cur.dst + cur.avail := by
      show cur.dst + n + (cur.avail - n) = _; omega
    have hstep : posOf r.rdatas.length (i + 1) = 0 ∨ posOf r.rdatas.length i + 1 = posOf r.rdatas.length (i + 1) := by
      unfold posOf; split <;> split <;> omega
    refine Post.mono (ih (i + 1) (posOf r.rdatas.length i) _ (cur.adv n) w1 ?_ hstep hG1 ?_ (by rw [hav, a2.1]; exact hm) (by rw [hav]; exact hd) a3 ?_) ?_ ?_
    · intro j hj
      have := hL (j + 1) (by rw [List.length_cons]; omega)
      rw [List.getElem?_cons_succ] at this
      rw [this]
      congr 2
      omega
    · show 12 ≤ cur.dst + n; omega
    · show _ ≤ cur.dst + n; omega
    · rintro cur' w' ⟨m, rfl, b1, ble, b2, b3, rs', b4, b5⟩
      have e2 : (cur.adv n).dst = cur.dst + n := rfl
      rw [e2] at b2 b3 b4
      have b1' : m ≤ cur.avail - n := b1
      refine ⟨n + m, ?_, by omega, by rw [List.map_cons, List.sum_cons]; omega, ?_, b3.congr (fun i hi => Ext_assoc.mp hi) (fun _ _ => rfl) rfl rfl rfl, r' :: rs', ?_, .cons a5 b5⟩
      · simp only [Cur.adv, Cur.mk.injEq]; omega
      · exact (a2.mono (Nat.le_refl _) (by omega)).trans (b2.mono (by omega) (by omega))
      · rw [← Nat.add_assoc]
        refine .cons (mid := cur.dst + n) ⟨_, hG1, a4.congr (fun _ h => h) (fun i hi => b2.2 i (.inl (hG1 i hi).2))⟩ (by omega) b4
    · intro e w' he
      exact he.adv a1 ale (a2.mono (Nat.le_refl _) (by omega))

theorem rotl_length {α : Type} (k : Nat) (l : List α) : (rotl k l).length = l.length := by
  unfold rotl
  rw [List.length_append, List.length_drop, List.length_take]
  omega

theorem rotl_get {α : Type} (k : Nat) (l : List α) (j : Nat) (hj : j < l.length) : (rotl k l)[j]? = l[posOf l.length (k % l.length + j)]? := by
  have hk : k % l.length < l.length := Nat.mod_lt _ (by omega)
  unfold rotl posOf
  rw [List.getElem?_append]
  split
  · rename_i h
    rw [List.length_drop] at h
    rw [if_pos (by omega), List.getElem?_drop]
  · rename_i h
    rw [List.length_drop] at h
    rw [if_neg (by omega), List.length_drop, List.getElem?_take, if_pos (by omega)]
    congr 1
    omega

/-- `knot_rrset_to_wire_extra` -/
theorem toWireExtra_spec {c : Bool} {own : Env} {flags id rotate : Nat} {r : RSet} {G : Nat → Prop} {cur : Cur} {w : W} (hr : r.Good)
    (hfl : ∀ fs ∈ r.rdatas, FlagsOk flags fs)
    (hown : own.own 0 = [r.owner]) (hn : ∀ i fs, r.rdatas[i]? = some fs → ∀ ls ∈ namesOf fs, ls ∈ own.own (1 + i))
    (hG : ∀ i, G i → 12 ≤ i ∧ i < cur.dst) (h12 : 12 ≤ cur.dst) (hm : cur.dst + cur.avail ≤ w.buf.length) (hd : cur.dst + cur.avail ≤ 65535)
    (h : Ok c own G w) (h0 : own.d0 ≤ cur.dst) :
    (toWireExtra c (r.enc id) rotate flags cur w).Post
      (fun n w' => n ≤ cur.avail ∧ n ≤ r.wireLen ∧ Fr cur.dst (cur.dst + n) w.buf w'.buf ∧ Ok c own (Ext G cur.dst n) w' ∧
        ∃ rs', RecsAt w'.buf cur.dst rs' (cur.dst + n) ∧ Each Same (r.recs rotate flags) rs') (SpaceErr c own w cur r.wireLen) := by
  unfold toWireExtra
  have hlen : (r.enc id).rrs.length = r.rdatas.length := by simp [RSet.enc]
  by_cases hz : (r.enc id).rrs.length = 0
  · rw [if_pos hz]
    rw [hlen] at hz
    refine ⟨by omega, by omega, Fr.refl _ _ _, h.congr (fun i hi => .inl hi) (fun _ _ => rfl) rfl rfl rfl, [], .nil, ?_⟩
    unfold RSet.recs
    have : rotl rotate r.rdatas = [] := List.length_eq_zero_iff.mp (by rw [rotl_length]; exact hz)
    rw [this]
    exact .nil
  · rw [if_neg hz]
    simp only
    rw [hlen] at hz ⊢
    have hk : rotate % r.rdatas.length < r.rdatas.length := Nat.mod_lt _ (by omega)
    have := writeLoop_spec (c := c) (own := own) (id := id) hr hfl hown hn (rotl rotate r.rdatas) (rotate % r.rdatas.length)
      (if rotate % r.rdatas.length > 1 then rotate % r.rdatas.length - 1 else 0) G cur w
      (fun j hj => rotl_get _ _ _ (by rw [rotl_length] at hj; exact hj))
      (by unfold posOf; rw [if_pos hk]; split <;> omega) hG h12 hm hd h h0
    rw [rotl_length] at this
    have hsum : (List.map (recLen r.owner) (rotl rotate r.rdatas)).sum = r.wireLen := by
      unfold RSet.wireLen recLen rotl
      simp only [Dname.wire_length]
      rw [List.map_append, List.sum_append, Nat.add_comm, ← List.sum_append, ← List.map_append, List.take_append_drop]
    rw [hsum] at this
    refine Post.bind this ?_
    rintro _ w' ⟨n, rfl, a1, ale, a2, a3, a4⟩
    rw [List.map_map] at ale
    have ale' : n ≤ (List.map (recLen r.owner) (rotl rotate r.rdatas)).sum := ale
    rw [hsum] at ale'
    have : (cur.adv n).dst - cur.dst = n := by show cur.dst + n - cur.dst = n; omega
    rw [this]
    exact ⟨a1, ale', a2, a3, a4⟩

end Knot.Pkt
