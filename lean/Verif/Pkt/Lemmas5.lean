import Verif.Pkt.Lemmas4
import Verif.Pkt.Contract
/-!
# Lemmas about writing RDATA
-/
namespace Knot.Pkt
open Knot
open Knot.Dname (Name NameAt Valid wire nameLen lowerName lowerByte LabelsOk)
open Knot.Rrwire (Block Field Rec NaptrAt parseDesc rdataDesc emptyAllowed encAll slice num RRAt RdAt naptrHeaderSize)

/-- RDATA in the settled part of the buffer. -/
inductive RdG (buf : Bytes) (G : Nat → Prop) : List Block → Nat → List Field → Nat → Prop
  | done {pos} : RdG buf G [] pos [] pos
  | name {b bs pos ls n fs stop} : b.isName = true → At buf G pos ls n → Valid ls → RdG buf G bs (pos + n) fs stop →
      RdG buf G (b :: bs) pos (.name ls :: fs) stop
  | naptr {bs pos d fs stop} : NaptrAt d 0 d.length d.length → BytesAt buf pos d → (∀ i, pos ≤ i → i < pos + d.length → G i) →
      RdG buf G bs (pos + d.length) fs stop → RdG buf G (.naptr :: bs) pos (.raw d :: fs) stop
  | remainder {pos d} : BytesAt buf pos d → (∀ i, pos ≤ i → i < pos + d.length → G i) →
      RdG buf G [.remainder] pos [.raw d] (pos + d.length)
  | fixed {bs pos d fs stop} : BytesAt buf pos d → (∀ i, pos ≤ i → i < pos + d.length → G i) →
      RdG buf G bs (pos + d.length) fs stop → RdG buf G (.fixed d.length :: bs) pos (.raw d :: fs) stop

theorem RdG.congr {buf buf' : Bytes} {G G' : Nat → Prop} {bs pos fs stop} (h : RdG buf G bs pos fs stop) (hG : ∀ i, G i → G' i)
    (hb : ∀ i, G i → buf'[i]? = buf[i]?) : RdG buf' G' bs pos fs stop := by
  induction h with
  | done => exact .done
  | name h1 h2 h3 _ ih => exact .name h1 (h2.congr hG hb) h3 ih
  | naptr h1 h2 h3 _ ih => exact .naptr h1 (h2.congr (fun i a b => hb i (h3 i a b))) (fun i a b => hG i (h3 i a b)) ih
  | remainder h2 h3 => exact .remainder (h2.congr (fun i a b => hb i (h3 i a b))) (fun i a b => hG i (h3 i a b))
  | fixed h2 h3 _ ih => exact .fixed (h2.congr (fun i a b => hb i (h3 i a b))) (fun i a b => hG i (h3 i a b)) ih

theorem naptr_shift {buf d : Bytes} {pos endp : Nat} (h : NaptrAt d 0 d.length d.length) (hb : BytesAt buf pos d) (he : pos + d.length ≤ endp) :
    NaptrAt buf pos endp d.length := by
  obtain ⟨a, b, c, h1, h2, h3, h4, _⟩ := h
  simp only [Nat.zero_add] at h1 h2 h3
  refine ⟨a, b, c, ?_, ?_, ?_, h4, he⟩
  · rw [hb 4 (by omega), h1]
  · rw [Nat.add_assoc, hb (5 + a.toNat) (by omega), h2]
  · rw [Nat.add_assoc, Nat.add_assoc, ← Nat.add_assoc 6, hb (6 + a.toNat + b.toNat) (by omega), h3]

theorem RdG.le {buf : Bytes} {G : Nat → Prop} {bs pos fs stop} (h : RdG buf G bs pos fs stop) : pos ≤ stop := by
  induction h with
  | done => omega
  | name _ _ _ _ ih => omega
  | naptr _ _ _ _ ih => omega
  | remainder => omega
  | fixed _ _ _ ih => omega

theorem RdG.rdAt {buf : Bytes} {G : Nat → Prop} {bs pos fs stop} (h : RdG buf G bs pos fs stop) (hG : ∀ i, G i → i < stop) :
    RdAt buf stop bs pos fs stop := by
  induction h with
  | done => exact .done
  | name h1 h2 h3 _ ih => exact .name h1 (h2.nameAt hG) h3 (ih hG)
  | @naptr bs pos d fs stop h1 h2 h3 h4 ih =>
    have := RdAt.naptr (naptr_shift h1 h2 h4.le) (ih hG)
    rw [h2.slice] at this
    exact this
  | @remainder pos d h2 h3 =>
    have := RdAt.remainder (mem := buf) (endp := pos + d.length) (pos := pos) (by omega) .done
    rw [show pos + d.length - pos = d.length by omega, h2.slice] at this
    exact this
  | @fixed bs pos d fs stop h2 h3 h4 ih =>
    have := RdAt.fixed (mem := buf) (endp := stop) (k := d.length) (pos := pos) h4.le (ih hG)
    rw [h2.slice] at this
    exact this

/-- Octets written as they are read as the pieces they consist of. -/
theorem RdG.of_bytes {buf : Bytes} {G : Nat → Prop} {bs fs} (h : Fits bs fs) : ∀ {pos}, BytesAt buf pos (encAll fs) →
    (∀ i, pos ≤ i → i < pos + (encAll fs).length → G i) → RdG buf G bs pos fs (pos + (encAll fs).length) := by
  induction h with
  | nil => intro pos _ _; exact .done
  | @name b bs ls fs h1 h2 h3 ih =>
    intro pos hb hG
    rw [Rrwire.encAll_cons, BytesAt.append] at hb
    rw [Rrwire.encAll_cons] at hG ⊢
    simp only [Field.enc, List.length_append, Dname.wire_length] at hb hG ⊢
    rw [← Nat.add_assoc]
    exact .name h1 (At.of_wire h2.1 hb.1 (fun i a b => hG i a (by omega))) h2
      (ih hb.2 (fun i a b => hG i (by omega) (by omega)))
  | @naptr bs d fs h1 h2 ih =>
    intro pos hb hG
    rw [Rrwire.encAll_cons, BytesAt.append] at hb
    rw [Rrwire.encAll_cons] at hG ⊢
    simp only [Field.enc, List.length_append] at hb hG ⊢
    rw [← Nat.add_assoc]
    exact .naptr h1 hb.1 (fun i a b => hG i a (by omega)) (ih hb.2 (fun i a b => hG i (by omega) (by omega)))
  | @remainder d =>
    intro pos hb hG
    have : encAll [.raw d] = d := by simp [encAll, Field.enc]
    rw [this] at hb hG ⊢
    exact .remainder hb hG
  | @fixed k bs d fs h1 h2 ih =>
    intro pos hb hG
    subst h1
    rw [Rrwire.encAll_cons, BytesAt.append] at hb
    rw [Rrwire.encAll_cons] at hG ⊢
    simp only [Field.enc, List.length_append] at hb hG ⊢
    rw [← Nat.add_assoc]
    exact .fixed hb.1 (fun i a b => hG i a (by omega)) (ih hb.2 (fun i a b => hG i (by omega) (by omega)))

theorem valid_of_lower {a b : Name} (h : lowerName a = lowerName b) (hv : Valid b) : Valid a := by
  have key : ∀ (a b : Name), lowerName a = lowerName b → LabelsOk b → LabelsOk a ∧ nameLen a = nameLen b := by
    intro a
    induction a with
    | nil =>
      intro b h hb
      cases b with
      | nil => exact ⟨hb, rfl⟩
      | cons => simp [lowerName] at h
    | cons l a ih =>
      intro b h hb
      cases b with
      | nil => simp [lowerName] at h
      | cons m b =>
        simp only [lowerName, List.map_cons, List.cons.injEq] at h
        obtain ⟨h1, h2⟩ := ih b h.2 hb.tail
        have hl : l.length = m.length := by simpa using congrArg List.length h.1
        refine ⟨?_, by simp only [nameLen]; omega⟩
        intro x hx
        rcases List.mem_cons.mp hx with rfl | hx
        · rw [hl]; exact hb.head
        · exact h1 x hx
  obtain ⟨h1, h2⟩ := key a b h hv.1
  exact ⟨h1, by rw [h2]; exact hv.2⟩

/-! ## Pieces of RDATA -/

theorem Ext_assoc {G : Nat → Prop} {d n m i : Nat} : Ext (Ext G d n) (d + n) m i ↔ Ext G d (n + m) i := by
  unfold Ext
  constructor
  · rintro ((h | h) | h)
    · exact .inl h
    · exact .inr ⟨h.1, by omega⟩
    · exact .inr ⟨by omega, by omega⟩
  · rintro (h | h)
    · exact .inl (.inl h)
    · by_cases h2 : i < d + n
      · exact .inl (.inr ⟨h.1, h2⟩)
      · exact .inr ⟨by omega, by omega⟩

/-- Some RDATA octets `n` of them have been written, `rest` is left. -/
def PiecePost (c : Bool) (own : Env) (G : Nat → Prop) (s : Src) (w : W) (used : Nat) (P : Bytes → Nat → Prop) (s' : Src) (w' : W) : Prop :=
  ∃ n, s' = ⟨s.src.drop used, s.cur.adv n⟩ ∧ n ≤ s.cur.avail ∧ n ≤ used ∧ Fr s.cur.dst (s.cur.dst + n) w.buf w'.buf ∧
    Ok c own (Ext G s.cur.dst n) w' ∧ P w'.buf n

theorem writeFixed_spec {c : Bool} {own : Env} {G : Nat → Prop} {s : Src} {w : W} {d t : Bytes}
    (hG : ∀ i, G i → i < s.cur.dst) (hm : s.cur.dst + s.cur.avail ≤ w.buf.length) (h : Ok c own G w) (hs : s.src = d ++ t) :
    (writeFixed d.length s w).Post
      (PiecePost c own G s w d.length (fun b n => n = d.length ∧ BytesAt b s.cur.dst d)) (SpaceErr c own w s.cur d.length) := by
  unfold writeFixed
  rw [if_neg (by rw [hs, List.length_append]; omega)]
  by_cases ha : d.length > s.cur.avail
  · rw [if_pos ha]; exact ⟨rfl, Fr.refl _ _ _, h.2.2.2, ha⟩
  · rw [if_neg ha]
    have htk : s.src.take d.length = d := by rw [hs, List.take_left]
    rw [htk]
    obtain ⟨b, e1, e2, e3⟩ := put_spec (w := w) (pos := s.cur.dst) (d := d) (by omega)
    rw [e1, bind_ok]
    exact ⟨d.length, rfl, by omega, Nat.le_refl _, e2,
      h.congr (fun i hi => .inl hi) (fun i hi => e2.2 i (.inl (hG i hi))) rfl rfl rfl, rfl, e3⟩

theorem writeNaptr_spec {c : Bool} {own : Env} {G : Nat → Prop} {s : Src} {w : W} {d t : Bytes}
    (hG : ∀ i, G i → i < s.cur.dst) (hm : s.cur.dst + s.cur.avail ≤ w.buf.length) (h : Ok c own G w) (hs : s.src = d ++ t)
    (hd : NaptrAt d 0 d.length d.length) :
    (writeNaptr s w).Post
      (PiecePost c own G s w d.length (fun b n => n = d.length ∧ BytesAt b s.cur.dst d)) (SpaceErr c own w s.cur d.length) := by
  unfold writeNaptr
  have : naptrHeaderSize s.src 0 s.src.length = .ok d.length := by
    rw [Rrwire.naptr_ok (Nat.le_refl _)]
    rw [hs]
    have hb : BytesAt (d ++ t) 0 d := by
      intro i hi; rw [Nat.zero_add, List.getElem?_append_left hi]
    exact naptr_shift hd hb (by rw [List.length_append]; omega)
  rw [ask_ok this, bind_ok]
  exact writeFixed_spec hG hm h hs

theorem writeName_spec {pc c : Bool} {own : Env} {G : Nat → Prop} {s : Src} {w : W} {ls : Name} {t : Bytes} {hint : Nat}
    (hpc : pc = true → c = true)
    (hG : ∀ i, G i → i < s.cur.dst) (hm : s.cur.dst + s.cur.avail ≤ w.buf.length) (hd : s.cur.dst + s.cur.avail ≤ 65535)
    (h : Ok c own G w) (hs : s.src = wire ls ++ t) (hv : Valid ls) (h0 : own.d0 ≤ s.cur.dst) (hown : ls ∈ own.own hint) :
    (writeName pc c hint s w).Post
      (PiecePost c own G s w (nameLen ls) (fun b n => ∃ ls', At b (Ext G s.cur.dst n) s.cur.dst ls' n ∧ lowerName ls' = lowerName ls ∧
        (pc = false → ls' = ls))) (SpaceErr c own w s.cur (nameLen ls)) := by
  unfold writeName
  have hmx : s.cur.dst + dnameMax s.cur.avail ≤ w.buf.length := by unfold dnameMax; omega
  have hmax : dnameMax s.cur.avail ≤ s.cur.avail := by unfold dnameMax; omega
  have hsz : Dname.size s.src = .ok (nameLen ls) := by rw [hs]; exact Dname.size_wire t hv.1
  rw [ask_ok hsz, bind_ok]
  have hput : (comprPutDname pc s.src s.cur.dst (dnameMax s.cur.avail) w).Post
      (fun n w' => 1 ≤ n ∧ n ≤ s.cur.avail ∧ n ≤ nameLen ls ∧ Fr s.cur.dst (s.cur.dst + n) w.buf w'.buf ∧
        (∃ ls', At w'.buf (Ext G s.cur.dst n) s.cur.dst ls' n ∧ lowerName ls' = lowerName ls ∧ (pc = false → ls' = ls)) ∧
        Ok c own (Ext G s.cur.dst n) w')
      (SpaceErr c own w s.cur (nameLen ls)) := by
    rw [hs]
    cases pc with
    | true =>
      obtain rfl := hpc rfl
      refine Post.mono (comprPut_spec hG t ls hv w hmx (by omega) (h.2.1 rfl).1) ?_ ?_
      · rintro n w' ⟨b, suf, sl, rfl, a1, a2, a3, a4, ⟨ls', a5, a5'⟩, a6, a7⟩
        have hk : ∀ i, G i → b[i]? = w.buf[i]? := fun i hi => a4.2 i (.inl (hG i hi))
        refine ⟨a1, by omega, a3, a4, ⟨ls', a5, a5', by simp⟩, ?_, fun _ => ⟨a6, ?_⟩, fun i hi => .inl (h.2.2.1 i hi), ?_⟩
        · exact h.1.congr (fun i hi => .inl hi) hk rfl
        · exact (h.2.1 rfl).2.congr (fun _ h => h) (fun i hi => hk i (h.2.2.1 i hi))
        · rcases a7 with ⟨rfl, rfl⟩ | rfl
          · exact h.2.2.2.congr (fun i hi => hk i (h.2.2.1 i hi)) rfl rfl
          · exact ⟨fun h => (by cases h), fun _ => .inr h0⟩
      · rintro e w' ⟨he, hx, b, rfl, hf⟩
        exact ⟨he, hf.mono (Nat.le_refl _) (by omega),
          h.2.2.2.congr (fun i hi => hf.2 i (.inl (hG i (h.2.2.1 i hi)))) rfl rfl,
          by have : nameLen ls ≤ 255 := hv.2; unfold dnameMax at hx; omega⟩
    | false =>
      refine Post.mono (plainPut_spec t ls hv.1 w hmx) ?_ ?_
      · rintro n w' ⟨rfl, a2, b, rfl, a4, a5⟩
        refine ⟨Dname.nameLen_pos ls, by omega, Nat.le_refl _, a4, ⟨ls, At.of_wire hv.1 a5 (fun i x y => .inr ⟨x, y⟩), rfl, fun _ => rfl⟩, ?_⟩
        exact h.congr (fun i hi => .inl hi) (fun i hi => a4.2 i (.inl (hG i hi))) rfl rfl rfl
      · rintro e w' ⟨he, hx, b, rfl, hf⟩
        exact ⟨he, hf.mono (Nat.le_refl _) (by omega),
          h.2.2.2.congr (fun i hi => hf.2 i (.inl (hG i (h.2.2.1 i hi)))) rfl rfl,
          by have : nameLen ls ≤ 255 := hv.2; unfold dnameMax at hx; omega⟩
  refine Post.bind hput ?_
  rintro n w1 ⟨a1, a2, a3, a4, ⟨ls', a5, a6, a8⟩, a7⟩
  have hset : (if getHint c w1 hint = 0 then setHint c w1 hint s.cur.dst n else .ok () w1).Post
      (fun _ w' => w'.buf = w1.buf ∧ Ok c own (Ext G s.cur.dst n) w') (SpaceErr c own w s.cur (nameLen ls)) := by
    split
    · exact Post.mono (setHint_spec a7 a5 (by omega) hown a6) (fun _ _ h => h) (fun _ _ h => h.elim)
    · exact ⟨rfl, a7⟩
  refine Post.bind hset ?_
  rintro _ w2 ⟨hb2, h2⟩
  rw [if_neg (by rw [hs, List.length_append, Dname.wire_length]; omega)]
  exact ⟨n, rfl, a2, a3, by rw [hb2]; exact a4, h2, ls', by rw [hb2]; exact a5, a6, a8⟩

end Knot.Pkt
