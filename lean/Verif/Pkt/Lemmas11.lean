import Verif.Pkt.Lemmas10
/-!
# The invariant of packets
-/
namespace Knot.Pkt
open Knot
open Knot.Dname (Name NameAt Valid wire nameLen lowerName lowerByte LabelsOk)
open Knot.Rrwire (Rec num)
open Knot.WireCtx (beBytes beVal)

theorem be2 (v : Nat) : beBytes 2 v = [UInt8.ofNat (v / 256), UInt8.ofNat v] := by
  have h : ∀ n : Nat, UInt8.ofNat (n % 256) = UInt8.ofNat n := by
    intro n
    apply UInt8.toNat.inj
    simp [UInt8.toNat_ofNat']
  simp [beBytes, h]

theorem Question.enc_eq (q : Question) : q.enc = wire q.name ++ (beBytes 2 q.type ++ beBytes 2 q.rclass) := by
  unfold Question.enc
  rw [be2, be2]
  rfl

theorem Question.enc_length (q : Question) : q.enc.length = nameLen q.name + 4 := by
  rw [Question.enc_eq]
  simp [WireCtx.length_beBytes, Dname.wire_length]

theorem new_inv {len : Nat} {g : Bytes} {p : Pkt} (h : Pkt.new len g = some p) (hl : len ≤ 65535) : Inv none p [] := by
  unfold Pkt.new at h
  split at h
  · cases h
  · rename_i hlen
    cases h
    have hw : ((List.replicate 12 (0 : UInt8) ++ g ++ List.replicate len 0).take len).length = len := by
      rw [List.length_take]; simp only [List.length_append, List.length_replicate]; omega
    have hz : ∀ i, i < 12 → ((List.replicate 12 (0 : UInt8) ++ g ++ List.replicate len 0).take len)[i]? = some 0 := by
      intro i hi
      rw [List.getElem?_take, if_pos (by omega), List.append_assoc, List.getElem?_append_left (by simpa using hi)]
      rw [List.getElem?_replicate, if_pos hi]
    have hc : ∀ pos, pos + 2 ≤ 12 → num (Rrwire.slice ((List.replicate 12 (0 : UInt8) ++ g ++ List.replicate len 0).take len) pos 2) = 0 := by
      intro pos hp
      have : Rrwire.slice ((List.replicate 12 (0 : UInt8) ++ g ++ List.replicate len 0).take len) pos 2 = [0, 0] := by
        have hb : BytesAt ((List.replicate 12 (0 : UInt8) ++ g ++ List.replicate len 0).take len) pos [0, 0] := by
          intro i hi
          simp only [List.length_cons, List.length_nil] at hi
          rw [hz _ (by omega)]
          have : i = 0 ∨ i = 1 := by omega
          rcases this with rfl | rfl <;> rfl
        exact hb.slice
      rw [this]; rfl
    exact { lo := Nat.le_refl _, fit := by show 12 + 0 ≤ len; omega, max := hl, buf := by show len ≤ _; rw [hw]; omega, sec := by show 0 ≤ 2; omega, qn := rfl, qs := rfl,
            nosuf := fun _ => rfl, suf := by simp, len := rfl, hints := by simp, recs := ⟨[], .nil, .nil⟩,
            counts := ⟨hc 4 (by omega), hc 6 (by omega), hc 8 (by omega), hc 10 (by omega)⟩, order := by simp, sorted := .nil }

/-- `knot_pkt_put_question` on a fresh packet. -/
theorem putQuestion_spec {p : Pkt} {qn : Question} (hi : Inv none p []) (hc : p.current = 0) (hv : Valid qn.name) :
    (12 + qn.enc.length > p.maxSize ∧ ∃ p', putQuestion p (wire qn.name) qn.rclass qn.type = .ok (some .espace, p') ∧ Inv none p' [] ∧
      p' = { p with wire := p'.wire, lowerQname := p'.lowerQname }) ∨
    (12 + qn.enc.length ≤ p.maxSize ∧ ∃ p', putQuestion p (wire qn.name) qn.rclass qn.type = .ok (none, p') ∧
      (12 + qn.enc.length + p.reserved ≤ p.maxSize → Inv (some qn) p' []) ∧
      p'.size = 12 + qn.enc.length ∧ p'.reserved = p.reserved ∧ p'.maxSize = p.maxSize ∧ (∀ i, i < 4 → p'.wire[i]? = p.wire[i]?) ∧ p'.current = 0) := by
  have hfit := hi.fit
  have hbuf := hi.buf
  have hmax := hi.max
  have hent : p.entries = [] := List.length_eq_zero_iff.mp hi.len.symm
  have hsz : p.size = 12 := by
    obtain ⟨rs, h1, h2⟩ := hi.recs
    have h3 : rs = [] := by cases h2; rfl
    rw [h3] at h1
    generalize hs : p.size = s at h1
    cases h1
    rfl
  have hel := qn.enc_length
  unfold putQuestion
  rw [if_neg (by simp [hsz, hent])]
  have hs := Dname.size_wire [] hv.1
  rw [List.append_nil] at hs
  rw [hs]
  simp only [Res.bind_ok]
  by_cases h1 : nameLen qn.name > p.maxSize - 12
  · rw [if_pos h1]
    exact .inl ⟨by omega, p, rfl, hi, rfl⟩
  · rw [if_neg h1]
    have hld : WireCtx.load (wire qn.name) 0 (nameLen qn.name) = .ok (wire qn.name) := by
      rw [← Dname.wire_length]
      simp [WireCtx.load]
    rw [hld]
    simp only [Res.bind_ok]
    obtain ⟨b, e1, e2, e3⟩ := store_spec (mem := p.wire) (pos := 12) (d := wire qn.name) (by rw [Dname.wire_length]; omega)
    rw [Dname.wire_length] at e2
    rw [e1]
    simp only [Res.bind_ok]
    have hcl := Dname.copyLower_wire [] hv.1
    rw [List.append_nil] at hcl
    rw [hcl]
    simp only [Res.bind_ok]
    unfold questionTail
    have keep : ∀ (mem lower : Bytes), mem.length = p.wire.length → (∀ i, i < 12 → mem[i]? = p.wire[i]?) →
        Inv none { p with wire := mem, lowerQname := lower } [] := by
      intro mem lower hl hm
      have := hi.wire (b := mem) hl (fun i _ h => hm i (by omega))
      exact { this with }
    have hl1 : b.length = p.wire.length := e2.1
    by_cases h2 : 12 + nameLen qn.name + 2 > p.maxSize
    · rw [if_pos h2]
      exact .inl ⟨by omega, _, rfl, keep b _ e2.1 (fun i h => e2.2 i (.inl h)), rfl⟩
    · rw [if_neg h2]
      obtain ⟨b2, f1, f2, f3⟩ := set16_spec (mem := b) (pos := 12 + nameLen qn.name) (v := qn.type) (by omega)
      rw [f1]
      simp only [Res.bind_ok]
      have hl2 : b2.length = p.wire.length := by rw [f2.1, hl1]
      by_cases h3 : 12 + nameLen qn.name + 4 > p.maxSize
      · rw [if_pos h3]
        exact .inl ⟨by omega, _, rfl, keep b2 _ hl2 (fun i h => by rw [f2.2 i (.inl (by omega)), e2.2 i (.inl h)]), rfl⟩
      · rw [if_neg h3]
        obtain ⟨b3, g1, g2, g3⟩ := set16_spec (mem := b2) (pos := 12 + nameLen qn.name + 2) (v := qn.rclass) (by omega)
        rw [g1]
        simp only [Res.bind_ok]
        have hl3 : b3.length = p.wire.length := by rw [g2.1, hl2]
        obtain ⟨b4, k1, k2, k3⟩ := set16_spec (mem := b3) (pos := 4) (v := 1) (by omega)
        rw [k1]
        simp only [Res.bind_ok]
        unfold begin
        rw [if_neg (by show ¬ 0 < p.current; omega)]
        refine .inr ⟨by omega, _, rfl, ?_, by rw [hel]; rfl, rfl, rfl, ?_, rfl⟩
        · intro hroom
          have henc : BytesAt b4 12 qn.enc := by
            rw [Question.enc_eq, BytesAt.append, BytesAt.append, WireCtx.length_beBytes, Dname.wire_length]
            refine ⟨e3.congr ?_, f3.congr ?_, g3.congr ?_⟩
            · intro i x y
              rw [Dname.wire_length] at y
              rw [k2.2 i (.inr (by omega)), g2.2 i (.inl (by omega)), f2.2 i (.inl (by omega))]
            · intro i x y
              rw [WireCtx.length_beBytes] at y
              rw [k2.2 i (.inr (by omega)), g2.2 i (.inl (by omega))]
            · intro i x y
              rw [k2.2 i (.inr (by omega))]
          have hhdr : ∀ i, i < 12 → i ≠ 4 → i ≠ 5 → b4[i]? = p.wire[i]? := by
            intro i x y z
            rw [k2.2 i (by omega), g2.2 i (.inl (by omega)), f2.2 i (.inl (by omega)), e2.2 i (.inl x)]
          obtain ⟨c1, c2, c3, c4⟩ := hi.counts
          refine { lo := ?_, fit := ?_, max := hmax, buf := ?_, sec := by show 0 ≤ 2; omega, qn := ⟨hv, rfl, ?_, ?_⟩, qs := henc.slice, nosuf := fun h => (by cases h), suf := fun _ => .inl (hi.nosuf rfl), len := ?_, hints := by simp,
                   recs := ⟨[], ?_, .nil⟩, counts := ⟨num_at k3 (by simp), ?_, ?_, ?_⟩, order := by simp, sorted := .nil }
          · show 12 ≤ 12 + nameLen qn.name + 4; omega
          · show 12 + nameLen qn.name + 4 + p.reserved ≤ p.maxSize; omega
          · show p.maxSize ≤ b4.length
            rw [k2.1, hl3]; exact hbuf
          · rw [Question.enc_eq, BytesAt.append] at henc
            exact henc.1
          · show 12 + nameLen qn.name ≤ 12 + nameLen qn.name + 4; omega
          · show [].length = p.entries.length
            rw [hent]
            rfl
          · have : 12 + (qBytes (some qn)).length = 12 + nameLen qn.name + 4 := by show 12 + qn.enc.length = _; omega
            rw [this]; exact .nil
          · rw [← c2]; congr 1; exact slice_congr (fun i x y => hhdr i (by omega) (by omega) (by omega))
          · rw [← c3]; congr 1; exact slice_congr (fun i x y => hhdr i (by omega) (by omega) (by omega))
          · rw [← c4]; congr 1; exact slice_congr (fun i x y => hhdr i (by omega) (by omega) (by omega))
        · intro i hi4
          show b4[i]? = _
          rw [k2.2 i (.inl hi4), g2.2 i (.inl (by omega)), f2.2 i (.inl (by omega)), e2.2 i (.inl (by omega))]

theorem clear_inv {q : Option Question} {p : Pkt} {log : List Item} (hi : Inv q p log) :
    ∃ p1, clear p = .ok p1 ∧ Inv none { p1 with qnameSize := 0 } [] ∧ p1.maxSize = p.maxSize ∧ p1.reserved = 0 ∧ p1.current = 0 := by
  have hlo := hi.lo
  have hfit := hi.fit
  have hbuf := hi.buf
  obtain ⟨b, h1, h2, h3⟩ := store_spec (mem := p.wire) (pos := 0) (d := List.replicate 12 0) (by rw [List.length_replicate]; omega)
  have hc : ∀ pos, pos + 2 ≤ 12 → num (Rrwire.slice b pos 2) = 0 := by
    intro pos hp
    have : Rrwire.slice b pos 2 = [0, 0] := by
      have hb : BytesAt b pos [0, 0] := by
        intro i hi
        simp only [List.length_cons, List.length_nil] at hi
        have := h3 (pos + i) (by rw [List.length_replicate]; omega)
        rw [Nat.zero_add] at this
        rw [this, List.getElem?_replicate, if_pos (by omega)]
        have : i = 0 ∨ i = 1 := by omega
        rcases this with rfl | rfl <;> rfl
      exact hb.slice
    rw [this]; rfl
  have hcl : clear p = .ok { clearPayload { p with wire := b, size := 12 } with lowerQname := [0] } := by unfold clear; rw [h1]; rfl
  refine ⟨_, hcl, ?_, rfl, rfl, rfl⟩
  exact { lo := Nat.le_refl _, fit := by show 12 + 0 ≤ p.maxSize; omega, max := hi.max, buf := by show p.maxSize ≤ b.length; rw [h2.1]; exact hbuf,
          sec := by show 0 ≤ 2; omega, qn := rfl, qs := rfl, nosuf := fun _ => rfl,
          suf := by simp, len := rfl, hints := by simp [clearPayload], recs := ⟨[], .nil, .nil⟩,
          counts := ⟨hc 4 (by omega), hc 6 (by omega), hc 8 (by omega), hc 10 (by omega)⟩, order := by simp, sorted := .nil }

theorem putQuestion_qnameSize {p p' : Pkt} {qname : Bytes} {c t : Nat} (h : putQuestion p qname c t = .ok (none, p')) :
    putQuestion { p with qnameSize := 0 } qname c t = .ok (none, p') := by
  unfold putQuestion at h ⊢
  split at h
  · cases h
  · rename_i h1
    rw [if_neg h1]
    cases h2 : Dname.size qname with
    | err e => rw [h2] at h; cases h
    | ub => rw [h2] at h; cases h
    | ok n =>
      rw [h2] at h
      simp only [Res.bind_ok] at h ⊢
      split at h
      · cases h
      · rename_i h3
        rw [if_neg h3]
        cases h4 : WireCtx.load qname 0 n with
        | err e => rw [h4] at h; cases h
        | ub => rw [h4] at h; cases h
        | ok d =>
          rw [h4] at h
          simp only [Res.bind_ok] at h ⊢
          cases h5 : WireCtx.store p.wire 12 d with
          | err e => rw [h5] at h; cases h
          | ub => rw [h5] at h; cases h
          | ok mem =>
            rw [h5] at h
            simp only [Res.bind_ok] at h ⊢
            cases h6 : Dname.copyLower qname with
            | err e => rw [h6] at h; cases h
            | ub => rw [h6] at h; cases h
            | ok lower =>
              rw [h6] at h
              simp only [Res.bind_ok] at h ⊢
              unfold questionTail at h ⊢
              split at h
              · cases h
              · rename_i h7
                rw [if_neg h7]
                cases h8 : set16 mem (12 + n) t with
                | err e => rw [h8] at h; cases h
                | ub => rw [h8] at h; cases h
                | ok mem =>
                  rw [h8] at h
                  simp only [Res.bind_ok] at h ⊢
                  split at h
                  · cases h
                  · rename_i h9
                    rw [if_neg h9]
                    exact h

/-- A put of a set with no records, or of one already there. -/
theorem putNothing_spec {q : Option Question} {p : Pkt} {log : List Item} {hint rotate flags id : Nat} {r : RSet} (hi : Inv q p log)
    (hp : PutOk q p log hint flags r) (hn : r.rdatas = [] ∨ (flags.testBit 3 = true ∧ Dup p r id)) :
    ∃ p', putRotate p hint (r.enc id) rotate flags = .ok (none, p') ∧ Inv q p' log ∧
      p'.wire = p.wire ∧ p'.size = p.size ∧ p'.entries = p.entries ∧ p'.reserved = p.reserved ∧ p'.maxSize = p.maxSize := by
  rw [← contains_iff] at hn
  by_cases hd : flags.testBit 3 = true ∧ contains p (r.enc id) = true
  · refine ⟨p, ?_, hi, rfl, rfl, rfl, rfl, rfl⟩
    unfold putRotate
    rw [if_pos hd]
  · have he := hn.resolve_right hd
    obtain ⟨w, e1, e2, e3, e4⟩ := startW_spec (r := r) hi hp.hint
    refine ⟨{ p with wire := w.buf, suf := w.suf, sufLabels := w.sufLabels, opt := if (r.enc id).type = 41 then some p.entries.length else p.opt },
      ?_, ?_, e2, rfl, rfl, rfl, rfl⟩
    · unfold putRotate
      have hlen : (r.enc id).rrs.length = 0 := by simp [RSet.enc, he]
      rw [if_neg hd, e1, bind_ok]
      unfold toWireExtra
      rw [if_pos hlen]
      show putDone p hint (r.enc id) flags 0 w = _
      unfold putDone
      rw [if_neg (by rw [hlen]; omega)]
    · rw [e2]
      refine { hi with nosuf := fun h => e4.2.2.2.1 h, suf := fun h => .inr ?_ }
      have := (e4.2.1 h).1
      have := this.congr (w' := ⟨p.wire, w.suf, w.sufLabels, fun _ => 0⟩) (G' := Settled p.size) (fun _ h => h) (fun i _ => by rw [e2]) rfl rfl
      exact this

theorem Built.inv {q : Option Question} {p : Pkt} {log : List Item} (h : Built q p log) : Inv q p log := by
  induction h with
  | new hl h => exact new_inv h hl
  | limit _ h1 h2 h3 ih => exact { ih with fit := h1, buf := h2, max := h3 }
  | header _ h1 h2 ih => exact ih.wire h1 (fun i hi _ => h2 i hi)
  | @begin q p log sec _ hs ih =>
    unfold Pkt.begin
    split
    · exact ih
    · rename_i h
      exact { ih with sec := hs, order := fun it h' => by have := ih.order it h'; show it.sec ≤ sec; omega }
  | @reserve q p log n _ ih =>
    unfold Pkt.reserve
    have h1 := ih.fit
    have h2 := ih.max
    split
    · rename_i h
      rw [remaining_eq h1 h2] at h
      exact { ih with fit := by show p.size + (p.reserved + n) % 65536 ≤ p.maxSize; omega }
    · exact ih
  | @reclaim q p log n _ ih =>
    unfold Pkt.reclaim
    have h1 := ih.fit
    split
    · exact { ih with fit := by show p.size + (p.reserved - n) ≤ p.maxSize; omega }
    · exact ih
  | question _ hc hv hr h ih =>
    rcases putQuestion_spec ih hc hv with ⟨_, p1, h1, _⟩ | ⟨_, p1, h1, h2, _⟩
    · rw [h1] at h; cases h
    · rw [h1] at h; cases h; exact h2 hr
  | noQuestion _ hc hv h ih =>
    rcases putQuestion_spec ih hc hv with ⟨_, p1, h1, h2, _⟩ | ⟨_, p1, h1, _⟩
    · rw [h1] at h; cases h; exact h2
    · rw [h1] at h; cases h
  | restart _ hc hv hr h ih =>
    obtain ⟨p1, c1, c2, c3, c4, c5⟩ := clear_inv ih
    rw [c1] at hc
    cases hc
    have h' := putQuestion_qnameSize h
    rcases putQuestion_spec c2 c5 hv with ⟨_, p1, h1, h2, _⟩ | ⟨_, p1, h1, h2, _⟩
    · rw [h1] at h'; cases h'
    · rw [h1] at h'; cases h'
      refine h2 ?_
      simp only [c3, c4]
      omega
  | @nothing q p log p' r id hint rotate flags _ h1 h2 h3 ih =>
    obtain ⟨p1, c1, c2, _⟩ := putNothing_spec (rotate := rotate) ih h1 h2
    rw [c1] at h3; cases h3; exact c2
  | put _ h1 h2 h3 h4 ih =>
    rcases putRotate_spec ih h1 h2 h3 with ⟨p1, c1, c2⟩ | ⟨p1, c1, c2⟩
    · rw [c1] at h4; cases h4; exact c2.inv
    · rw [c1] at h4; cases h4
  | refused _ h1 h2 h3 h4 h5 ih =>
    rcases putRotate_spec ih h1 h2 h3 with ⟨p1, c1, c2⟩ | ⟨p1, c1, c2⟩
    · rw [c1] at h4; cases h4
    · rw [c1] at h4; cases h4; exact c2.inv h5

end Knot.Pkt
