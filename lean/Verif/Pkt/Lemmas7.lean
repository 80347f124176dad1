import Verif.Pkt.Lemmas6
/-!
# Lemmas about writing records: header, record, record set
-/
namespace Knot.Pkt
open Knot
open Knot.Dname (Name NameAt Valid wire nameLen lowerName lowerByte LabelsOk)
open Knot.Rrwire (Block Field Rec NaptrAt parseDesc rdataDesc obsoleteDesc descIn descTable emptyAllowed encAll slice num RRAt RdAt HeadAt)
open Knot.WireCtx (beBytes beVal)

theorem rdataDesc_compr {type : Nat} (h : type ∉ comprTypes) : Block.comprName ∉ (rdataDesc type).blocks := by
  unfold rdataDesc descIn
  cases hl : descTable.lookup type with
  | none => simp
  | some b =>
    have hm := Rrwire.lookup_mem hl
    have : ∀ x ∈ descTable, x.1 ∉ comprTypes → Block.comprName ∉ x.2 := by decide
    exact this _ hm h

theorem rdataDesc_unnamed {type : Nat} (h : (rdataDesc type).named = false) : (rdataDesc type).blocks = [.remainder] := by
  unfold rdataDesc descIn at h ⊢
  cases hl : descTable.lookup type with
  | none => rfl
  | some b => rw [hl] at h; cases h

theorem writeData_spec {c : Bool} {own : Env} {G : Nat → Prop} {cur : Cur} {w : W} {type hint : Nat} {fs : List Field}
    (hf : Fits (parseDesc type).blocks fs) (hpos : 0 < (encAll fs).length)
    (hG : ∀ i, G i → i < cur.dst) (hm : cur.dst + cur.avail ≤ w.buf.length) (hd : cur.dst + cur.avail ≤ 65535)
    (h : Ok c own G w) (h0 : own.d0 ≤ cur.dst) (hn : ∀ ls ∈ namesOf fs, ls ∈ own.own hint) :
    (writeData c type hint ⟨encAll fs, cur⟩ w).Post (DataPost c own G ⟨encAll fs, cur⟩ w (parseDesc type).blocks fs (type ∉ comprTypes))
      (SpaceErr c own w cur (encAll fs).length) := by
  unfold writeData
  rw [if_pos hpos]
  cases hnm : (rdataDesc type).named with
  | true =>
    have : parseDesc type = rdataDesc type := by unfold parseDesc; rw [if_pos hnm]
    rw [this] at hf ⊢
    refine Post.mono (traverseWrite_spec hf G cur w hG hm hd h h0 hn) ?_ (fun _ _ h => h)
    rintro s' w' ⟨m, a1, a2, a3, a4, a5, a6, fs', b1, b2, b3⟩
    exact ⟨m, a1, a2, a3, a4, a5, a6, fs', b1, b2, fun hx => b3 (rdataDesc_compr hx)⟩
  | false =>
    rw [rdataDesc_unnamed hnm]
    have hr : Fits [.remainder] [.raw (encAll fs)] := .remainder
    have hsrc : encAll [.raw (encAll fs)] = encAll fs := by simp [encAll, Field.enc]
    have := traverseWrite_spec (c := c) (own := own) (hint := hint) hr G cur w hG hm hd h h0 (by simp [namesOf])
    rw [hsrc] at this
    refine Post.mono this ?_ (fun _ _ h => h)
    rintro s' w' ⟨m, a1, a2, a3, a4, a5, a6, fs', b1, b2, b3⟩
    rw [hsrc] at a3 a4
    have hx := b3 (by simp)
    subst hx
    refine ⟨m, a1, a2, a3, a4, a5, a6, fs, ?_, rfl, fun _ => rfl⟩
    generalize hst : ({ src := encAll fs, cur := cur } : Src).cur.dst + m = stop at b1
    generalize hd0 : ({ src := encAll fs, cur := cur } : Src).cur.dst = d0 at *
    cases b1 with
    | remainder c1 c2 =>
      exact RdG.of_bytes hf c1 c2

/-! ## Numbers -/

theorem num_cons_foldl (d : Bytes) (a : Nat) : d.foldl (fun a b => a * 256 + b.toNat) a = a * 256 ^ d.length + beVal d := by
  induction d generalizing a with
  | nil => simp [beVal]
  | cons b d ih =>
    rw [List.foldl_cons, ih]
    simp only [beVal, List.length_cons, Nat.pow_succ]
    grind

theorem num_beVal (d : Bytes) : num d = beVal d := by
  unfold num
  rw [num_cons_foldl]
  simp

theorem num_beBytes {n v : Nat} (h : v < 256 ^ n) : num (beBytes n v) = v := by
  rw [num_beVal, WireCtx.beVal_beBytes, Nat.mod_eq_of_lt h]

theorem num_at {buf : Bytes} {pos n v : Nat} (h : BytesAt buf pos (beBytes n v)) (hv : v < 256 ^ n) : num (slice buf pos n) = v := by
  have := h.slice
  rw [WireCtx.length_beBytes] at this
  rw [this, num_beBytes hv]

/-- Some octets have been written at `cur`. -/
def RawPost (c : Bool) (own : Env) (G : Nat → Prop) (cur : Cur) (w : W) (d : Bytes) (cur' : Cur) (w' : W) : Prop :=
  cur' = cur.adv d.length ∧ d.length ≤ cur.avail ∧ Fr cur.dst (cur.dst + d.length) w.buf w'.buf ∧
    Ok c own (Ext G cur.dst d.length) w' ∧ BytesAt w'.buf cur.dst d

theorem writeNum_spec {c : Bool} {own : Env} {G : Nat → Prop} {cur : Cur} {w : W} {n v : Nat}
    (hG : ∀ i, G i → i < cur.dst) (hm : cur.dst + cur.avail ≤ w.buf.length) (h : Ok c own G w) :
    (writeNum cur n v w).Post (RawPost c own G cur w (beBytes n v)) (SpaceErr c own w cur n) := by
  unfold writeNum
  by_cases hn : n > cur.avail
  · rw [if_pos hn]; exact ⟨rfl, Fr.refl _ _ _, h.2.2.2, hn⟩
  · rw [if_neg hn]
    have hl := WireCtx.length_beBytes n v
    obtain ⟨b, e1, e2, e3⟩ := put_spec (w := w) (pos := cur.dst) (d := beBytes n v) (by rw [hl]; omega)
    rw [e1, bind_ok]
    exact ⟨by rw [hl], by rw [hl]; omega, e2,
      h.congr (fun i hi => .inl hi) (fun i hi => e2.2 i (.inl (hG i hi))) rfl rfl rfl, e3⟩

theorem Ext_lt {G : Nat → Prop} {d n i : Nat} (hG : ∀ i, G i → i < d) (h : Ext G d n i) : i < d + n := by
  rcases h with h | h
  · have := hG i h; omega
  · exact h.2

/-- First octets `a`, then `b`. -/
theorem RawPost.append {c : Bool} {own : Env} {G : Nat → Prop} {cur : Cur} {w : W} {a : Bytes} {cur1 : Cur} {w1 : W} {b : Bytes}
    {f : Cur → W → Out Cur} (hG : ∀ i, G i → i < cur.dst) (hm : cur.dst + cur.avail ≤ w.buf.length) (h : RawPost c own G cur w a cur1 w1)
    (hf : ∀ (G' : Nat → Prop) (cur : Cur) (w : W), (∀ i, G' i → i < cur.dst) → cur.dst + cur.avail ≤ w.buf.length → Ok c own G' w →
      (f cur w).Post (RawPost c own G' cur w b) (SpaceErr c own w cur b.length)) :
    (f cur1 w1).Post (RawPost c own G cur w (a ++ b)) (SpaceErr c own w cur (a ++ b).length) := by
  obtain ⟨rfl, h2, h3, h4, h5⟩ := h
  refine Post.mono (hf _ _ _ (fun i hi => Ext_lt hG hi) ?_ h4) ?_ ?_
  · show cur.dst + a.length + (cur.avail - a.length) ≤ _; rw [h3.1]; omega
  · rintro cur' w' ⟨rfl, a2, a3, a4, a5⟩
    have e0 : (cur.adv a.length).dst = cur.dst + a.length := rfl
    have e1 : (cur.adv a.length).avail = cur.avail - a.length := rfl
    rw [e0] at a3 a4 a5
    rw [e1] at a2
    refine ⟨?_, ?_, ?_, ?_, ?_⟩
    · simp only [Cur.adv, Cur.mk.injEq, List.length_append]; omega
    · rw [List.length_append]; omega
    · rw [List.length_append]
      exact (h3.mono (Nat.le_refl _) (by omega)).trans (a3.mono (by omega) (by omega))
    · rw [List.length_append]
      exact a4.congr (fun i hi => Ext_assoc.mp hi) (fun _ _ => rfl) rfl rfl rfl
    · rw [BytesAt.append]
      exact ⟨h5.congr (fun i x y => a3.2 i (.inl y)), a5⟩
  · intro e w' h
    rw [List.length_append]
    exact h.adv h2 (Nat.le_refl _) (h3.mono (Nat.le_refl _) (by omega))

/-! ## Header -/

theorem fits_rrsig {type : Nat} {fs : List Field} (ht : type = 46) (h : Fits (parseDesc type).blocks fs) : 18 ≤ (encAll fs).length := by
  subst ht
  have : (parseDesc 46).blocks = [.fixed 18, .fixedName, .remainder] := by decide
  rw [this] at h
  cases h with
  | name h1 => cases h1
  | fixed h1 h2 => rw [Rrwire.encAll_cons, List.length_append]; simp only [Field.enc]; omega

theorem fits_soa {type : Nat} {fs : List Field} (ht : type = 6) (h : Fits (parseDesc type).blocks fs) :
    ∃ a b d, fs = [.name a, .name b, .raw d] ∧ Valid a ∧ Valid b ∧ d.length = 20 := by
  subst ht
  have : (parseDesc 6).blocks = [.comprName, .comprName, .fixed 20] := by decide
  rw [this] at h
  cases h with
  | name h1 h2 h3 =>
    cases h3 with
    | name h4 h5 h6 =>
      cases h6 with
      | name h7 => cases h7
      | fixed h7 h8 => cases h8; exact ⟨_, _, _, rfl, h2, h5, h7⟩

theorem num_lt (d : Bytes) : num d < 256 ^ d.length := by
  rw [num_beVal]
  induction d with
  | nil => simp [beVal]
  | cons b d ih =>
    simp only [beVal, List.length_cons, Nat.pow_succ]
    have := b.toNat_lt
    have h1 : b.toNat * 256 ^ d.length ≤ 255 * 256 ^ d.length := Nat.mul_le_mul_right _ (by omega)
    omega

theorem slice_le (mem : Bytes) (pos k : Nat) : (slice mem pos k).length ≤ k := by
  unfold slice; rw [List.length_take]; omega

theorem ttlOf_lt {flags : Nat} {r : RSet} {fs : List Field} (h : r.ttl < 4294967296) : ttlOf flags r fs < 4294967296 := by
  unfold ttlOf
  split
  · have h1 := num_lt (slice (encAll fs) 4 4)
    have h2 := slice_le (encAll fs) 4 4
    have h3 : 256 ^ (slice (encAll fs) 4 4).length ≤ 256 ^ 4 := Nat.pow_le_pow_right (by omega) h2
    omega
  · split
    · exact Nat.lt_of_le_of_lt (Nat.min_le_right _ _) h
    · exact h

theorem ttlFor_spec {flags : Nat} {r : RSet} {id : Nat} {fs : List Field}
    (hf : (flags.testBit 6 = false ∧ flags.testBit 7 = false) ∨ Fits (parseDesc r.type).blocks fs) :
    ttlFor (r.enc id) (encAll fs) flags = .ok (ttlOf flags r fs) := by
  unfold ttlFor ttlOf
  by_cases h6 : flags.testBit 6 = true ∧ r.type = 46
  · rw [if_pos h6]
    rw [if_pos (show flags.testBit 6 = true ∧ (r.enc id).type = 46 from h6)]
    unfold rrsigTtl
    rcases hf with hf | hf
    · rw [hf.1] at h6; simp at h6
    · have := fits_rrsig h6.2 hf
      rw [Rrwire.readBE_eq (by omega)]
  · rw [if_neg h6]
    rw [if_neg (show ¬ (flags.testBit 6 = true ∧ (r.enc id).type = 46) from h6)]
    by_cases h7 : flags.testBit 7 = true ∧ r.type = 6
    · rw [if_pos h7]
      rw [if_pos (show flags.testBit 7 = true ∧ (r.enc id).type = 6 from h7)]
      rcases hf with hf | hf
      · rw [hf.2] at h7; simp at h7
      · obtain ⟨a, b, d, rfl, ha, hb, hd⟩ := fits_soa h7.2 hf
        have e : encAll [.name a, .name b, .raw d] = wire a ++ (wire b ++ d) := by simp [encAll, Field.enc]
        have : soaMinimum (encAll [.name a, .name b, .raw d]) = .ok (num (slice d 16 4)) := by
          unfold soaMinimum
          rw [e, Dname.size_wire _ ha.1]
          simp only [Res.bind_ok]
          rw [← Dname.wire_length a, List.drop_left, Dname.size_wire _ hb.1]
          simp only [Res.bind_ok]
          rw [Rrwire.readBE_eq (by simp only [List.length_append, Dname.wire_length]; omega)]
          congr 2
          unfold slice
          rw [← List.append_assoc, show (wire a).length + nameLen b + 16 = (wire a ++ wire b).length + 16 by rw [List.length_append, Dname.wire_length b],
            List.drop_append]
          simp only [Nat.add_sub_cancel_left]
          rw [List.drop_eq_nil_of_le (by omega), List.nil_append]
        rw [this]
        rfl
    · rw [if_neg h7]
      rw [if_neg (show ¬ (flags.testBit 7 = true ∧ (r.enc id).type = 6) from h7)]
      rfl

/-- Type, class and TTL. -/
def headBytes (type rclass ttl : Nat) : Bytes := beBytes 2 type ++ (beBytes 2 rclass ++ beBytes 4 ttl)

theorem writeHeader_spec {c : Bool} {own : Env} {G : Nat → Prop} {cur : Cur} {w : W} {flags : Nat} {r : RSet} {id : Nat} {fs : List Field}
    (hf : (flags.testBit 6 = false ∧ flags.testBit 7 = false) ∨ Fits (parseDesc r.type).blocks fs)
    (hG : ∀ i, G i → i < cur.dst) (hm : cur.dst + cur.avail ≤ w.buf.length) (h : Ok c own G w) :
    (writeHeader (r.enc id) (encAll fs) flags cur w).Post (RawPost c own G cur w (headBytes r.type r.rclass (ttlOf flags r fs)))
      (SpaceErr c own w cur 8) := by
  unfold writeHeader
  rw [ask_ok (ttlFor_spec hf), bind_ok]
  have hl : (headBytes r.type r.rclass (ttlOf flags r fs)).length = 8 := by simp [headBytes, WireCtx.length_beBytes]
  rw [← hl]
  refine Post.bind (Post.mono (writeNum_spec hG hm h) (fun _ _ h => h) (fun _ _ h => h.more (by omega))) ?_
  intro cur1 w1 h1
  refine RawPost.append (f := fun c w => (writeNum c 2 (r.enc id).rclass w).bind fun c w => writeNum c 4 (ttlOf flags r fs) w) hG hm h1 ?_
  intro G' cur w hG hm h
  refine Post.bind (Post.mono (writeNum_spec hG hm h) (fun _ _ h => h) (fun _ _ h => h.more (by simp [WireCtx.length_beBytes]))) ?_
  intro cur1 w1 h1
  refine RawPost.append (f := fun c w => writeNum c 4 (ttlOf flags r fs) w) hG hm h1 ?_
  intro G' cur w hG hm h
  exact Post.mono (writeNum_spec hG hm h) (fun _ _ h => h) (fun _ _ h => h.more (by simp [WireCtx.length_beBytes]))

end Knot.Pkt
