import Verif.Pkt.Lemmas5
import Verif.Rrwire.Props
import Verif.WireCtx.Props
/-!
# Lemmas about writing records
-/
namespace Knot.Pkt
open Knot
open Knot.Dname (Name NameAt Valid wire nameLen lowerName lowerByte LabelsOk)
open Knot.Rrwire (Block Field Rec NaptrAt parseDesc rdataDesc descIn descTable emptyAllowed encAll slice num RRAt RdAt HeadAt)
open Knot.WireCtx (beBytes beVal)

/-- Failure further on in the buffer. -/
theorem SpaceErr.adv {c : Bool} {own : Env} {w w1 : W} {cur : Cur} {n need used : Nat} {e : Err} {w' : W} (hn : n ≤ cur.avail) (hu : n ≤ used)
    (hf : Fr cur.dst (cur.dst + cur.avail) w.buf w1.buf) (h : SpaceErr c own w1 (cur.adv n) need e w') : SpaceErr c own w cur (used + need) e w' := by
  refine ⟨h.1, hf.trans (h.2.1.mono (by show cur.dst ≤ cur.dst + n; omega) ?_), h.2.2.1, ?_⟩
  · show cur.dst + n + (cur.avail - n) ≤ _
    omega
  · have : cur.avail - n < need := h.2.2.2
    omega

theorem SpaceErr.more {c : Bool} {own : Env} {w : W} {cur : Cur} {need need' : Nat} {e : Err} {w' : W} (h : SpaceErr c own w cur need e w')
    (hle : need ≤ need') : SpaceErr c own w cur need' e w' :=
  ⟨h.1, h.2.1, h.2.2.1, Nat.lt_of_lt_of_le h.2.2.2 hle⟩

/-- RDATA have been written at `s.cur`. -/
def DataPost (c : Bool) (own : Env) (G : Nat → Prop) (s : Src) (w : W) (bs : List Block) (fs : List Field) (exact : Prop) (s' : Src) (w' : W) : Prop :=
  ∃ n, s' = ⟨[], s.cur.adv n⟩ ∧ n ≤ s.cur.avail ∧ n ≤ (encAll fs).length ∧ (0 < (encAll fs).length → 0 < n) ∧
    Fr s.cur.dst (s.cur.dst + n) w.buf w'.buf ∧ Ok c own (Ext G s.cur.dst n) w' ∧
    ∃ fs', RdG w'.buf (Ext G s.cur.dst n) bs s.cur.dst fs' (s.cur.dst + n) ∧ fs'.map Field.lower = fs.map Field.lower ∧ (exact → fs' = fs)

/-- The first piece and the rest. -/
theorem DataPost.cons {c : Bool} {own : Env} {G : Nat → Prop} {s : Src} {w : W} {b : Block} {bs : List Block} {f : Field} {fs : List Field}
    {x y : Prop} {P : Bytes → Nat → Prop} {s1 : Src} {w1 : W} (hs : s.src = f.enc ++ encAll fs) (h : PiecePost c own G s w f.enc.length P s1 w1)
    (hg : ∀ i, G i → i < s.cur.dst)
    (hpos : ∀ {b n}, P b n → 0 < f.enc.length → 0 < n)
    (hP : ∀ {buf n stop fs'}, P w1.buf n → (∀ i, Ext G s.cur.dst n i → buf[i]? = w1.buf[i]?) →
      RdG buf (Ext (Ext G s.cur.dst n) (s.cur.dst + n) (stop - (s.cur.dst + n))) bs (s.cur.dst + n) fs' stop →
      ∃ f', RdG buf (Ext (Ext G s.cur.dst n) (s.cur.dst + n) (stop - (s.cur.dst + n))) (b :: bs) s.cur.dst (f' :: fs') stop ∧ f'.lower = f.lower ∧ (x → f' = f))
    (hy : y → x)
    (hrest : ∀ n, (∀ i, Ext G s.cur.dst n i → i < s.cur.dst + n) → n ≤ s.cur.avail → Ok c own (Ext G s.cur.dst n) w1 → Fr s.cur.dst (s.cur.dst + n) w.buf w1.buf →
      (traverseWrite c hint bs ⟨encAll fs, s.cur.adv n⟩ w1).Post
        (DataPost c own (Ext G s.cur.dst n) ⟨encAll fs, s.cur.adv n⟩ w1 bs fs y) (SpaceErr c own w1 (s.cur.adv n) (encAll fs).length)) :
    (traverseWrite c hint bs s1 w1).Post (DataPost c own G s w (b :: bs) (f :: fs) y) (SpaceErr c own w s.cur (encAll (f :: fs)).length) := by
  obtain ⟨n, rfl, h1, h2, h3, h4, h5⟩ := h
  have hdrop : s.src.drop f.enc.length = encAll fs := by rw [hs, List.drop_left]
  rw [hdrop]
  have hlt : ∀ i, Ext G s.cur.dst n i → i < s.cur.dst + n := by
    rintro i (hi | hi)
    · have := hg i hi; omega
    · exact hi.2
  refine Post.mono (hrest n hlt h1 h4 h3) ?_ ?_
  · rintro s' w' ⟨m, rfl, a1, a2, a3, a4, a5, fs', a6, a7, a8⟩
    have e0 : ({ src := encAll fs, cur := s.cur.adv n } : Src).cur.dst = s.cur.dst + n := rfl
    have e1 : ({ src := encAll fs, cur := s.cur.adv n } : Src).cur.avail = s.cur.avail - n := rfl
    rw [e0] at a4 a5 a6
    rw [e1] at a1
    have hlen : (encAll (f :: fs)).length = f.enc.length + (encAll fs).length := by rw [Rrwire.encAll_cons, List.length_append]
    have hstop : s.cur.dst + n + m - (s.cur.dst + n) = m := by omega
    obtain ⟨f', b1, b2, b3⟩ := hP (buf := w'.buf) (stop := s.cur.dst + n + m) (fs' := fs') h5 (fun i hi => a4.2 i (.inl (hlt i hi))) (by rw [hstop]; exact a6)
    rw [hstop] at b1
    refine ⟨n + m, ?_, by omega, by omega, ?_, ?_, ?_, f' :: fs', ?_, ?_, ?_⟩
    · show (⟨[], (s.cur.adv n).adv m⟩ : Src) = _
      congr 1
      simp only [Cur.adv, Cur.mk.injEq]
      omega
    · intro hp
      rw [hlen] at hp
      by_cases hz : 0 < f.enc.length
      · have := hpos h5 hz; omega
      · have := a3 (by omega); omega
    · exact (h3.mono (Nat.le_refl _) (by omega)).trans (a4.mono (by omega) (by omega))
    · exact a5.congr (fun i hi => Ext_assoc.mp hi) (fun _ _ => rfl) rfl rfl rfl
    · rw [← Nat.add_assoc]
      exact b1.congr (fun i hi => Ext_assoc.mp hi) (fun _ _ => rfl)
    · simp only [List.map_cons, a7, b2]
    · intro hy'; rw [b3 (hy hy'), a8 hy']
  · intro e w' h
    rw [Rrwire.encAll_cons, List.length_append]
    exact h.adv h1 h2 (h3.mono (Nat.le_refl _) (by omega))

theorem traverseWrite_spec {c : Bool} {own : Env} {hint : Nat} {bs : List Block} {fs : List Field} (hf : Fits bs fs) :
    ∀ (G : Nat → Prop) (cur : Cur) (w : W), (∀ i, G i → i < cur.dst) → cur.dst + cur.avail ≤ w.buf.length → cur.dst + cur.avail ≤ 65535 →
    Ok c own G w → own.d0 ≤ cur.dst → (∀ ls ∈ namesOf fs, ls ∈ own.own hint) →
    (traverseWrite c hint bs ⟨encAll fs, cur⟩ w).Post (DataPost c own G ⟨encAll fs, cur⟩ w bs fs (Block.comprName ∉ bs)) (SpaceErr c own w cur (encAll fs).length) := by
  induction hf with
  | nil =>
    intro G cur w hG hm hd h h0 hn
    refine ⟨0, rfl, by omega, by simp [encAll], by simp [encAll], Fr.refl _ _ _, ?_, [], .done, rfl, fun _ => rfl⟩
    exact h.congr (fun i hi => .inl hi) (fun _ _ => rfl) rfl rfl rfl
  | @name b bs ls fs h1 h2 h3 ih =>
    intro G cur w hG hm hd h h0 hn
    unfold traverseWrite
    have hsrc : encAll (.name ls :: fs) = wire ls ++ encAll fs := Rrwire.encAll_cons _ _
    obtain ⟨pc, hpc, hpx, hblk⟩ : ∃ pc, (pc = true → c = true) ∧ (b ≠ .comprName → pc = false) ∧
        ∀ s w, writeBlock c hint b s w = writeName pc c hint s w := by
      cases b with
      | comprName => exact ⟨c, fun h => h, fun h => absurd rfl h, fun _ _ => rfl⟩
      | decomprName => exact ⟨false, by simp, fun _ => rfl, fun _ _ => rfl⟩
      | fixedName => exact ⟨false, by simp, fun _ => rfl, fun _ _ => rfl⟩
      | naptr => cases h1
      | remainder => cases h1
      | fixed => cases h1
    rw [hblk]
    have hmem : ls ∈ own.own hint := hn ls (by simp [namesOf])
    refine Post.bind (Post.mono (writeName_spec (s := ⟨encAll (.name ls :: fs), cur⟩) hpc hG hm hd h hsrc h2 h0 hmem) (fun _ _ h => h)
      (fun _ _ h => h.more (by rw [hsrc, List.length_append, Dname.wire_length]; omega))) ?_
    intro s1 w1 hp
    rw [← Dname.wire_length] at hp
    refine DataPost.cons (f := .name ls) (x := b ≠ .comprName) (y := Block.comprName ∉ b :: bs) hsrc hp hG ?_ ?_ ?_ ?_
    · rintro b n ⟨ls', a1, -⟩ _; exact a1.pos
    · rintro buf n stop fs' ⟨ls', a1, a2, a3⟩ hb hr
      refine ⟨.name ls', .name h1 (a1.congr (fun i hi => .inl hi) hb) (valid_of_lower a2 h2) hr, ?_, ?_⟩
      · simp only [Field.lower, a2]
      · intro hx; rw [a3 (hpx hx)]
    · intro hx he; exact hx (by rw [he]; simp)
    · intro n hlt hav hok hfr
      refine Post.mono (ih _ (cur.adv n) w1 hlt ?_ ?_ hok (by show own.d0 ≤ cur.dst + n; omega) (fun l hl => hn l (by simp [namesOf, hl]))) ?_ (fun _ _ h => h)
      · show cur.dst + n + (cur.avail - n) ≤ _; rw [hfr.1]; have : n ≤ cur.avail := hav; omega
      · show cur.dst + n + (cur.avail - n) ≤ _; have : n ≤ cur.avail := hav; omega
      · rintro s' w' ⟨m, a⟩
        refine ⟨m, a.1, a.2.1, a.2.2.1, a.2.2.2.1, a.2.2.2.2.1, a.2.2.2.2.2.1, ?_⟩
        obtain ⟨fs', b1, b2, b3⟩ := a.2.2.2.2.2.2
        exact ⟨fs', b1, b2, fun hx => b3 (fun hc => hx (List.mem_cons_of_mem _ hc))⟩
  | @naptr bs d fs h1 h2 ih =>
    intro G cur w hG hm hd h h0 hn
    unfold traverseWrite
    have hsrc : encAll (.raw d :: fs) = d ++ encAll fs := Rrwire.encAll_cons _ _
    refine Post.bind (Post.mono (writeNaptr_spec (s := ⟨encAll (.raw d :: fs), cur⟩) hG hm h hsrc h1) (fun _ _ h => h)
      (fun _ _ h => h.more (by rw [hsrc, List.length_append]; omega))) ?_
    intro s1 w1 hp
    refine DataPost.cons (f := .raw d) (x := True) (y := Block.comprName ∉ .naptr :: bs) hsrc hp hG ?_ ?_ (fun _ => trivial) ?_
    · rintro b n ⟨rfl, -⟩ h; exact h
    · rintro buf n stop fs' ⟨rfl, a1⟩ hb hr
      exact ⟨.raw d, .naptr h1 (a1.congr (fun i x y => hb i (.inr ⟨x, y⟩))) (fun i x y => .inl (.inr ⟨x, y⟩)) hr, rfl, fun _ => rfl⟩
    · intro n hlt hav hok hfr
      refine Post.mono (ih _ (cur.adv n) w1 hlt ?_ ?_ hok (by show own.d0 ≤ cur.dst + n; omega) (fun l hl => hn l (by simp [namesOf, hl]))) ?_ (fun _ _ h => h)
      · show cur.dst + n + (cur.avail - n) ≤ _; rw [hfr.1]; have : n ≤ cur.avail := hav; omega
      · show cur.dst + n + (cur.avail - n) ≤ _; have : n ≤ cur.avail := hav; omega
      · rintro s' w' ⟨m, a⟩
        refine ⟨m, a.1, a.2.1, a.2.2.1, a.2.2.2.1, a.2.2.2.2.1, a.2.2.2.2.2.1, ?_⟩
        obtain ⟨fs', b1, b2, b3⟩ := a.2.2.2.2.2.2
        exact ⟨fs', b1, b2, fun hx => b3 (fun hc => hx (List.mem_cons_of_mem _ hc))⟩
  | @fixed k bs d fs h1 h2 ih =>
    intro G cur w hG hm hd h h0 hn
    subst h1
    unfold traverseWrite
    have hsrc : encAll (.raw d :: fs) = d ++ encAll fs := Rrwire.encAll_cons _ _
    refine Post.bind (Post.mono (writeFixed_spec (s := ⟨encAll (.raw d :: fs), cur⟩) hG hm h hsrc) (fun _ _ h => h)
      (fun _ _ h => h.more (by rw [hsrc, List.length_append]; omega))) ?_
    intro s1 w1 hp
    refine DataPost.cons (f := .raw d) (x := True) (y := Block.comprName ∉ .fixed d.length :: bs) hsrc hp hG ?_ ?_ (fun _ => trivial) ?_
    · rintro b n ⟨rfl, -⟩ h; exact h
    · rintro buf n stop fs' ⟨rfl, a1⟩ hb hr
      exact ⟨.raw d, .fixed (a1.congr (fun i x y => hb i (.inr ⟨x, y⟩))) (fun i x y => .inl (.inr ⟨x, y⟩)) hr, rfl, fun _ => rfl⟩
    · intro n hlt hav hok hfr
      refine Post.mono (ih _ (cur.adv n) w1 hlt ?_ ?_ hok (by show own.d0 ≤ cur.dst + n; omega) (fun l hl => hn l (by simp [namesOf, hl]))) ?_ (fun _ _ h => h)
      · show cur.dst + n + (cur.avail - n) ≤ _; rw [hfr.1]; have : n ≤ cur.avail := hav; omega
      · show cur.dst + n + (cur.avail - n) ≤ _; have : n ≤ cur.avail := hav; omega
      · rintro s' w' ⟨m, a⟩
        refine ⟨m, a.1, a.2.1, a.2.2.1, a.2.2.2.1, a.2.2.2.2.1, a.2.2.2.2.2.1, ?_⟩
        obtain ⟨fs', b1, b2, b3⟩ := a.2.2.2.2.2.2
        exact ⟨fs', b1, b2, fun hx => b3 (fun hc => hx (List.mem_cons_of_mem _ hc))⟩
  | @remainder d =>
    intro G cur w hG hm hd h h0 hn
    unfold traverseWrite
    have hsrc : encAll [.raw d] = d := by simp [encAll, Field.enc]
    rw [hsrc]
    refine Post.bind (writeFixed_spec (s := ⟨d, cur⟩) (t := []) hG hm h (by simp)) ?_
    rintro s1 w1 ⟨n, rfl, a1, a2, a3, a4, rfl, a5⟩
    unfold traverseWrite
    refine ⟨d.length, by simp, a1, by rw [hsrc]; exact a2, by rw [hsrc]; exact fun h => h, a3, a4, [.raw d], ?_, rfl, fun _ => rfl⟩
    exact .remainder a5 (fun i x y => .inr ⟨x, y⟩)

end Knot.Pkt
