import Verif.Pkt.Lemmas9
/-!
# Lemmas about the operations on packets
-/
namespace Knot.Pkt
open Knot
open Knot.Dname (Name NameAt Valid wire nameLen lowerName lowerByte LabelsOk)
open Knot.Rrwire (Block Field Rec NaptrAt parseDesc rdataDesc obsoleteDesc descIn descTable emptyAllowed encAll slice num RRAt RdAt HeadAt)
open Knot.WireCtx (beBytes beVal)

/-- A successful put. -/
structure Added (q : Option Question) (p : Pkt) (log : List Item) (r : RSet) (rotate flags : Nat) (p' : Pkt) : Prop where
  inv : Inv q p' (log ++ [⟨p.current, r, rotate, flags⟩])
  size : p.size ≤ p'.size ∧ p'.size + p.reserved ≤ p.maxSize
  grow : p.size + 11 * r.rdatas.length ≤ p'.size
  short : p'.size ≤ p.size + r.wireLen
  same : p'.reserved = p.reserved ∧ p'.maxSize = p.maxSize ∧ p'.current = p.current ∧ p'.wire.length = p.wire.length
  wire : ∀ i, (i < 6 ∨ 12 ≤ i) → (i < p.size ∨ p'.size ≤ i) → p'.wire[i]? = p.wire[i]?

/-- A put that failed. -/
structure Refused (q : Option Question) (p : Pkt) (log : List Item) (r : RSet) (flags : Nat) (p' : Pkt) : Prop where
  same : p'.size = p.size ∧ p'.reserved = p.reserved ∧ p'.maxSize = p.maxSize ∧ p'.current = p.current ∧ p'.entries = p.entries ∧
    p'.secCount = p.secCount ∧ p'.secPos = p.secPos ∧ p'.opt = p.opt ∧ p'.wire.length = p.wire.length
  wire : ∀ i, i ≠ 2 → (i < p.size ∨ p.size + remaining p ≤ i) → p'.wire[i]? = p.wire[i]?
  tc : p'.wire[2]? = if flags.testBit 2 then p.wire[2]? else p.wire[2]?.map (· ||| 2)
  inv : p'.suf < p'.size → Inv q p' log
  need : p.maxSize < p.size + p.reserved + r.wireLen

theorem ownOf_names {r : RSet} {i : Nat} {fs : List Field} (h : r.rdatas[i]? = some fs) : ownOf r (1 + i) = namesOf fs := by
  rw [Nat.add_comm]
  unfold ownOf
  simp [List.getD, h]

theorem setTc_spec {mem : Bytes} (h : 12 ≤ mem.length) :
    ∃ b, setTc mem = .ok b ∧ Fr 2 3 mem b ∧ b[2]? = mem[2]?.map (· ||| 2) := by
  unfold setTc
  rw [Rrwire.rd_eq (show 2 < mem.length by omega)]
  simp only [Res.bind_ok]
  obtain ⟨b, h1, h2, h3⟩ := store_spec (mem := mem) (pos := 2) (d := [mem[2] ||| 2]) (by simp; omega)
  refine ⟨b, h1, h2, ?_⟩
  have := h3 0 (by simp)
  simp only [Nat.add_zero, List.getElem?_cons_zero] at this
  rw [this, List.getElem?_eq_getElem (show 2 < mem.length by omega)]
  rfl

theorem contains_iff {p : Pkt} {r : RSet} {id : Nat} : contains p (r.enc id) = true ↔ Dup p r id := by
  simp [contains, Dup, RSet.enc, List.any_eq_true]

theorem putRotate_spec {q : Option Question} {p : Pkt} {log : List Item} {hint rotate flags id : Nat} {r : RSet} (hi : Inv q p log)
    (hp : PutOk q p log hint flags r) (hne : r.rdatas ≠ []) (hdup : flags.testBit 3 = false ∨ ¬ Dup p r id) :
    (∃ p', putRotate p hint (r.enc id) rotate flags = .ok (none, p') ∧ Added q p log r rotate flags p') ∨
    (∃ p', putRotate p hint (r.enc id) rotate flags = .ok (some .espace, p') ∧ Refused q p log r flags p') := by
  have hlo := hi.lo
  have hfit := hi.fit
  have hmax := hi.max
  have hbuf := hi.buf
  have hrem := remaining_eq hfit hmax
  obtain ⟨w, e1, e2, e3, e4⟩ := startW_spec (r := r) hi hp.hint
  have hspec := toWireExtra_spec (id := id) (rotate := rotate) (flags := flags) (cur := ⟨p.size, remaining p⟩) (w := w) hp.good hp.flags
    (own := ⟨ownOf r, Settled p.size, p.size⟩) (c := q.isSome) (G := Settled p.size) rfl
    (fun i fs h => by intro ls hl; show ls ∈ ownOf r (1 + i); rw [ownOf_names h]; exact hl)
    (fun i h => h) hlo (by show p.size + remaining p ≤ _; rw [e2, hrem]; omega) (by show p.size + remaining p ≤ _; rw [hrem]; omega) e4 (Nat.le_refl _)
  have hdup' : ¬ (flags.testBit 3 = true ∧ contains p (r.enc id) = true) := by
    rintro ⟨h1, h2⟩
    rcases hdup with h | h
    · rw [h] at h1; cases h1
    · exact h (contains_iff.mp h2)
  unfold putRotate
  rw [if_neg hdup', e1, bind_ok, e3]
  revert hspec
  cases hx : toWireExtra q.isSome (r.enc id) rotate flags ⟨p.size, remaining p⟩ w with
  | ub => intro h; exact h.elim
  | ok n w' =>
    rintro ⟨a1, ale, a2, a3, rs, a4, a5⟩
    left
    show ∃ p', putDone p hint (r.enc id) flags n w' = _ ∧ _
    have a1' : n ≤ remaining p := a1
    have a2' : Fr p.size (p.size + n) p.wire w'.buf := by rw [← e2]; exact a2
    have hcnt : (r.enc id).rrs.length = r.rdatas.length := by simp [RSet.enc]
    have hpos : (r.enc id).rrs.length > 0 := by rw [hcnt]; exact List.length_pos_iff.mpr hne
    -- the invariant for the message before the count is updated
    have hi1 := hi.wire a2'.1 (fun i _ h => a2'.2 i (.inl h))
    -- all records
    obtain ⟨rs0, b1, b2⟩ := hi1.recs
    have hall : RecsAt w'.buf (12 + (qBytes q).length) (rs0 ++ rs) (p.size + n) := b1.append a4 (by show p.size ≤ _; omega)
    have hEach : Each Same (allRecs (log ++ [⟨p.current, r, rotate, flags⟩])) (rs0 ++ rs) := by
      unfold allRecs
      rw [List.flatMap_append]
      refine Each.append b2 ?_
      simpa using a5
    have htot : countIn p.current (log ++ [⟨p.current, r, rotate, flags⟩]) < 65536 := by
      have h1 := countIn_le p.current (log ++ [⟨p.current, r, rotate, flags⟩])
      have h2 := hEach.length
      have h3 := hall.size
      omega
    rw [countIn_append] at htot
    simp only [if_true] at htot
    have hcur : num (Rrwire.slice w'.buf (6 + 2 * p.current) 2) = countIn p.current log := by
      obtain ⟨_, c2, c3, c4⟩ := hi1.counts
      have h3 := hi.sec
      have : p.current = 0 ∨ p.current = 1 ∨ p.current = 2 := by omega
      rcases this with h | h | h
      · rw [h]; exact c2
      · rw [h]; exact c3
      · rw [h]; exact c4
    obtain ⟨mem, m1, m2, m3⟩ := addCount_spec (mem := w'.buf) (sec := p.current) (n := r.rdatas.length) (by rw [a2'.1]; omega) hi.sec hcur htot
    have hs2 := hi.sec
    have hk : ∀ i, 12 ≤ i → mem[i]? = w'.buf[i]? := fun i h => m2.2 i (.inr (by omega))
    have hext : ∀ i, Ext (Settled p.size) p.size n i ↔ Settled (p.size + n) i := by
      intro i
      unfold Ext Settled
      constructor
      · rintro (h | h)
        · exact ⟨h.1, by omega⟩
        · exact ⟨by omega, h.2⟩
      · intro h
        by_cases h2 : i < p.size
        · exact .inl ⟨h.1, h2⟩
        · exact .inr ⟨by omega, h.2⟩
    have hfin : ∀ i, 12 ≤ i → (i < p.size ∨ p.size + n ≤ i) → mem[i]? = p.wire[i]? := by
      intro i h1 h2
      rw [hk i h1]
      exact a2'.2 i h2
    refine ⟨_, by unfold putDone; rw [if_pos hpos, hcnt, m1]; rfl, ?_⟩
    have hqle : 12 + (qBytes q).length ≤ p.size := by
      have := b1.size
      have h : ({ p with wire := w'.buf } : Pkt).size = p.size := rfl
      rw [h] at this; omega
    refine { inv := ?_, size := ⟨by show p.size ≤ p.size + n; omega, by show p.size + n + _ ≤ _; omega⟩, grow := ?_, short := by show p.size + n ≤ _; omega, same := ⟨rfl, rfl, rfl, by show mem.length = _; rw [m2.1, a2'.1]⟩, wire := ?_ }
    rotate_left
    · have h1 := a4.size
      have h2 := a5.length
      rw [recs_length] at h2
      show _ ≤ p.size + n
      rw [h2]; exact h1
    rotate_left
    · refine { lo := by show 12 ≤ p.size + n; omega, fit := by show p.size + n + p.reserved ≤ p.maxSize; omega, max := hi.max,
               buf := by show p.maxSize ≤ mem.length; rw [m2.1, a2'.1]; exact hbuf, sec := hi.sec, qn := ?_, qs := ?_, nosuf := fun h => a3.2.2.2.1 h, suf := ?_, len := ?_, hints := ?_,
               recs := ⟨rs0 ++ rs, hall.congr (fun i h _ => hk i h), hEach⟩, counts := ?_, order := ?_, sorted := ?_ }
      · have := hi.qn
        cases q with
        | none => exact this
        | some qn =>
          obtain ⟨h1, h2, h3, h4⟩ := this
          refine ⟨h1, h2, h3.congr (fun i x y => hfin i x (.inl (by rw [Dname.wire_length] at y; omega))), ?_⟩
          show _ ≤ p.size + n; omega
      · show Rrwire.slice mem _ _ = _
        rw [slice_congr (b := p.wire) (fun i x y => hfin i x (.inl (by omega)))]
        exact hi.qs
      · intro hs
        right
        have := (a3.2.1 hs).1
        exact this.congr (w' := ⟨mem, w'.suf, w'.sufLabels, fun _ => 0⟩) (fun i h => (hext i).mp h)
          (fun i h => hk i ((hext i).mp h).1) rfl rfl
      · show (log ++ [_]).length = (p.entries ++ [_]).length
        rw [List.length_append, List.length_append, hi.len]; rfl
      · intro j e it he hit
        have hset : ∀ i, Settled p.size i → mem[i]? = p.wire[i]? := fun i h => hfin i h.1 (.inl h.2)
        have he' : (p.entries ++ [⟨r.enc id, p.size, flags, w'.hints⟩])[j]? = some e := he
        by_cases hj : j < log.length
        · rw [List.getElem?_append_left hj] at hit
          rw [List.getElem?_append_left (by rw [← hi.len]; exact hj)] at he'
          refine (hi.hints j e it he' hit).congr (fun i h => ⟨h.1, ?_⟩) hset rfl
          show i < p.size + n
          have := h.2; omega
        · rw [List.getElem?_append_right (by omega)] at hit
          rw [List.getElem?_append_right (by rw [← hi.len]; omega), ← hi.len] at he'
          have hj0 : j - log.length = 0 := by
            have := (List.getElem?_eq_some_iff.mp hit).1
            rw [List.length_singleton] at this; omega
          rw [hj0] at hit he'
          simp only [List.getElem?_cons_zero, Option.some.injEq] at hit he'
          subst hit; subst he'
          exact a3.1.congr (w' := ⟨mem, 0, 0, w'.hints⟩) (fun i h => (hext i).mp h) (fun i h => hk i ((hext i).mp h).1) rfl
      · obtain ⟨c1, c2, c3, c4⟩ := hi1.counts
        have hother : ∀ s, s ≠ p.current → s ≤ 2 → num (Rrwire.slice mem (6 + 2 * s) 2) = num (Rrwire.slice w'.buf (6 + 2 * s) 2) := by
          intro s hs h2
          congr 1
          exact slice_congr (fun i x y => m2.2 i (by omega))
        have hcnts : ∀ s, s ≤ 2 → num (Rrwire.slice w'.buf (6 + 2 * s) 2) = countIn s log →
            num (Rrwire.slice mem (6 + 2 * s) 2) = countIn s (log ++ [⟨p.current, r, rotate, flags⟩]) := by
          intro s hs hc
          rw [countIn_append]
          by_cases h : s = p.current
          · subst h; simp only [if_true]; exact m3
          · rw [hother s h hs, hc, if_neg (fun h' => h h'.symm)]; rfl
        refine ⟨?_, hcnts 0 (by omega) c2, hcnts 1 (by omega) c3, hcnts 2 (by omega) c4⟩
        rw [← c1]
        show num (Rrwire.slice mem 4 2) = num (Rrwire.slice w'.buf 4 2)
        congr 1
        exact slice_congr (fun i x y => m2.2 i (by omega))
      · intro it hit
        rw [List.mem_append, List.mem_singleton] at hit
        rcases hit with h | rfl
        · exact hi.order it h
        · exact Nat.le_refl _
      · rw [List.pairwise_append]
        refine ⟨hi.sorted, by simp, ?_⟩
        intro a ha b hb
        rw [List.mem_singleton] at hb
        subst hb
        exact hi.order a ha
    · intro i h1 h2
      have h2' : i < p.size ∨ p.size + n ≤ i := h2
      show mem[i]? = _
      rw [m2.2 i (by omega)]
      exact a2'.2 i h2'
  | fail e w' =>
    rintro ⟨rfl, a2, a3, a4⟩
    right
    show ∃ p', putFailed p flags .espace w' = _ ∧ _
    have a2' : Fr p.size (p.size + remaining p) p.wire w'.buf := by rw [← e2]; exact a2
    have key : ∀ mem : Bytes, Fr 2 3 w'.buf mem → mem[2]? = (if flags.testBit 2 then p.wire[2]? else p.wire[2]?.map (· ||| 2)) →
        Refused q p log r flags { p with suf := w'.suf, sufLabels := w'.sufLabels, wire := mem } := by
      intro mem hf h2
      have hk : ∀ i, i ≠ 2 → (i < p.size ∨ p.size + remaining p ≤ i) → mem[i]? = p.wire[i]? := by
        intro i h h'
        rw [hf.2 i (by omega)]
        exact a2'.2 i h'
      refine ⟨⟨rfl, rfl, rfl, rfl, rfl, rfl, rfl, rfl, by show mem.length = _; rw [hf.1, a2'.1]⟩, hk, h2, ?_, by have : remaining p < r.wireLen := a4; omega⟩
      intro hs
      have := hi.wire (b := mem) (by rw [hf.1, a2'.1]) (fun i h h' => hk i (by omega) (.inl h'))
      refine { this with nosuf := fun h => a3.1 h, suf := ?_ }
      intro hq
      right
      have hb := (a3.2 hq).resolve_right (by show ¬ p.size ≤ w'.suf; have : w'.suf < p.size := hs; omega)
      have hb' := hb.congr (w' := ⟨mem, w'.suf, w'.sufLabels, fun _ => 0⟩) (G' := Settled p.size) (fun _ h => h) (fun i h => hf.2 i (by have : 12 ≤ i := h.1; omega)) rfl rfl
      exact hb'
    unfold putFailed
    by_cases ht : flags.testBit 2 = false
    · rw [if_pos ⟨rfl, ht⟩]
      obtain ⟨b, b1, b2, b3⟩ := setTc_spec (mem := w'.buf) (by rw [a2'.1]; omega)
      rw [b1]
      exact ⟨_, rfl, key b b2 (by rw [b3, ht, a2'.2 2 (.inl (by omega))]; rfl)⟩
    · rw [if_neg (by rintro ⟨_, h⟩; exact ht h)]
      have ht' : flags.testBit 2 = true := by cases h : flags.testBit 2 <;> simp_all
      exact ⟨_, rfl, key w'.buf (Fr.refl _ _ _) (by rw [ht', a2'.2 2 (.inl (by omega))]; rfl)⟩

end Knot.Pkt
