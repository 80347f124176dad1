import Verif.Pkt.Lemmas8
/-!
# Lemmas about packets
-/
namespace Knot.Pkt
open Knot
open Knot.Dname (Name NameAt Valid wire nameLen lowerName lowerByte LabelsOk)
open Knot.Rrwire (Block Field Rec NaptrAt parseDesc rdataDesc obsoleteDesc descIn descTable emptyAllowed encAll slice num RRAt RdAt HeadAt)
open Knot.WireCtx (beBytes beVal)

/-- The settled part of a message. -/
def Settled (size : Nat) (i : Nat) : Prop := 12 ≤ i ∧ i < size

/-- The question is in place. -/
def QInv (q : Option Question) (p : Pkt) : Prop :=
  match q with
  | none => p.qnameSize = 0
  | some qn => Valid qn.name ∧ p.qnameSize = nameLen qn.name ∧ BytesAt p.wire 12 (wire qn.name) ∧ 12 + nameLen qn.name ≤ p.size

structure Inv (q : Option Question) (p : Pkt) (log : List Item) : Prop where
  lo : 12 ≤ p.size
  fit : p.size + p.reserved ≤ p.maxSize
  max : p.maxSize ≤ 65535
  buf : p.maxSize ≤ p.wire.length
  sec : p.current ≤ 2
  qn : QInv q p
  qs : Rrwire.slice p.wire 12 (qBytes q).length = qBytes q
  nosuf : q.isSome = false → p.suf = 0
  suf : q.isSome = true → p.suf = 0 ∨ SufOk (Settled p.size) ⟨p.wire, p.suf, p.sufLabels, fun _ => 0⟩
  len : log.length = p.entries.length
  hints : ∀ (j : Nat) e it, p.entries[j]? = some e → log[j]? = some it → HintsOk (ownOf it.set) (Settled p.size) ⟨p.wire, 0, 0, e.hints⟩
  recs : ∃ rs, RecsAt p.wire (12 + (qBytes q).length) rs p.size ∧ Each Same (allRecs log) rs
  counts : Counts p.wire (if q.isSome then 1 else 0) (countIn 0 log) (countIn 1 log) (countIn 2 log)
  order : ∀ it ∈ log, it.sec ≤ p.current
  sorted : log.Pairwise (fun a b => a.sec ≤ b.sec)

theorem SufOk.hints {G : Nat → Prop} {w : W} (h : SufOk G w) {hs : Nat → Nat} : SufOk G ⟨w.buf, w.suf, w.sufLabels, hs⟩ := h

theorem RecG.size {buf : Bytes} {G : Nat → Prop} {pos r stop} (h : RecG buf G pos r stop) : pos + 11 ≤ stop := by
  obtain ⟨_, _, _, n, h4, _, _, _, k, _, _, _, _, k5, _⟩ := h
  have := h4.pos
  omega

theorem RecsAt.size {buf : Bytes} {pos rs stop} (h : RecsAt buf pos rs stop) : pos + 11 * rs.length ≤ stop := by
  induction h with
  | nil => simp
  | cons h1 _ _ ih =>
    obtain ⟨G, _, g⟩ := h1
    have := g.size
    rw [List.length_cons]
    omega

theorem RecsAt.append {buf : Bytes} {pos mid rs rs' stop} (h : RecsAt buf pos rs mid) (h' : RecsAt buf mid rs' stop) (hle : mid ≤ stop) :
    RecsAt buf pos (rs ++ rs') stop := by
  induction h with
  | nil => exact h'
  | cons h1 h2 _ ih => exact .cons h1 (by omega) (ih h' hle)

theorem Each.append {α β : Type} {R : α → β → Prop} {a b s t} (h : Each R a s) (h' : Each R b t) : Each R (a ++ b) (s ++ t) := by
  induction h with
  | nil => exact h'
  | cons h1 _ ih => exact .cons h1 ih

theorem Each.length {α β : Type} {R : α → β → Prop} {a s} (h : Each R a s) : a.length = s.length := by
  induction h with
  | nil => rfl
  | cons h1 _ ih => simp [ih]

theorem recs_length (r : RSet) (k f : Nat) : (r.recs k f).length = r.rdatas.length := by
  unfold RSet.recs
  rw [List.length_map, rotl_length]

theorem countIn_le (s : Nat) (log : List Item) : countIn s log ≤ (allRecs log).length := by
  unfold countIn allRecs
  induction log with
  | nil => simp
  | cons it log ih =>
    rw [List.flatMap_cons, List.length_append, recs_length, List.filter_cons]
    split
    · rw [List.map_cons, List.sum_cons]; omega
    · omega

theorem countIn_append (s : Nat) (log : List Item) (it : Item) :
    countIn s (log ++ [it]) = countIn s log + if it.sec = s then it.set.rdatas.length else 0 := by
  unfold countIn
  rw [List.filter_append, List.map_append, List.sum_append]
  congr 1
  by_cases h : it.sec = s
  · simp [h]
  · simp [h]

theorem slice_congr {b b' : Bytes} {pos k : Nat} (h : ∀ i, pos ≤ i → i < pos + k → b'[i]? = b[i]?) : Rrwire.slice b' pos k = Rrwire.slice b pos k := by
  unfold Rrwire.slice
  apply List.ext_getElem?
  intro i
  rw [List.getElem?_take, List.getElem?_take]
  split
  · rw [List.getElem?_drop, List.getElem?_drop]
    exact h _ (by omega) (by omega)
  · rfl

theorem bytes_of_slice {b d : Bytes} {pos : Nat} (h : Rrwire.slice b pos d.length = d) : BytesAt b pos d := BytesAt.of_slice h

/-- Writing a 16-bit number. -/
theorem set16_spec {mem : Bytes} {pos v : Nat} (h : pos + 2 ≤ mem.length) :
    ∃ b, set16 mem pos v = .ok b ∧ Fr pos (pos + 2) mem b ∧ BytesAt b pos (beBytes 2 v) := by
  have hl := WireCtx.length_beBytes 2 v
  obtain ⟨b, h1, h2, h3⟩ := store_spec (mem := mem) (pos := pos) (d := beBytes 2 v) (by rw [hl]; exact h)
  rw [hl] at h2
  exact ⟨b, h1, h2, h3⟩

theorem addCount_spec {mem : Bytes} {sec n v : Nat} (h : 12 ≤ mem.length) (hs : sec ≤ 2) (hv : num (Rrwire.slice mem (6 + 2 * sec) 2) = v)
    (hlt : v + n < 65536) :
    ∃ b, addCount mem sec n = .ok b ∧ Fr (6 + 2 * sec) (6 + 2 * sec + 2) mem b ∧ num (Rrwire.slice b (6 + 2 * sec) 2) = v + n := by
  unfold addCount get16
  rw [Rrwire.readBE_eq (by omega), hv]
  simp only [Res.bind_ok]
  obtain ⟨b, h1, h2, h3⟩ := set16_spec (mem := mem) (pos := 6 + 2 * sec) (v := v + n) (by omega)
  exact ⟨b, h1, h2, num_at h3 hlt⟩

/-- The state of the compression context when a set is put in the packet. -/
theorem startW_spec {q : Option Question} {p : Pkt} {log : List Item} {r : RSet} {hint : Nat} (hi : Inv q p log) (hh : HintOk q p log r.owner hint) :
    ∃ w, startW p hint = .ok () w ∧ w.buf = p.wire ∧ decide (p.qnameSize ≠ 0) = q.isSome ∧
      Ok q.isSome ⟨ownOf r, Settled p.size, p.size⟩ (Settled p.size) w := by
  have hq : decide (p.qnameSize ≠ 0) = q.isSome := by
    have := hi.qn
    cases q with
    | none => simpa [QInv] using this
    | some qn =>
      obtain ⟨_, h, _⟩ := this
      have := Dname.nameLen_pos qn.name
      rw [h]
      simp only [Option.isSome_some, decide_eq_true_eq]
      omega
  have hqok : q.isSome = true → ∀ {a b h}, QOk (Settled p.size) ⟨p.wire, a, b, h⟩ := by
    intro hs a b h
    have := hi.qn
    cases q with
    | none => cases hs
    | some qn =>
      obtain ⟨h1, h2, h3, h4⟩ := this
      exact ⟨qn.name, h1, h3, fun i x y => ⟨x, by omega⟩⟩
  have hhints : ∀ {a b}, HintsOk (ownOf r) (Settled p.size) ⟨p.wire, a, b, fun i => if i = 0 then hint else 0⟩ := by
    intro a b k
    by_cases hk : k = 0
    · subst hk
      simp only [if_true]
      rcases hh with h0 | h0 | ⟨h0, qn, hqn, hl⟩ | ⟨j, k, e, it, he, hit, hk, hn⟩
      · exact .inl h0
      · exact .inr (.inl (by simp [ownOf, h0]))
      · subst hqn
        have := hi.qn
        obtain ⟨h1, h2, h3, h4⟩ := this
        refine .inr (.inr ⟨by omega, qn.name, nameLen qn.name, r.owner, ?_, by simp [ownOf], hl⟩)
        rw [h0]
        exact At.of_wire h1.1 h3 (fun i x y => ⟨x, by omega⟩)
      · rcases hi.hints j e it he hit k with h0 | h0 | ⟨h1, ls, n, nm, h2, h3, h4⟩
        · left; rw [hk]; exact h0
        · have := hn [] (by rw [h0]; simp)
          have : r.owner = [] := by simpa [lowerName] using this.symm
          exact .inr (.inl (by simp [ownOf, this]))
        · refine .inr (.inr ⟨by rw [hk]; exact h1, ls, n, r.owner, by rw [hk]; exact h2, by simp [ownOf], ?_⟩)
          rw [h4]; exact hn nm h3
    · left; simp only [if_neg hk]
  unfold startW
  by_cases hz : p.qnameSize ≠ 0
  · have hs : q.isSome = true := by rw [← hq]; simpa using hz
    simp only [if_pos hz]
    by_cases h0 : p.suf = 0
    · rw [if_pos h0]
      have := resetSuffix_spec (c := true) (own := ⟨ownOf r, Settled p.size, p.size⟩) (G := Settled p.size)
        (w := ⟨p.wire, p.suf, p.sufLabels, fun i => if i = 0 then hint else 0⟩) hhints (fun _ => hqok hs) (fun _ h => h) (by simp)
      cases hx : resetSuffix true ⟨p.wire, p.suf, p.sufLabels, fun i => if i = 0 then hint else 0⟩ with
      | ok u w =>
        rw [hx] at this
        exact ⟨w, rfl, this.1, hq, by rw [hs]; exact this.2⟩
      | fail e w => rw [hx] at this; exact this.elim
      | ub => rw [hx] at this; exact this.elim
    · rw [if_neg h0]
      have hsuf := (hi.suf hs).resolve_left h0
      exact ⟨_, rfl, rfl, hq, hhints, fun _ => ⟨hsuf.hints, hqok hs⟩, fun _ h => h, fun h => (by rw [hs] at h; cases h), fun _ => .inl hsuf.hints⟩
  · simp only [if_neg hz]
    have hs : q.isSome = false := by rw [← hq]; simpa using hz
    refine ⟨_, rfl, rfl, hq, hhints, ?_, fun _ h => h, ?_⟩
    · rw [hs]; simp
    · exact ⟨fun _ => hi.nosuf hs, fun h => by rw [hs] at h; cases h⟩

theorem remaining_eq {p : Pkt} (h1 : p.size + p.reserved ≤ p.maxSize) (h2 : p.maxSize ≤ 65535) :
    remaining p = p.maxSize - p.size - p.reserved := by
  unfold remaining
  generalize p.size = s at *
  generalize p.reserved = r at *
  generalize p.maxSize = m at *
  omega

/-- Everything that depends on the message, when octets before 12 or after the end have changed. -/
theorem Inv.wire {q : Option Question} {p : Pkt} {log : List Item} (hi : Inv q p log) {b : Bytes} (hl : b.length = p.wire.length)
    (hb : ∀ i, 4 ≤ i → i < p.size → b[i]? = p.wire[i]?) : Inv q { p with wire := b } log := by
  have h12 := hi.lo
  have hset : ∀ i, Settled p.size i → b[i]? = p.wire[i]? := fun i h => hb i (by have := h.1; omega) h.2
  have hqle : 12 + (qBytes q).length ≤ p.size := by
    obtain ⟨rs, h1, _⟩ := hi.recs
    have := h1.size; omega
  refine { lo := hi.lo, fit := hi.fit, max := hi.max, buf := by rw [show ({ p with wire := b } : Pkt).wire.length = b.length from rfl, hl]; exact hi.buf, sec := hi.sec, qn := ?_, qs := ?_, nosuf := hi.nosuf, suf := ?_, len := hi.len, hints := ?_, recs := ?_, counts := ?_, order := hi.order, sorted := hi.sorted }
  · have := hi.qn
    cases q with
    | none => exact this
    | some qn =>
      obtain ⟨h1, h2, h3, h4⟩ := this
      exact ⟨h1, h2, h3.congr (fun i x y => hb i (by omega) (by rw [Dname.wire_length] at y; omega)), h4⟩
  · rw [← hi.qs]
    rw [hi.qs]
    show Rrwire.slice b _ _ = _
    rw [slice_congr (b := p.wire) (fun i x y => hb i (by omega) (by omega))]
    exact hi.qs
  · intro hs
    exact (hi.suf hs).imp (fun h => h) (fun h => h.congr (fun _ h => h) hset rfl rfl)
  · intro j e it h1 h2
    exact (hi.hints j e it h1 h2).congr (fun _ h => h) hset rfl
  · obtain ⟨rs, h1, h2⟩ := hi.recs
    exact ⟨rs, h1.congr (fun i x y => hb i (by omega) y), h2⟩
  · obtain ⟨c1, c2, c3, c4⟩ := hi.counts
    refine ⟨?_, ?_, ?_, ?_⟩
    · rw [← c1]; congr 1; exact slice_congr (fun i x y => hb i (by omega) (by omega))
    · rw [← c2]; congr 1; exact slice_congr (fun i x y => hb i (by omega) (by omega))
    · rw [← c3]; congr 1; exact slice_congr (fun i x y => hb i (by omega) (by omega))
    · rw [← c4]; congr 1; exact slice_congr (fun i x y => hb i (by omega) (by omega))

end Knot.Pkt
