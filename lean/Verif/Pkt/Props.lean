import Verif.Pkt.Lemmas11
import Verif.Rrwire.Props
/-!
# C06, C07: writing of messages
-/
namespace Knot
open Pkt
open Knot.Dname (Name Valid wire lowerName)
open Knot.Rrwire (Rec num slice RRAt)

/-! ## C06 -/

/-- C06: whatever has been put in a message can be read from it. The octets after the header are the
question, and then one after the other up to the end of the message exactly the records put, in that
order, with every name equal to the one put up to letter case. A name reads as `NameAt`, which has every
pointer lead to a place before it. -/
theorem C06_decode {q : Option Question} {p : Pkt} {log : List Item} (h : Built q p log) :
    slice p.wire 12 (qBytes q).length = qBytes q ∧
    ∃ rs, RRsAt p.wire p.size (12 + (qBytes q).length) rs p.size ∧ Each Same (allRecs log) rs := by
  have hi := h.inv
  obtain ⟨rs, h1, h2⟩ := hi.recs
  exact ⟨hi.qs, rs, h1.rrsAt (Nat.le_refl _), h2⟩

/-- The records `rs` are what the parser of records returns one after the other, from `pos` to `stop`. -/
inductive Parsed (mem : List UInt8) (size : Nat) : Nat → List Rec → Nat → Prop
  | nil {pos} : Parsed mem size pos [] pos
  | cons {pos r mid rs stop} : Rrwire.fromWire mem pos size false = .ok (some ⟨wire r.owner, r.type, r.rclass, r.ttl, Rrwire.encAll r.rdata⟩, mid) →
      Parsed mem size mid rs stop → Parsed mem size pos (r :: rs) stop

theorem recsAt_parsed {mem : Bytes} {size pos : Nat} {rs stop} (h : RecsAt mem pos rs stop) (he : stop ≤ size) (hs : size ≤ mem.length) :
    Parsed mem size pos rs stop := by
  induction h with
  | nil => exact .nil
  | cons h1 h2 _ ih =>
    obtain ⟨G, g1, g2⟩ := h1
    refine .cons ?_ (ih he)
    obtain ⟨_, _, _, n, h4, _, _, _, k, ⟨hk1, hk2⟩, hk, _, _, k5, _⟩ := id g2
    have := g2.size
    refine C38_parse_complete _ _ _ _ _ hs (by omega) (g2.rrAt (fun i hi => (g1 i hi).2) (by omega)) hk2 ?_
    rintro k' p' ⟨n', a1, _, a2, _, _, _, a3, _⟩
    have := (a1.unique (h4.nameAt (fun i hi => Nat.lt_of_lt_of_le (g1 i hi).2 (by omega)))).2
    subst this
    have hk' := num_at hk (by omega)
    rw [a3, hk']
    exact hk1

/-- C06: the program's own parser reads from the message the records put in it. -/
theorem C06_parse {q : Option Question} {p : Pkt} {log : List Item} (h : Built q p log) :
    ∃ rs, Parsed p.wire p.size (12 + (qBytes q).length) rs p.size ∧ Each Same (allRecs log) rs := by
  obtain ⟨rs, h1, h2⟩ := h.inv.recs
  exact ⟨rs, recsAt_parsed h1 (Nat.le_refl _) (Nat.le_trans (by have := h.inv.fit; omega) h.inv.buf), h2⟩

/-- C06: a put never touches the message written so far, apart from the counts of records, and TC if it
fails. What was read there, the records `rs` with all their names, is read there after it. -/
theorem C06_earlier_kept {q : Option Question} {p : Pkt} {log : List Item} {r : RSet} {id hint rotate flags : Nat} {e : Option Err} {p' : Pkt}
    (h : Built q p log) (hp : PutOk q p log hint flags r) (hx : putRotate p hint (r.enc id) rotate flags = .ok (e, p')) :
    (∀ i, 12 ≤ i → i < p.size → p'.wire[i]? = p.wire[i]?) ∧ p.size ≤ p'.size ∧
    ∃ rs, RRsAt p.wire p.size (12 + (qBytes q).length) rs p.size ∧ RRsAt p'.wire p.size (12 + (qBytes q).length) rs p.size ∧
      Each Same (allRecs log) rs := by
  have key : (∀ i, 12 ≤ i → i < p.size → p'.wire[i]? = p.wire[i]?) ∧ p.size ≤ p'.size := by
    have hlo := h.inv.lo
    by_cases hn : r.rdatas = [] ∨ (flags.testBit 3 = true ∧ Dup p r id)
    · obtain ⟨p1, c1, c2, c3, c4, _⟩ := putNothing_spec (rotate := rotate) h.inv hp hn
      rw [c1] at hx
      cases hx
      exact ⟨fun i _ _ => by rw [c3], Nat.le_of_eq c4.symm⟩
    · have hd : flags.testBit 3 = false ∨ ¬ Dup p r id := by
        cases h1 : flags.testBit 3 <;> by_cases h2 : Dup p r id <;> simp_all
      rcases putRotate_spec (rotate := rotate) h.inv hp (fun h => hn (.inl h)) hd with ⟨p1, c1, c2⟩ | ⟨p1, c1, c2⟩
      · rw [c1] at hx; cases hx
        exact ⟨fun i h1 h2 => c2.wire i (.inr h1) (.inl h2), c2.size.1⟩
      · rw [c1] at hx; cases hx
        exact ⟨fun i h1 h2 => c2.wire i (by omega) (.inl h2), Nat.le_of_eq c2.same.1.symm⟩
  obtain ⟨rs, h1, h2⟩ := h.inv.recs
  exact ⟨key.1, key.2, rs, h1.rrsAt (Nat.le_refl _), (h1.congr key.1).rrsAt (Nat.le_refl _), h2⟩

/-- C06: writing of a set never leaves the buffers nor fails an assertion, and the only error is lack of
space. -/
theorem C06_put_safe {q : Option Question} {p : Pkt} {log : List Item} {r : RSet} {id hint rotate flags : Nat}
    (h : Built q p log) (hp : PutOk q p log hint flags r) :
    ∃ e p', putRotate p hint (r.enc id) rotate flags = .ok (e, p') ∧ (e = none ∨ e = some .espace) := by
  by_cases hn : r.rdatas = [] ∨ (flags.testBit 3 = true ∧ Dup p r id)
  · obtain ⟨p1, c1, _⟩ := putNothing_spec (rotate := rotate) h.inv hp hn
    exact ⟨_, p1, c1, .inl rfl⟩
  · have hd : flags.testBit 3 = false ∨ ¬ Dup p r id := by
      cases h1 : flags.testBit 3 <;> by_cases h2 : Dup p r id <;> simp_all
    rcases putRotate_spec (rotate := rotate) h.inv hp (fun h => hn (.inl h)) hd with ⟨p1, c1, c2⟩ | ⟨p1, c1, c2⟩
    · exact ⟨_, p1, c1, .inl rfl⟩
    · exact ⟨_, p1, c1, .inr rfl⟩

/-! ## C07 -/

/-- C07: the message and the reserved space together never exceed the limit, and the limit not the
buffer. -/
theorem C07_limit {q : Option Question} {p : Pkt} {log : List Item} (h : Built q p log) :
    12 ≤ p.size ∧ p.size + p.reserved ≤ p.maxSize ∧ p.maxSize ≤ p.wire.length ∧ p.maxSize ≤ 65535 :=
  ⟨h.inv.lo, h.inv.fit, h.inv.buf, h.inv.max⟩

/-- C07: the counts in the header are the numbers of records put in each section, and the sections follow
each other. -/
theorem C07_counts {q : Option Question} {p : Pkt} {log : List Item} (h : Built q p log) :
    Counts p.wire (if q.isSome then 1 else 0) (countIn 0 log) (countIn 1 log) (countIn 2 log) ∧
    log.Pairwise (fun a b => a.sec ≤ b.sec) ∧ (∀ it ∈ log, it.sec ≤ 2) ∧ p.entries.length = log.length :=
  ⟨h.inv.counts, h.inv.sorted, fun it hi => Nat.le_trans (h.inv.order it hi) h.inv.sec, h.inv.len.symm⟩

/-- C07: a put that succeeds adds the set to the current section, leaves the id, the flags (in particular
TC) and QDCOUNT, takes no more space than without compression, and stays within the limit beside the reserved space. -/
theorem C07_put_ok {q : Option Question} {p : Pkt} {log : List Item} {r : RSet} {id hint rotate flags : Nat} {p' : Pkt}
    (h : Built q p log) (hp : PutOk q p log hint flags r) (hne : r.rdatas ≠ [])
    (hd : flags.testBit 3 = false ∨ ¬ Dup p r id)
    (hx : putRotate p hint (r.enc id) rotate flags = .ok (none, p')) :
    Built q p' (log ++ [⟨p.current, r, rotate, flags⟩]) ∧ p.size < p'.size ∧ p'.size ≤ p.size + r.wireLen ∧ p'.size + p'.reserved ≤ p'.maxSize ∧
    p'.reserved = p.reserved ∧ p'.maxSize = p.maxSize ∧ p'.current = p.current ∧
    ∀ i, i < 6 → p'.wire[i]? = p.wire[i]? := by
  have hb := Built.put h hp hne hd hx
  have hlo := h.inv.lo
  rcases putRotate_spec (rotate := rotate) h.inv hp hne hd with ⟨p1, c1, c2⟩ | ⟨p1, c1, c2⟩
  · rw [c1] at hx; cases hx
    obtain ⟨s1, s2, s3, s4⟩ := c2.same
    refine ⟨hb, ?_, c2.short, hb.inv.fit, s1, s2, s3, fun i hi => c2.wire i (.inl hi) (.inl (by omega))⟩
    have h1 := c2.grow
    have h2 := List.length_pos_iff.mpr hne
    omega
  · rw [c1] at hx; cases hx

/-- C07: a put that fails does so for lack of space: the set without compression does not fit in the space
left by the message and the reservation. It leaves the size, the records and their counts, the
reservation, the section and the message as they are, but for TC, which is set unless the caller asked
for no truncation (flag 2). -/
theorem C07_put_failed {q : Option Question} {p : Pkt} {log : List Item} {r : RSet} {id hint rotate flags : Nat} {e : Err} {p' : Pkt}
    (h : Built q p log) (hp : PutOk q p log hint flags r) (hx : putRotate p hint (r.enc id) rotate flags = .ok (some e, p')) :
    e = .espace ∧ p.maxSize < p.size + p.reserved + r.wireLen ∧
    p'.size = p.size ∧ p'.reserved = p.reserved ∧ p'.maxSize = p.maxSize ∧ p'.current = p.current ∧ p'.entries = p.entries ∧
    p'.secCount = p.secCount ∧ p'.secPos = p.secPos ∧ p'.opt = p.opt ∧
    (∀ i, i ≠ 2 → i < p.size ∨ p.maxSize - p.reserved ≤ i → p'.wire[i]? = p.wire[i]?) ∧
    p'.wire[2]? = (if flags.testBit 2 then p.wire[2]? else p.wire[2]?.map (· ||| 2)) ∧
    Counts p'.wire (if q.isSome then 1 else 0) (countIn 0 log) (countIn 1 log) (countIn 2 log) := by
  by_cases hn : r.rdatas = [] ∨ (flags.testBit 3 = true ∧ Dup p r id)
  · obtain ⟨p1, c1, _⟩ := putNothing_spec (rotate := rotate) h.inv hp hn
    rw [c1] at hx; cases hx
  · have hd : flags.testBit 3 = false ∨ ¬ Dup p r id := by
      cases h1 : flags.testBit 3 <;> by_cases h2 : Dup p r id <;> simp_all
    rcases putRotate_spec (rotate := rotate) h.inv hp (fun h => hn (.inl h)) hd with ⟨p1, c1, c2⟩ | ⟨p1, c1, c2⟩
    · rw [c1] at hx; cases hx
    · rw [c1] at hx; cases hx
      obtain ⟨s1, s2, s3, s4, s5, s6, s7, s8, _⟩ := c2.same
      have hlo := h.inv.lo
      have hfit := h.inv.fit
      have hrem := remaining_eq h.inv.fit h.inv.max
      refine ⟨rfl, c2.need, s1, s2, s3, s4, s5, s6, s7, s8, fun i h1 h2 => c2.wire i h1 (by omega), c2.tc, ?_⟩
      obtain ⟨k1, k2, k3, k4⟩ := h.inv.counts
      have hc : ∀ pos, 4 ≤ pos → pos + 2 ≤ 12 → num (slice p'.wire pos 2) = num (slice p.wire pos 2) := by
        intro pos h1 h2
        congr 1
        exact slice_congr (fun i x y => c2.wire i (by omega) (.inl (by omega)))
      exact ⟨by rw [hc 4 (by omega) (by omega)]; exact k1, by rw [hc 6 (by omega) (by omega)]; exact k2,
        by rw [hc 8 (by omega) (by omega)]; exact k3, by rw [hc 10 (by omega) (by omega)]; exact k4⟩

/-- C07: a set for which there is room even without compression is put in the message. -/
theorem C07_put_fits {q : Option Question} {p : Pkt} {log : List Item} {r : RSet} {id hint rotate flags : Nat}
    (h : Built q p log) (hp : PutOk q p log hint flags r) (hne : r.rdatas ≠ [])
    (hd : flags.testBit 3 = false ∨ ¬ Dup p r id)
    (hroom : p.size + p.reserved + r.wireLen ≤ p.maxSize) :
    ∃ p', putRotate p hint (r.enc id) rotate flags = .ok (none, p') ∧ Built q p' (log ++ [⟨p.current, r, rotate, flags⟩]) := by
  rcases putRotate_spec (rotate := rotate) h.inv hp hne hd with ⟨p1, c1, c2⟩ | ⟨p1, c1, c2⟩
  · exact ⟨p1, c1, .put h hp hne hd c1⟩
  · have := c2.need
    omega

/-- C07: a reservation is granted exactly when the space for it is left, and a reclaim exactly when so
much is reserved; otherwise nothing changes. -/
theorem C07_reserve {q : Option Question} {p : Pkt} {log : List Item} (h : Built q p log) (n : Nat) :
    reserve p n = (if p.size + p.reserved + n ≤ p.maxSize then (none, { p with reserved := p.reserved + n }) else (some .erange, p)) ∧
    reclaim p n = (if n ≤ p.reserved then (none, { p with reserved := p.reserved - n }) else (some .erange, p)) := by
  have h1 := h.inv.fit
  have h2 := h.inv.max
  constructor
  · unfold reserve
    rw [remaining_eq h1 h2]
    by_cases hc : p.size + p.reserved + n ≤ p.maxSize
    · rw [if_pos hc, if_pos (by omega), Nat.mod_eq_of_lt (by omega)]
    · rw [if_neg hc, if_neg (by omega)]
  · rfl

/-- C07: sections are begun in order only. -/
theorem C07_begin (p : Pkt) (sec : Nat) :
    (sec < p.current → Pkt.begin p sec = (some .einval, p)) ∧
    (p.current ≤ sec → (Pkt.begin p sec).1 = none ∧ (Pkt.begin p sec).2.current = sec ∧ (Pkt.begin p sec).2.size = p.size ∧
      (Pkt.begin p sec).2.wire = p.wire ∧ (Pkt.begin p sec).2.entries = p.entries) := by
  unfold Pkt.begin
  constructor
  · intro h; rw [if_pos h]
  · intro h; rw [if_neg (by omega)]; exact ⟨rfl, rfl, rfl, rfl, rfl⟩

/-- C07: the question is put in an empty message exactly when it fits in the limit. -/
theorem C07_question {p : Pkt} {qn : Question} (h : Built none p []) (hc : p.current = 0) (hv : Valid qn.name) :
    (p.maxSize < 12 + qn.enc.length ∧ ∃ p', putQuestion p (wire qn.name) qn.rclass qn.type = .ok (some .espace, p') ∧ Built none p' [] ∧
      p'.size = p.size ∧ p'.reserved = p.reserved) ∨
    (12 + qn.enc.length ≤ p.maxSize ∧ ∃ p', putQuestion p (wire qn.name) qn.rclass qn.type = .ok (none, p') ∧
      (12 + qn.enc.length + p.reserved ≤ p.maxSize → Built (some qn) p' []) ∧
      p'.size = 12 + qn.enc.length ∧ p'.reserved = p.reserved ∧ p'.maxSize = p.maxSize ∧ p'.current = 0) := by
  rcases putQuestion_spec h.inv hc hv with ⟨h1, p', h2, _, h3⟩ | ⟨h1, p', h2, _, h3, h4, h5, _, h6⟩
  · exact .inl ⟨h1, p', h2, .noQuestion h hc hv h2, by rw [h3], by rw [h3]⟩
  · exact .inr ⟨h1, p', h2, fun hr => .question h hc hv hr h2, h3, h4, h5, h6⟩

/-! ## A message satisfying the hypotheses -/

/-- a. IN A? -/
def exQ : Question := ⟨[[97]], 1, 1⟩

/-- a. MX 10 b.a. -/
def exMx : RSet := ⟨[[97]], 15, 1, 3600, [[.raw [0, 10], .name [[98], [97]]]]⟩

/-- b.a. A 192.0.2.1 and 192.0.2.2 -/
def exA : RSet := ⟨[[98], [97]], 1, 1, 3600, [[.raw [192, 0, 2, 1]], [.raw [192, 0, 2, 2]]]⟩

theorem exMx_good : exMx.Good :=
  ⟨⟨by decide, by decide⟩, by decide, by decide, by decide, fun fs hf => .inr (by
    have : fs = [.raw [0, 10], .name [[98], [97]]] := by simpa [exMx] using hf
    subst this
    exact ⟨.fixed rfl (.name rfl ⟨by decide, by decide⟩ .nil), by decide, by decide⟩)⟩

theorem exA_good : exA.Good :=
  ⟨⟨by decide, by decide⟩, by decide, by decide, by decide, fun fs hf => .inr (by
    have : fs = [.raw [192, 0, 2, 1]] ∨ fs = [.raw [192, 0, 2, 2]] := by simpa [exA] using hf
    rcases this with rfl | rfl
    · exact ⟨.fixed rfl .nil, by decide, by decide⟩
    · exact ⟨.fixed rfl .nil, by decide, by decide⟩)⟩

theorem exBuilt : ∃ p, Built (some exQ) p [⟨0, exMx, 0, 0⟩, ⟨2, exA, 1, 0⟩] := by
  obtain ⟨p0, h0, s0, m0, r0, c0⟩ : ∃ p0, Pkt.new 512 [] = some p0 ∧ p0.size = 12 ∧ p0.maxSize = 512 ∧ p0.reserved = 0 ∧ p0.current = 0 :=
    ⟨_, rfl, rfl, rfl, rfl, rfl⟩
  have b0 := Built.new (by decide) h0
  rcases C07_question (qn := exQ) b0 c0 ⟨by decide, by decide⟩ with ⟨h, _⟩ | ⟨_, p1, e1, e2, e3, e4, e5, c1⟩
  · rw [m0] at h; exact absurd h (by decide)
  · have b1 := e2 (by rw [r0, m0]; decide)
    rw [show exQ.enc.length = 7 from rfl] at e3
    have w1 : exMx.wireLen = 20 := rfl
    have ok1 : PutOk (some exQ) p1 [] 12 0 exMx := ⟨exMx_good, fun fs _ h => by simp at h, .inr (.inr (.inl ⟨rfl, exQ, rfl, rfl⟩))⟩
    obtain ⟨p2, f1, f2⟩ := C07_put_fits (id := 1) (rotate := 0) b1 ok1 (by simp [exMx]) (.inl rfl) (by omega)
    obtain ⟨_, _, g3, _, g4, g5, g6, _⟩ := C07_put_ok b1 ok1 (by simp [exMx]) (.inl rfl) f1
    rw [c1] at f2
    have b3 := Built.begin 2 f2 (by decide)
    have k := (C07_begin p2 2).2 (by omega)
    have k1 : (Pkt.begin p2 2).2.reserved = p2.reserved ∧ (Pkt.begin p2 2).2.maxSize = p2.maxSize := by
      unfold Pkt.begin; rw [if_neg (by omega)]; exact ⟨rfl, rfl⟩
    have w2 : exA.wireLen = 38 := rfl
    obtain ⟨p4, f3, f4⟩ := C07_put_fits (id := 2) (hint := 0) (flags := 0) (rotate := 1) b3 ⟨exA_good, fun fs _ h => by simp at h, .inl rfl⟩
      (by simp [exA]) (.inl rfl) (by omega)
    rw [k.2.1] at f4
    exact ⟨p4, f4⟩

/-! ## Outside the contract -/

/-- Result codes: success, failure for lack of space, or undefined behaviour (including a failed
assertion). -/
def code : Res PRes → Nat
  | .ok (none, _) => 0
  | .ok (some .espace, _) => 1
  | .ub => 2
  | _ => 3

/-- b.c. TXT, 20 octets -/
def exLong : RSet := ⟨[[98], [99]], 16, 1, 5, [[.raw (List.replicate 20 7)]]⟩

/-- b.c. A 1.2.3.4 -/
def exShort : RSet := ⟨[[98], [99]], 1, 1, 5, [[.raw [1, 2, 3, 4]]]⟩

/-- a. A 1.2.3.4 -/
def exSame : RSet := ⟨[[97]], 1, 1, 5, [[.raw [1, 2, 3, 4]]]⟩

theorem exLong_good : exLong.Good :=
  ⟨⟨by decide, by decide⟩, by decide, by decide, by decide, fun fs hf => .inr (by
    have : fs = [.raw (List.replicate 20 7)] := by simpa [exLong] using hf
    subst this
    exact ⟨.remainder, by decide, by decide⟩)⟩

theorem exShort_good : exShort.Good :=
  ⟨⟨by decide, by decide⟩, by decide, by decide, by decide, fun fs hf => .inr (by
    have : fs = [.raw [1, 2, 3, 4]] := by simpa [exShort] using hf
    subst this
    exact ⟨.fixed rfl .nil, by decide, by decide⟩)⟩

theorem exSame_good : exSame.Good :=
  ⟨⟨by decide, by decide⟩, by decide, by decide, by decide, fun fs hf => .inr (by
    have : fs = [.raw [1, 2, 3, 4]] := by simpa [exSame] using hf
    subst this
    exact ⟨.fixed rfl .nil, by decide, by decide⟩)⟩

/-- The packet an operation leaves. -/
def after (p : Pkt) (r : Res PRes) : Pkt :=
  match r with
  | .ok (_, p') => p'
  | _ => p

theorem code_zero {p : Pkt} {r : Res PRes} (h : code r = 0) : r = .ok (none, after p r) := by
  unfold code at h
  split at h <;> first | rfl | (exfalso; omega)

theorem code_one {p : Pkt} {r : Res PRes} (h : code r = 1) : r = .ok (some .espace, after p r) := by
  unfold code at h
  split at h <;> first | rfl | (exfalso; omega)

theorem code_two {r : Res PRes} (h : code r = 2) : r = .ub := by
  unfold code at h
  split at h <;> first | rfl | (exfalso; omega)

/-- A packet of 40 octets. -/
def ex0 : Pkt := ⟨List.replicate 40 0, 12, 40, 0, 0, [], none, 0, fun _ => 0, fun _ => 0, 0, 0, [0]⟩

theorem ex0_new : Pkt.new 40 [] = some ex0 := rfl

/-- The same with the question a. IN A. -/
def ex1 : Pkt := after ex0 (putQuestion ex0 (wire exQ.name) exQ.rclass exQ.type)

theorem ex1_built : Built (some exQ) ex1 [] :=
  .question (.new (by decide) ex0_new) rfl ⟨by decide, by decide⟩ (by decide) (code_zero (by decide +kernel))

/-- Not so in general: a put that fails after it has written the owner leaves this as the suffix to
compress against. A set with the same owner, for which there is room, is then written with a pointer
to itself (with assertions compiled in: the program aborts). -/
theorem C06_stale_suffix : ∃ q p p', Built q p [] ∧ PutOk q p [] 0 4 exLong ∧
    putRotate p 0 (exLong.enc 0) 0 4 = .ok (some .espace, p') ∧
    exShort.Good ∧ p'.size + p'.reserved + exShort.wireLen ≤ p'.maxSize ∧
    putRotate p' 0 (exShort.enc 1) 0 0 = .ub := by
  refine ⟨_, ex1, after ex1 (putRotate ex1 0 (exLong.enc 0) 0 4), ex1_built, ⟨exLong_good, fun fs _ h => absurd h (by decide), .inl rfl⟩,
    code_one (by decide +kernel), exShort_good, by decide +kernel, code_two (by decide +kernel)⟩

/-- Not so for the hint `KNOT_COMPR_HINT_NOCOMP` (1), which is meant to prevent compression, with an owner
other than the root: it is taken for the position of the owner in the message. -/
theorem C06_nocomp : ∃ q p p', Built q p [] ∧ exSame.Good ∧ putRotate p 1 (exSame.enc 0) 0 0 = .ok (none, p') ∧
    ¬ ∃ rs, RRsAt p'.wire p'.size (12 + (qBytes q).length) rs p'.size ∧ Each Same (exSame.recs 0 0) rs := by
  refine ⟨_, ex1, after ex1 (putRotate ex1 1 (exSame.enc 0) 0 0), ex1_built, exSame_good, code_zero (by decide +kernel), ?_⟩
  rintro ⟨rs, h1, h2⟩
  have hw : (after ex1 (putRotate ex1 1 (exSame.enc 0) 0 0)).wire = [0, 0, 0, 0, 0, 1, 0, 1, 0, 0, 0, 0, 1, 97, 0, 0, 1, 0, 1,
      192, 1, 0, 1, 0, 1, 0, 0, 0, 5, 0, 4, 1, 2, 3, 4, 0, 0, 0, 0, 0] := by decide +kernel
  have hs : (after ex1 (putRotate ex1 1 (exSame.enc 0) 0 0)).size = 35 := by decide +kernel
  rw [hw, hs] at h1
  have hr : exSame.recs 0 0 = [⟨[[97]], 1, 1, 5, [.raw [1, 2, 3, 4]]⟩] := rfl
  rw [hr] at h2
  cases h2 with
  | cons h3 h4 =>
    cases h4
    cases h1 with
    | cons g1 _ =>
      obtain ⟨k, p, ⟨n, g2, _⟩, _⟩ := g1
      have : Dname.NameAt [0, 0, 0, 0, 0, 1, 0, 1, 0, 0, 0, 0, 1, 97, 0, 0, 1, 0, 1,
          192, 1, 0, 1, 0, 1, 0, 0, 0, 5, 0, 4, 1, 2, 3, 4, 0, 0, 0, 0, 0] 35 true 19 [] 2 :=
        .ptr (b1 := 192) (b2 := 1) rfl (by decide) rfl rfl (by decide) (by decide) (.root (by decide) rfl)
      have h5 := (g2.unique this).1
      have h6 := h3.owner
      rw [h5] at h6
      exact absurd h6 (by decide)

/-- The packet `clear` leaves. -/
def clearOf (p : Pkt) : Pkt :=
  match clear p with
  | .ok p' => p'
  | _ => p

theorem clear_code {p : Pkt} (h : (match clear p with | .ok _ => true | _ => false) = true) : clear p = .ok (clearOf p) := by
  unfold clearOf
  split
  · rename_i h'; exact h'
  · rename_i h'
    split at h
    · rename_i p1 h2; exact absurd h2 (h' p1)
    · cases h

/-- Not so when a packet is cleared and no question put in it: the name of the old question is still
compressed against. -/
theorem C06_stale_qname : ∃ q p p', Built q p [] ∧ clear p = .ok p' ∧ exSame.Good ∧
    p'.size + p'.reserved + exSame.wireLen ≤ p'.maxSize ∧ putRotate p' 0 (exSame.enc 0) 0 0 = .ub := by
  have hc : ∃ p', clear ex1 = .ok p' ∧ p'.size + p'.reserved + exSame.wireLen ≤ p'.maxSize ∧ putRotate p' 0 (exSame.enc 0) 0 0 = .ub :=
    ⟨clearOf ex1, clear_code (by decide +kernel), by decide +kernel, code_two (by decide +kernel)⟩
  obtain ⟨p', h1, h2, h3⟩ := hc
  exact ⟨_, ex1, p', ex1_built, h1, exSame_good, h2, h3⟩

/-- Not so when space is reserved before the question: the question takes it, the space left is computed
as a huge number, and the next set is written beyond the end of the buffer. -/
theorem C07_question_reserved : ∃ p p' n, Built none p [] ∧ p.current = 0 ∧
    putQuestion p (wire exQ.name) exQ.rclass exQ.type = .ok (none, p') ∧ p'.maxSize < p'.size + p'.reserved ∧
    p'.maxSize ≤ p'.wire.length ∧ n = remaining p' ∧ n > 65000 ∧
    exLong.Good ∧ putRotate p' 0 (exLong.enc 0) 0 0 = .ub := by
  have h0 : Built none (reserve ex0 25).2 [] := .reserve 25 (.new (by decide) ex0_new)
  refine ⟨(reserve ex0 25).2, after ex0 (putQuestion (reserve ex0 25).2 (wire exQ.name) exQ.rclass exQ.type), _, h0, rfl,
    code_zero (by decide +kernel), by decide +kernel, by decide +kernel, rfl, by decide +kernel, exLong_good, code_two (by decide +kernel)⟩

end Knot
