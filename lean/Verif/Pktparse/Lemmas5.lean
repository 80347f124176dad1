import Verif.Pktparse.Lemmas4
/-! # Parsing of a whole message -/
namespace Knot.Pktparse
open Knot
open Knot.Dname (Name NameAt Valid wire nameLen lowerName)
open Knot.Rrwire (RR Rec AcceptAt HeadAt encAll slice num)

/-- The course of a successful parse. -/
structure Course (keep canon : Bool) (mem : Bytes) (size : Nat) (q : Option Name) (an ns ar : List Rec) (p3 : PP) : Prop where
  header : 12 ≤ size
  count : num (slice mem 6 2) + num (slice mem 8 2) + num (slice mem 10 2) ≤ size / 11
  run : ∃ stop p1 p2, QuestionAt mem size q stop ∧
    an.length = num (slice mem 6 2) ∧ Steps keep canon (beginSection (asked mem size q stop) 0) an p1 ∧
    ns.length = num (slice p1.wire 8 2) ∧ Steps keep canon (beginSection p1 1) ns p2 ∧
    ar.length = num (slice p2.wire 10 2) ∧ Steps keep canon (beginSection p2 2) ar p3

theorem begin_room {p : PP} {i : Nat} (h : Room p) : Room (beginSection p i) := h

theorem asked_room {mem : Bytes} {size : Nat} {q : Option Name} {stop : Nat} (h1 : 12 ≤ size) (h2 : size ≤ mem.length) :
    Room (asked mem size q stop) := by
  cases q <;> exact ⟨by show 12 ≤ mem.length; omega, h2⟩

theorem asked_fields {mem : Bytes} {size : Nat} {q : Option Name} {stop : Nat} :
    let p := asked mem size q stop
    p.wire = mem ∧ p.size = size ∧ p.parsed = stop ∧ p.rrs = [] ∧ p.current = 0 ∧ p.secPos = (fun _ => 0) ∧
    p.secCount = (fun _ => 0) ∧ p.opt = none ∧ p.tsig = none ∧ p.ednsOpts = none ∧ p.tsigWire = none := by
  cases q <;> exact ⟨rfl, rfl, rfl, rfl, rfl, rfl, rfl, rfl, rfl, rfl, rfl⟩

theorem section_iff {keep canon : Bool} {p p' : PP} {i : Nat} (h : Room p) (hi : i ≤ 2) :
    parseSection keep canon p i = .ok p' ↔
      ∃ rs : List Rec, rs.length = num (slice p.wire (6 + 2 * i) 2) ∧ Steps keep canon (beginSection p i) rs p' := by
  unfold parseSection
  rw [get16_eq (by have := h.1; omega)]
  simp only [Res.bind_ok]
  exact parseRrs_iff (begin_room h)

theorem section_room {keep canon : Bool} {p p' : PP} {i : Nat} (h : Room p) (hi : i ≤ 2)
    (hx : parseSection keep canon p i = .ok p') : Room p' := by
  obtain ⟨rs, _, h2⟩ := (section_iff h hi).mp hx
  exact steps_room h2 (begin_room h)

theorem section_safe {keep canon : Bool} {p : PP} {i : Nat} (h : Room p) (hi : i ≤ 2) : parseSection keep canon p i ≠ .ub := by
  unfold parseSection
  rw [get16_eq (by have := h.1; omega)]
  simp only [Res.bind_ok]
  exact parseRrs_safe (begin_room h)

theorem parse_iff {keep canon : Bool} {mem : Bytes} {size : Nat} {p' : PP} (hs : size ≤ mem.length) :
    parse keep canon mem size = .ok p' ↔ ∃ q an ns ar p3, Course keep canon mem size q an ns ar p3 ∧ finish p3 = .ok p' := by
  unfold parse
  constructor
  · intro h
    cases hq : parseQuestion (received mem size) with
    | err e => rw [hq] at h; simp at h
    | ub => rw [hq] at h; simp at h
    | ok p0 =>
      rw [hq] at h
      obtain ⟨hh, q, stop, hqa, rfl⟩ := (parseQuestion_iff hs).mp hq
      simp only [Res.bind_ok] at h
      obtain ⟨f1, f2, _⟩ := @asked_fields mem size q stop
      have r0 := asked_room (q := q) (stop := stop) hh hs
      unfold parsePayload at h
      rw [f1, f2, if_neg (by omega), get16_eq (by omega), get16_eq (by omega), get16_eq (by omega)] at h
      simp only [Res.bind_ok] at h
      split at h
      · simp at h
      rename_i hc
      cases h1 : parseSection keep canon (asked mem size q stop) 0 with
      | err e => rw [h1] at h; simp at h
      | ub => rw [h1] at h; simp at h
      | ok p1 =>
        rw [h1] at h; simp only [Res.bind_ok] at h
        have r1 := section_room r0 (by omega) h1
        cases h2 : parseSection keep canon p1 1 with
        | err e => rw [h2] at h; simp at h
        | ub => rw [h2] at h; simp at h
        | ok p2 =>
          rw [h2] at h; simp only [Res.bind_ok] at h
          have r2 := section_room r1 (by omega) h2
          cases h3 : parseSection keep canon p2 2 with
          | err e => rw [h3] at h; simp at h
          | ub => rw [h3] at h; simp at h
          | ok p3 =>
            rw [h3] at h; simp only [Res.bind_ok] at h
            obtain ⟨an, a1, a2⟩ := (section_iff r0 (by omega)).mp h1
            obtain ⟨ns, b1, b2⟩ := (section_iff r1 (by omega)).mp h2
            obtain ⟨ar, c1, c2⟩ := (section_iff r2 (by omega)).mp h3
            rw [f1] at a1
            exact ⟨q, an, ns, ar, p3, ⟨hh, by omega, stop, p1, p2, hqa, a1, a2, b1, b2, c1, c2⟩, h⟩
  · rintro ⟨q, an, ns, ar, p3, ⟨hh, hc, stop, p1, p2, hqa, a1, a2, b1, b2, c1, c2⟩, hf⟩
    rw [(parseQuestion_iff hs).mpr ⟨hh, q, stop, hqa, rfl⟩]
    simp only [Res.bind_ok]
    obtain ⟨f1, f2, _⟩ := @asked_fields mem size q stop
    have r0 := asked_room (q := q) (stop := stop) hh hs
    unfold parsePayload
    rw [f1, f2, if_neg (by omega), get16_eq (by omega), get16_eq (by omega), get16_eq (by omega)]
    simp only [Res.bind_ok]
    rw [if_neg (by omega)]
    have r1 := steps_room a2 (begin_room r0)
    have r2 := steps_room b2 (begin_room r1)
    rw [(section_iff r0 (by omega)).mpr ⟨an, by rw [f1]; exact a1, a2⟩]
    simp only [Res.bind_ok]
    rw [(section_iff r1 (by omega)).mpr ⟨ns, b1, b2⟩]
    simp only [Res.bind_ok]
    rw [(section_iff r2 (by omega)).mpr ⟨ar, c1, c2⟩]
    simp only [Res.bind_ok]
    exact hf

theorem parse_safe {keep canon : Bool} {mem : Bytes} {size : Nat} (hs : size ≤ mem.length) : parse keep canon mem size ≠ .ub := by
  unfold parse
  cases hq : parseQuestion (received mem size) with
  | err e => simp
  | ub => exact absurd hq (parseQuestion_safe hs)
  | ok p0 =>
    obtain ⟨hh, q, stop, hqa, rfl⟩ := (parseQuestion_iff hs).mp hq
    simp only [Res.bind_ok]
    obtain ⟨f1, f2, _⟩ := @asked_fields mem size q stop
    have r0 := asked_room (q := q) (stop := stop) hh hs
    unfold parsePayload
    rw [f1, f2, if_neg (by omega), get16_eq (by omega), get16_eq (by omega), get16_eq (by omega)]
    simp only [Res.bind_ok]
    split
    · simp
    cases h1 : parseSection keep canon (asked mem size q stop) 0 with
    | err e => simp
    | ub => exact absurd h1 (section_safe r0 (by omega))
    | ok p1 =>
      simp only [Res.bind_ok]
      have r1 := section_room r0 (by omega) h1
      cases h2 : parseSection keep canon p1 1 with
      | err e => simp
      | ub => exact absurd h2 (section_safe r1 (by omega))
      | ok p2 =>
        simp only [Res.bind_ok]
        have r2 := section_room r1 (by omega) h2
        cases h3 : parseSection keep canon p2 2 with
        | err e => simp
        | ub => exact absurd h3 (section_safe r2 (by omega))
        | ok p3 =>
          simp only [Res.bind_ok, finish]
          split
          · simp
          · split <;> simp

/-- What is delivered for a message. -/
structure Delivered (keep canon : Bool) (mem : Bytes) (size : Nat) (q : Option Name) (an ns ar : List Rec) (p : PP) : Prop where
  records : p.rrs = (an ++ ns ++ ar).map (deliver canon)
  counts : p.secCount 0 = an.length ∧ p.secCount 1 = ns.length ∧ p.secCount 2 = ar.length
  starts : p.secPos 0 = 0 ∧ p.secPos 1 = an.length ∧ p.secPos 2 = an.length + ns.length
  question : match q with
    | none => p.qnameSize = 0
    | some ls => p.qnameSize = (wire ls).length ∧ p.lowerQname = wire (lowerName ls) ∧
        (p.nullByte = true ↔ ∃ l ∈ ls, (0 : UInt8) ∈ l)
  opt : ∀ i, p.opt = some i ↔ ∃ r, (an ++ ns ++ ar)[i]? = some r ∧ r.type = 41
  options : ∀ i r, p.opt = some i → (an ++ ns ++ ar)[i]? = some r → p.ednsOpts = optsOf (encAll r.rdata)
  tsig : ∀ i, p.tsig = some i ↔ ∃ r, (an ++ ns ++ ar)[i]? = some r ∧ r.type = 250
  whole : keep = true ∨ (∀ r ∈ ar, r.type ≠ 250) → p.wire = mem ∧ p.size = size ∧ p.tsigWire = none
  stripped : keep = false → ∀ t ∈ ar, t.type = 250 → RecsAt mem size p.size [t] size ∧
    p.wire = mem.take 10 ++ be16 (ar.length - 1) ++ mem.drop 12 ∧ p.tsigWire = some (p.size, size - p.size)

theorem found_recs {canon : Bool} {t : Nat} {rs : List Rec} {o : Option Nat} (h : Found t (rs.map (deliver canon)) o) :
    ∀ i, o = some i ↔ ∃ r, rs[i]? = some r ∧ r.type = t := by
  intro i
  rw [h i]
  simp only [List.getElem?_map, Option.map_eq_some_iff]
  constructor
  · rintro ⟨rr, ⟨r, h1, rfl⟩, h2⟩; exact ⟨r, h1, by rw [deliver_type] at h2; exact h2⟩
  · rintro ⟨r, h1, h2⟩; exact ⟨_, ⟨r, h1, rfl⟩, by rw [deliver_type]; exact h2⟩

/-- Facts about a course. -/
structure Facts (keep canon : Bool) (mem : Bytes) (size : Nat) (q : Option Name) (an ns ar : List Rec) (p : PP) : Prop where
  records : p.rrs = (an ++ ns ++ ar).map (deliver canon)
  counts : p.secCount 0 = an.length ∧ p.secCount 1 = ns.length ∧ p.secCount 2 = ar.length
  starts : p.secPos 0 = 0 ∧ p.secPos 1 = an.length ∧ p.secPos 2 = an.length + ns.length
  question : ∃ stop, p.qnameSize = (asked mem size q stop).qnameSize ∧ p.lowerQname = (asked mem size q stop).lowerQname ∧
    p.nullByte = (asked mem size q stop).nullByte
  marks : Marks p
  special : ∀ r ∈ an ++ ns, r.type ≠ 41 ∧ r.type ≠ 250
  rdata : ∀ r ∈ ar, (r.type = 250 → TsigRdata (encAll r.rdata)) ∧ (r.type = 41 → OptRdata (encAll r.rdata))
  lens : num (slice mem 6 2) = an.length ∧ num (slice mem 8 2) = ns.length ∧ num (slice mem 10 2) = ar.length
  /-- the state before the additional section -/
  before : ∃ pos p2 stop, QuestionAt mem size q pos ∧ RecsAt mem size pos (an ++ ns) stop ∧ p2.wire = mem ∧ p2.size = size ∧
    p2.parsed = stop ∧ 12 ≤ stop ∧ p2.tsigWire = none ∧ Steps keep canon p2 ar p

theorem question_lo {mem : Bytes} {size : Nat} {q : Option Name} {stop : Nat} (h : QuestionAt mem size q stop) : 12 ≤ stop := by
  cases q with
  | none => have := h.2; omega
  | some ls => obtain ⟨_, n, _, _, h, _⟩ := h; omega

theorem course_facts {keep canon : Bool} {mem : Bytes} {size : Nat} {q : Option Name} {an ns ar : List Rec} {p : PP}
    (h : Course keep canon mem size q an ns ar p) : Facts keep canon mem size q an ns ar p := by
  obtain ⟨hh, hc, stop, p1, p2, hq, l1, s1, l2, s2, l3, s3⟩ := h
  obtain ⟨f1, f2, f3, f4, f5, f6, f7, f8, f9, f10, f11⟩ := @asked_fields mem size q stop
  have n1 : ∀ r ∈ an, r.type ≠ 41 ∧ r.type ≠ 250 := by
    intro r hr
    have := steps_rdata s1 r hr
    exact ⟨fun h => (nomatch (this.2 h).1), fun h => (nomatch (this.1 h).1)⟩
  have n2 : ∀ r ∈ ns, r.type ≠ 41 ∧ r.type ≠ 250 := by
    intro r hr
    have := steps_rdata s2 r hr
    exact ⟨fun h => (nomatch (this.2 h).1), fun h => (nomatch (this.1 h).1)⟩
  obtain ⟨w1, z1, a1, t1⟩ := steps_plain s1 (fun r hr => .inr (n1 r hr).2)
  obtain ⟨w2, z2, a2, t2⟩ := steps_plain s2 (fun r hr => .inr (n2 r hr).2)
  have w1' : p1.wire = mem := w1.trans f1
  have z1' : p1.size = size := z1.trans f2
  have t1' : p1.tsigWire = none := t1.trans f11
  have w2' : p2.wire = mem := w2.trans w1'
  have z2' : p2.size = size := z2.trans z1'
  have a1' : RecsAt mem size stop an p1.parsed := by
    have e : (beginSection (asked mem size q stop) 0).wire = mem := f1
    have e' : (beginSection (asked mem size q stop) 0).size = size := f2
    have e'' : (beginSection (asked mem size q stop) 0).parsed = stop := f3
    rwa [e, e', e''] at a1
  have a2' : RecsAt mem size p1.parsed ns p2.parsed := by
    have e : (beginSection p1 1).wire = mem := w1'
    have e' : (beginSection p1 1).size = size := z1'
    have e'' : (beginSection p1 1).parsed = p1.parsed := rfl
    rwa [e, e', e''] at a2
  obtain ⟨c1, c2, c3, c4, c5, c6, c7⟩ := steps_common s1
  obtain ⟨d1, d2, d3, d4, d5, d6, d7⟩ := steps_common s2
  obtain ⟨e1, e2, e3, e4, e5, e6, e7⟩ := steps_common s3
  have r1 : p1.rrs = an.map (deliver canon) := by
    have : (beginSection (asked mem size q stop) 0).rrs = [] := f4
    rw [c1, this]; rfl
  have r2 : p2.rrs = (an ++ ns).map (deliver canon) := by
    have : (beginSection p1 1).rrs = p1.rrs := rfl
    rw [d1, this, r1, List.map_append]
  have r3 : p.rrs = (an ++ ns ++ ar).map (deliver canon) := by
    have : (beginSection p2 2).rrs = p2.rrs := rfl
    rw [e1, this, r2, ← List.map_append]
  have cur1 : p1.current = 0 := c2
  have cur2 : p2.current = 1 := d2
  have sp1 : p1.secPos = (fun _ => 0) := by
    rw [c3]
    simp [beginSection, f5, f6]
  have sp2 : p2.secPos = (fun i => if i = 1 then an.length else 0) := by
    rw [d3]
    show (if 1 > p1.current then (fun i => if i = 1 then p1.rrs.length else p1.secPos i) else p1.secPos) = _
    rw [cur1, if_pos (by omega), r1, sp1, List.length_map]
  have sp3 : p.secPos = (fun i => if i = 2 then an.length + ns.length else if i = 1 then an.length else 0) := by
    rw [e3]
    show (if 2 > p2.current then (fun i => if i = 2 then p2.rrs.length else p2.secPos i) else p2.secPos) = _
    rw [cur2, if_pos (by omega), r2, sp2, List.length_map, List.length_append]
  have sc1 : p1.secCount = (fun i => if i = 0 then an.length else 0) := by
    rw [c4]
    funext i
    show (if i = 0 then (asked mem size q stop).secCount i + an.length else (asked mem size q stop).secCount i) = _
    rw [f7, Nat.zero_add]
  have sc2 : p2.secCount = (fun i => if i = 1 then ns.length else if i = 0 then an.length else 0) := by
    rw [d4]
    funext i
    show (if i = 1 then p1.secCount i + ns.length else p1.secCount i) = _
    rw [sc1]
    split
    · subst i; simp
    · rfl
  have sc3 : p.secCount = (fun i => if i = 2 then ar.length else if i = 1 then ns.length else if i = 0 then an.length else 0) := by
    rw [e4]
    funext i
    show (if i = 2 then p2.secCount i + ar.length else p2.secCount i) = _
    rw [sc2]
    split
    · subst i; simp
    · rfl
  have m0 : Marks (asked mem size q stop) := by
    unfold Marks
    rw [f4, f8, f9, f10]
    exact ⟨fun i => by simp, fun i => by simp, fun _ => rfl, fun i rr h => by cases h⟩
  have m1 : Marks p1 := steps_marks s1 m0
  have m2 : Marks p2 := steps_marks s2 m1
  have m3 : Marks p := steps_marks s3 m2
  rw [w1'] at l2
  rw [w2'] at l3
  refine ⟨r3, ⟨by rw [sc3]; rfl, by rw [sc3]; rfl, by rw [sc3]; rfl⟩, ⟨by rw [sp3]; rfl, by rw [sp3]; rfl, by rw [sp3]; rfl⟩,
    ⟨stop, e5.trans (d5.trans c5), e6.trans (d6.trans c6), e7.trans (d7.trans c7)⟩, m3, ?_, ?_, ⟨l1.symm, l2.symm, l3.symm⟩, ?_⟩
  · intro r hr
    rcases List.mem_append.mp hr with h | h
    · exact n1 r h
    · exact n2 r h
  · intro r hr
    have := steps_rdata s3 r hr
    exact ⟨fun h => (this.1 h).2, fun h => (this.2 h).2⟩
  · refine ⟨stop, beginSection p2 2, p2.parsed, hq, recsAt_append.mpr ⟨_, a1', a2'⟩, w2', z2', rfl, ?_, ?_, s3⟩
    · have := recsAt_lt a1'
      have := recsAt_lt a2'
      have := question_lo hq
      omega
    · exact t2.trans t1'

end Knot.Pktparse
