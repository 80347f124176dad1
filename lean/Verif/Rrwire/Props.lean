import Verif.Rrwire.Lemmas
/-!
# C38: parsing of resource records
-/
namespace Knot.Rrwire
open Knot
open Knot.Dname (Name NameAt Valid wire lowerName nameLen)

/-- The record as held in memory. -/
def Rec.enc (r : Rec) : RR := ⟨wire r.owner, r.type, r.rclass, r.ttl, encAll r.rdata⟩

theorem fromWire_raw {mem : Bytes} {pos size : Nat} {o : Option RR} {stop : Nat}
    (he : size ≤ mem.length) (hp : pos ≤ size) :
    fromWire mem pos size false = .ok (o, stop) ↔
      ∃ r, AcceptAt mem size pos r stop ∧ o = some r.enc := by
  unfold fromWire
  rw [if_neg (by omega)]
  cases hx : parseHeader mem pos size with
  | ub => exact absurd hx (parseHeader_safe he hp)
  | err e =>
    simp only [Res.bind_err, reduceCtorEq, false_iff, not_exists, not_and]
    rintro ⟨ls, t, c, l, fs⟩ ⟨k, p, ⟨n, h⟩, _⟩ _
    have := (parseHeader_ok he hp (o := wire ls) (t := t) (c := c) (l := l) (k := k) (p := p)).mpr
      ⟨ls, rfl, fun _ => ⟨n, h⟩⟩
    rw [hx] at this; cases this
  | ok v =>
    obtain ⟨ow, t, c, l, k, p⟩ := v
    obtain ⟨ls, rfl, hh⟩ := (parseHeader_ok he hp).mp hx
    obtain ⟨n, _, _, rfl, _, _, _, _, hk⟩ := id (hh [])
    simp only [Res.bind_ok]
    have huniq : ∀ {r : Rec} {k' p' : Nat}, HeadAt mem size pos r k' p' →
        r.owner = ls ∧ r.type = t ∧ r.rclass = c ∧ r.ttl = l ∧ k' = k ∧ p' = pos + n + 10 := by
      rintro ⟨ls', t', c', l', fs⟩ k' p' ⟨n', h⟩
      have := (parseHeader_ok he hp (o := wire ls') (t := t') (c := c') (l := l') (k := k')
        (p := p')).mpr ⟨ls', rfl, fun _ => ⟨n', h⟩⟩
      rw [hx] at this
      simp only [Res.ok.injEq, Prod.mk.injEq] at this
      obtain ⟨m, h1, _⟩ := hh []
      obtain ⟨h1', _⟩ := h
      exact ⟨(h1'.unique h1).1, this.2.1.symm, this.2.2.1.symm, this.2.2.2.1.symm,
        this.2.2.2.2.1.symm, this.2.2.2.2.2.symm⟩
    have hr := @parseRdata_ok mem (pos + n + 10) size t c k
    cases hy : parseRdata mem (pos + n + 10) size t c k with
    | ub => exact absurd hy (parseRdata_safe he hk)
    | err e =>
      simp only [Res.bind_err, reduceCtorEq, false_iff, not_exists, not_and]
      rintro r ⟨k', p', h1, rfl, h2⟩ _
      obtain ⟨e1, e2, e3, e4, rfl, rfl⟩ := huniq h1
      have := (hr (d := encAll r.rdata) (p' := pos + n + 10 + k') he hk).mpr ⟨rfl, by
        rw [e2, e3] at h2
        rcases h2 with ⟨h2, h3, h4⟩ | ⟨h2, ⟨q, h3⟩, h4, h5⟩
        · exact .inl ⟨h2, by rw [h3]; rfl, h4⟩
        · exact .inr ⟨h2, r.rdata, q, h3, rfl, h4, h5⟩⟩
      rw [hy] at this; cases this
    | ok v =>
      obtain ⟨d, p'⟩ := v
      obtain ⟨rfl, hd⟩ := (hr he hk).mp hy
      simp only [Res.bind_ok, Bool.false_eq_true, if_false, Res.ok.injEq, Prod.mk.injEq]
      constructor
      · rintro ⟨rfl, rfl⟩
        rcases hd with ⟨h2, rfl, h4⟩ | ⟨h2, fs, q, h3, rfl, h4, h5⟩
        · exact ⟨⟨ls, t, c, l, []⟩, ⟨k, _, hh _, rfl, .inl ⟨h2, rfl, h4⟩⟩, rfl⟩
        · exact ⟨⟨ls, t, c, l, fs⟩, ⟨k, _, hh _, rfl, .inr ⟨h2, ⟨q, h3⟩, h4, h5⟩⟩, rfl⟩
      · rintro ⟨r, ⟨k', p', h1, rfl, h2⟩, rfl⟩
        obtain ⟨e1, e2, e3, e4, rfl, rfl⟩ := huniq h1
        have := (hr (d := encAll r.rdata) (p' := pos + n + 10 + k') he hk).mpr ⟨rfl, by
          rw [e2, e3] at h2
          rcases h2 with ⟨h2, h3, h4⟩ | ⟨h2, ⟨q, h3⟩, h4, h5⟩
          · exact .inl ⟨h2, by rw [h3]; rfl, h4⟩
          · exact .inr ⟨h2, r.rdata, q, h3, rfl, h4, h5⟩⟩
        rw [hy] at this
        simp only [Res.ok.injEq, Prod.mk.injEq] at this
        refine ⟨?_, rfl⟩
        rw [this.1, ← e1, ← e2, ← e3, ← e4]
        rfl

/-! ## Canonical form -/

/-- "The rest" can only be the last block. -/
def remLast : List Block → Bool
  | [] => true
  | .remainder :: bs => bs.isEmpty
  | _ :: bs => remLast bs

theorem lookup_mem {t : List (Nat × List Block)} {a : Nat} {b : List Block}
    (h : t.lookup a = some b) : (a, b) ∈ t := by
  induction t with
  | nil => simp at h
  | cons x t ih =>
    obtain ⟨k, v⟩ := x
    rw [List.lookup_cons] at h
    split at h
    · rename_i he; simp only [beq_iff_eq] at he; subst he; cases h; simp
    · exact List.mem_cons_of_mem _ (ih h)

theorem descIn_blocks {t : List (Nat × List Block)} (P : List Block → Prop)
    (h : ∀ x ∈ t, P x.2) (h0 : P [.remainder]) (type : Nat) : P (descIn t type).blocks := by
  unfold descIn
  split
  · rename_i b hb; exact h _ (lookup_mem hb)
  · exact h0

theorem parseDesc_remLast (type : Nat) : remLast (parseDesc type).blocks = true := by
  unfold parseDesc
  split
  · exact descIn_blocks (fun b => remLast b = true) (by decide) (by decide) type
  · exact descIn_blocks (fun b => remLast b = true) (by decide) (by decide) type

theorem lowercased_iff (t : Nat) : lowercased t = true ↔ t ∈ rfc4034Types := by
  simp only [lowercased, rfc4034Types, List.contains_eq_mem, decide_eq_true_eq, List.mem_cons,
    List.not_mem_nil]
  grind

theorem naptr_slice {mem : Bytes} {pos endp n : Nat} (h : NaptrAt mem pos endp n)
    (he : endp ≤ mem.length) (rest : Bytes) :
    NaptrAt (slice mem pos n ++ rest) 0 (slice mem pos n ++ rest).length n := by
  obtain ⟨a, b, c, ha, hb, hc, rfl, hl⟩ := h
  have hlen := slice_length (mem := mem) (pos := pos) (k := 7 + a.toNat + b.toNat + c.toNat) (by omega)
  have hget : ∀ i, i < 7 + a.toNat + b.toNat + c.toNat →
      (slice mem pos (7 + a.toNat + b.toNat + c.toNat) ++ rest)[0 + i]? = mem[pos + i]? := by
    intro i hi
    rw [Nat.zero_add, List.getElem?_append_left (by omega), slice, List.getElem?_take,
      if_pos (by omega), List.getElem?_drop]
  refine ⟨a, b, c, ?_, ?_, ?_, rfl, ?_⟩
  · rw [hget 4 (by omega)]; exact ha
  · rw [show 0 + 5 + a.toNat = 0 + (5 + a.toNat) by omega, hget _ (by omega), ← hb]; congr 1; omega
  · rw [show 0 + 6 + a.toNat + b.toNat = 0 + (6 + a.toNat + b.toNat) by omega, hget _ (by omega), ← hc]
    congr 1; omega
  · simp only [List.length_append]; omega

theorem lowerFront_wire {ls : Name} (h : Valid ls) (r : Bytes) :
    lowerFront (wire ls ++ r) = .ok (wire (lowerName ls), r) := by
  unfold lowerFront
  rw [Dname.copyLower_wire r h.1]
  have : (wire (lowerName ls)).length = (wire ls).length := by
    simp only [Dname.wire_length]
    clear h
    induction ls with
    | nil => rfl
    | cons l ls ih => simp only [lowerName, List.map_cons, nameLen, List.length_map] at ih ⊢; omega
  simp [this]

theorem canonRdata_ok {mem : Bytes} {endp : Nat} (he : endp ≤ mem.length) {bs pos fs stop}
    (h : RdAt mem endp bs pos fs stop) (hp : pos ≤ endp) (hr : remLast bs = true) :
    canonRdata bs (encAll fs) = .ok (encAll (fs.map Field.lower)) := by
  induction h with
  | done => rfl
  | @name b bs pos ls n fs stop h1 h2 h3 h4 ih =>
    have hfit := h2.fits
    have hr' : remLast bs = true := by cases b <;> simp_all [Block.isName, remLast]
    have := ih (by omega) hr'
    simp only [encAll_cons, Field.enc, List.map_cons, Field.lower]
    cases b <;> simp only [Block.isName, reduceCtorEq, Bool.false_eq_true] at h1 <;>
      simp [canonRdata, lowerFront_wire h3, this]
  | @naptr bs pos n fs stop h1 h2 ih =>
    have hn := naptr_slice h1 he (encAll fs)
    obtain ⟨_, _, _, _, _, _, _, hl⟩ := id h1
    have := ih (by omega) (by simpa [remLast] using hr)
    simp only [encAll_cons, Field.enc, List.map_cons, Field.lower, canonRdata]
    rw [(naptr_ok (Nat.le_refl _)).mpr hn]
    have hlen := slice_length (mem := mem) (pos := pos) (k := n) (by omega)
    simp only [Res.bind_ok]
    rw [List.drop_left' hlen, List.take_left' hlen, this]
    rfl
  | @remainder bs pos fs stop h1 h2 ih =>
    simp only [remLast, List.isEmpty_iff] at hr
    subst hr
    cases h2
    simp [canonRdata, encAll, Field.lower]
  | @fixed k bs pos fs stop h1 h2 ih =>
    have := ih (by omega) (by simpa [remLast] using hr)
    have hlen := slice_length (mem := mem) (pos := pos) (k := k) (by omega)
    simp only [encAll_cons, Field.enc, List.map_cons, Field.lower, canonRdata, List.length_append,
      hlen]
    rw [if_neg (by omega), List.drop_left' hlen, List.take_left' hlen, this]
    rfl

theorem canonical_ok {mem : Bytes} {size pos : Nat} {r : Rec} {stop : Nat} (he : size ≤ mem.length)
    (h : AcceptAt mem size pos r stop) : canonical r.enc = .ok r.canon.enc := by
  obtain ⟨k, p, ⟨n, h1, h2, _, _, _, _, _, h3⟩, rfl, h4⟩ := h
  have ho := Dname.copyLower_wire [] h2.1
  rw [List.append_nil] at ho
  show canonical ⟨wire r.owner, r.type, r.rclass, r.ttl, encAll r.rdata⟩ = _
  unfold canonical
  simp only [ho, Res.bind_ok]
  by_cases hl : lowercased r.type = false
  · have : ¬ r.type ∈ rfc4034Types := by rw [← lowercased_iff, hl]; simp
    simp [Rec.canon, Rec.enc, this, hl]
  · have := (lowercased_iff _).mp (by simpa using hl)
    rw [if_neg hl]
    simp only [Rec.canon, Rec.enc, if_pos this]
    rcases h4 with ⟨_, h4, _⟩ | ⟨h5, ⟨q, h6⟩, h7, _⟩
    · simp [h4, encAll]
    · rw [if_neg (by omega), canonRdata_ok (by omega) h6 (by omega) (parseDesc_remLast _)]
      rfl

end Knot.Rrwire

namespace Knot
open Rrwire
open Dname (Name NameAt Valid wire lowerName nameLen)

/-- C38. Parsing a record never accesses memory outside the message, whatever the bytes. -/
theorem C38_parse_safe (mem : List UInt8) (pos size : Nat) (canon : Bool) (he : size ≤ mem.length) :
    fromWire mem pos size canon ≠ .ub := by
  by_cases hp : pos ≤ size
  · have raw := @fromWire_raw mem pos size
    cases hf : fromWire mem pos size false with
    | ub =>
      exfalso
      unfold fromWire at hf
      rw [if_neg (by omega)] at hf
      cases hx : parseHeader mem pos size with
      | ub => exact absurd hx (parseHeader_safe he hp)
      | err e => rw [hx] at hf; cases hf
      | ok v =>
        obtain ⟨ow, t, c, l, k, p⟩ := v
        rw [hx] at hf
        simp only [Res.bind_ok] at hf
        obtain ⟨ls, rfl, hh⟩ := (parseHeader_ok he hp).mp hx
        obtain ⟨n, _, _, rfl, _, _, _, _, hk⟩ := id (hh [])
        cases hy : parseRdata mem (pos + n + 10) size t c k with
        | ub => exact absurd hy (parseRdata_safe he hk)
        | err e => rw [hy] at hf; cases hf
        | ok v => rw [hy] at hf; simp at hf
    | err e =>
      cases canon with
      | false => rw [hf]; simp
      | true =>
        intro h
        unfold fromWire at hf h
        rw [if_neg (by omega)] at hf h
        cases hx : parseHeader mem pos size with
        | ub => rw [hx] at hf; cases hf
        | err e => rw [hx] at h; cases h
        | ok v =>
          obtain ⟨ow, t, c, l, k, p⟩ := v
          rw [hx] at hf h
          simp only [Res.bind_ok] at hf h
          cases hy : parseRdata mem p size t c k with
          | ub => rw [hy] at hf; cases hf
          | err e => rw [hy] at h; cases h
          | ok v => rw [hy] at hf; simp at hf
    | ok v =>
      obtain ⟨o, stop⟩ := v
      cases canon with
      | false => rw [hf]; simp
      | true =>
        obtain ⟨r, hr, rfl⟩ := (raw he hp).mp hf
        have hc := canonical_ok he hr
        intro h
        unfold fromWire at hf h
        rw [if_neg (by omega)] at hf h
        cases hx : parseHeader mem pos size with
        | ub => rw [hx] at hf; cases hf
        | err e => rw [hx] at h; cases h
        | ok v =>
          obtain ⟨ow, t, c, l, k, p⟩ := v
          rw [hx] at hf h
          simp only [Res.bind_ok] at hf h
          cases hy : parseRdata mem p size t c k with
          | ub => rw [hy] at hf; cases hf
          | err e => rw [hy] at h; cases h
          | ok v =>
            rw [hy] at hf h
            simp only [Res.bind_ok, Bool.false_eq_true, if_false, if_true, Res.ok.injEq, Prod.mk.injEq,
              Option.some.injEq] at hf h
            rw [hf.1, hc] at h
            cases h
  · unfold fromWire
    rw [if_pos (by omega)]; simp

/-- C38. Exactly which bytes are accepted as a record, which record is delivered and where it
ends, without conversion to the canonical form. -/
theorem C38_parse_exact (mem : List UInt8) (pos size stop : Nat) (o : Option RR)
    (he : size ≤ mem.length) (hp : pos ≤ size) :
    fromWire mem pos size false = .ok (o, stop) ↔
      ∃ r, AcceptAt mem size pos r stop ∧
        o = some ⟨wire r.owner, r.type, r.rclass, r.ttl, encAll r.rdata⟩ :=
  fromWire_raw he hp

/-- C38. The same with conversion to the canonical form of RFC 4034; the conversion itself
never fails. -/
theorem C38_parse_canonical (mem : List UInt8) (pos size stop : Nat) (o : Option RR)
    (he : size ≤ mem.length) (hp : pos ≤ size) :
    fromWire mem pos size true = .ok (o, stop) ↔
      ∃ r, AcceptAt mem size pos r stop ∧
        o = some ⟨wire r.canon.owner, r.type, r.rclass, r.ttl, encAll r.canon.rdata⟩ := by
  have raw := @fromWire_raw mem pos size
  have hsafe := C38_parse_safe mem pos size true he
  unfold fromWire at raw hsafe ⊢
  rw [if_neg (by omega)] at raw hsafe ⊢
  cases hx : parseHeader mem pos size with
  | ub => exact absurd hx (parseHeader_safe he hp)
  | err e =>
    simp only [hx, Res.bind_err, reduceCtorEq, false_iff, not_exists, not_and] at raw ⊢
    intro r h _
    exact raw (o := some r.enc) he hp r h rfl
  | ok v =>
    obtain ⟨ow, t, c, l, k, p⟩ := v
    simp only [hx, Res.bind_ok] at raw hsafe ⊢
    cases hy : parseRdata mem p size t c k with
    | ub => simp [hy] at hsafe
    | err e =>
      simp only [hy, Res.bind_err, reduceCtorEq, false_iff, not_exists, not_and] at raw ⊢
      intro r h _
      exact raw (o := some r.enc) he hp r h rfl
    | ok v =>
      obtain ⟨d, p'⟩ := v
      simp only [hy, Res.bind_ok, Bool.false_eq_true, if_false, if_true, Res.ok.injEq,
        Prod.mk.injEq] at raw ⊢
      obtain ⟨r, hr, h2⟩ := (raw (o := some ⟨ow, t, c, l, d⟩) (stop := p') he hp).mp ⟨rfl, rfl⟩
      simp only [Option.some.injEq] at h2
      have hc := canonical_ok he hr
      rw [h2, hc]
      simp only [Res.ok.injEq, Prod.mk.injEq]
      constructor
      · rintro ⟨rfl, rfl⟩; exact ⟨r, hr, rfl⟩
      · rintro ⟨r', hr', rfl⟩
        obtain ⟨h3, rfl⟩ := (raw (o := some r'.enc) (stop := stop) he hp).mpr ⟨r', hr', rfl⟩
        simp only [Option.some.injEq] at h3
        have hc' := canonical_ok he hr'
        rw [← h3, h2, hc] at hc'
        simp only [Res.ok.injEq] at hc'
        rw [hc']
        exact ⟨rfl, rfl⟩


/-- C38. A record stored with exact RDLENGTH is accepted and delivered, unless its RDATA is too
long when decompressed or got shorter by decompression. -/
theorem C38_parse_complete (mem : List UInt8) (pos size stop : Nat) (r : Rec)
    (he : size ≤ mem.length) (hp : pos ≤ size) (h : RRAt mem size pos r stop)
    (hl : (encAll r.rdata).length ≤ 65535)
    (hs : ∀ k p, HeadAt mem size pos r k p → k ≤ (encAll r.rdata).length) :
    fromWire mem pos size false =
      .ok (some ⟨wire r.owner, r.type, r.rclass, r.ttl, encAll r.rdata⟩, stop) := by
  rw [C38_parse_exact _ _ _ _ _ he hp]
  refine ⟨r, ?_, rfl⟩
  obtain ⟨k, p, h1, rfl, h2⟩ := h
  refine ⟨k, p, h1, rfl, ?_⟩
  rcases h2 with h2 | ⟨h2, h3⟩
  · exact .inl h2
  · exact .inr ⟨h2, ⟨_, h3⟩, hs k p h1, hl⟩

/-- C38. Records whose RDATA has missing octets are rejected, and octets left over at the end of
RDATA are at most as many as decompression added; in particular there are none if the names in
the RDATA are not compressed. -/
theorem C38_trailing (mem : List UInt8) (pos size stop : Nat) (rr : RR)
    (he : size ≤ mem.length) (hp : pos ≤ size)
    (h : fromWire mem pos size false = .ok (some rr, stop)) :
    ∃ r k p q, HeadAt mem size pos r k p ∧ stop = p + k ∧ rr.rdata = encAll r.rdata ∧
      p ≤ q ∧ q ≤ stop ∧ (0 < k → RdAt mem stop (parseDesc r.type).blocks p r.rdata q) ∧
      (stop - q) + (q - p) ≤ rr.rdata.length ∧
      ((encAll r.rdata).length = q - p → q = stop ∧ RRAt mem size pos r stop) := by
  obtain ⟨r, ⟨k, p, h1, rfl, h2⟩, h3⟩ := (C38_parse_exact _ _ _ _ _ he hp).mp h
  simp only [Option.some.injEq] at h3
  subst h3
  rcases h2 with ⟨rfl, h2, h3⟩ | ⟨h2, ⟨q, h3⟩, h4, h5⟩
  · exact ⟨r, 0, p, p, h1, rfl, rfl, by omega, by omega, by omega, by omega,
      fun _ => ⟨by omega, 0, p, h1, rfl, .inl ⟨rfl, h2, h3⟩⟩⟩
  · have hle := h3.le (by omega)
    refine ⟨r, k, p, q, h1, rfl, rfl, hle.1, hle.2, fun _ => h3, by show _ ≤ (encAll r.rdata).length; omega, ?_⟩
    intro hq
    have : q = p + k := by omega
    exact ⟨this, k, p, h1, rfl, .inr ⟨h2, by rw [this] at h3; exact h3⟩⟩

/-- A message with the name `www.` at 12 and, at 17, an NS record owned by it whose RDATA is
the given octets. -/
def sampleNS (rd : List UInt8) : List UInt8 :=
  List.replicate 12 0 ++ [3, 119, 119, 119, 0] ++
  [0xC0, 12, 0, 2, 0, 1, 0, 0, 0, 9, 0, UInt8.ofNat rd.length] ++ rd

theorem sample_root (rd : List UInt8) (e : Nat) (h : 16 < e) :
    NameAt (sampleNS rd) e true 16 [] 1 := .root h (by simp [sampleNS, List.replicate])

theorem sample_www (rd : List UInt8) (e : Nat) (h : 16 < e) :
    NameAt (sampleNS rd) e true 12 [[119, 119, 119]] 5 :=
  .label (l := [119, 119, 119]) (by simp [sampleNS, List.replicate]) (by decide) (by decide)
    (by simp [sampleNS, List.replicate]) (sample_root rd e h)

theorem sample_head (rd : List UInt8) (fs : List Field) (h : rd.length < 256) :
    HeadAt (sampleNS rd) (29 + rd.length) 17 ⟨[[119, 119, 119]], 2, 1, 9, fs⟩ rd.length 29 := by
  refine ⟨2, .ptr (b1 := 0xC0) (b2 := 12) rfl (by omega) (by simp [sampleNS, List.replicate])
    (by simp [sampleNS, List.replicate]) (by decide) (by decide) (sample_www rd _ (by omega)),
    (show Valid [[119, 119, 119]] from ⟨by decide, by decide⟩), rfl, ?_, ?_, ?_, ?_, by omega⟩
  · simp [sampleNS, List.replicate, slice, num]
  · simp [sampleNS, List.replicate, slice, num]
  · simp [sampleNS, List.replicate, slice, num]
  · simp [sampleNS, List.replicate, slice, num]; omega

/-- Non-vacuity of the theorems above: a compressed NS record is parsed. -/
example : fromWire (sampleNS [0xC0, 12]) 17 31 false =
    .ok (some ⟨[3, 119, 119, 119, 0], 2, 1, 9, [3, 119, 119, 119, 0]⟩, 31) := by
  rw [C38_parse_exact _ _ _ _ _ (by decide) (by decide)]
  exact ⟨⟨[[119, 119, 119]], 2, 1, 9, [.name [[119, 119, 119]]]⟩,
    ⟨2, 29, sample_head [0xC0, 12] _ (by decide), rfl, .inr ⟨by decide, ⟨31, .name (b := .comprName) rfl
      (.ptr (b1 := 0xC0) (b2 := 12) rfl (by decide) rfl rfl (by decide) (by decide)
        (sample_www _ _ (by decide))) ⟨by decide, by decide⟩ .done⟩, by decide, by decide⟩⟩, rfl⟩

/-- C38, finding. Two octets behind a compressed name in RDATA go unnoticed: the length check
compares RDLENGTH with the decompressed length. -/
theorem C38_trailing_accepted :
    fromWire (sampleNS [0xC0, 12, 0xFF, 0xFF]) 17 33 false =
      .ok (some ⟨[3, 119, 119, 119, 0], 2, 1, 9, [3, 119, 119, 119, 0]⟩, 33) := by
  rw [C38_parse_exact _ _ _ _ _ (by decide) (by decide)]
  exact ⟨⟨[[119, 119, 119]], 2, 1, 9, [.name [[119, 119, 119]]]⟩,
    ⟨4, 29, sample_head [0xC0, 12, 0xFF, 0xFF] _ (by decide), rfl,
      .inr ⟨by decide, ⟨31, .name (b := .comprName) rfl
      (.ptr (b1 := 0xC0) (b2 := 12) rfl (by decide) rfl rfl (by decide) (by decide)
        (sample_www _ _ (by decide))) ⟨by decide, by decide⟩ .done⟩, by decide, by decide⟩⟩, rfl⟩

/-- C38, finding. A record whose RDATA is a pointer to the root name is well-formed but is
rejected, because decompression makes it shorter than RDLENGTH. -/
theorem C38_root_pointer_rejected :
    RRAt (sampleNS [0xC0, 16]) 31 17 ⟨[[119, 119, 119]], 2, 1, 9, [.name []]⟩ 31 ∧
    fromWire (sampleNS [0xC0, 16]) 17 31 false = .err .emalf := by
  have hh : ∀ fs, HeadAt (sampleNS [0xC0, 16]) 31 17 ⟨[[119, 119, 119]], 2, 1, 9, fs⟩ 2 29 :=
    fun fs => sample_head [0xC0, 16] fs (by decide)
  have hrd : RdAt (sampleNS [0xC0, 16]) 31 (parseDesc 2).blocks 29 [.name []] 31 :=
    .name (b := .comprName) rfl
      (.ptr (b1 := 0xC0) (b2 := 16) rfl (by decide) rfl rfl (by decide) (by decide)
        (sample_root _ _ (by decide))) ⟨by decide, by decide⟩ .done
  refine ⟨⟨2, 29, hh _, rfl, .inr ⟨by decide, hrd⟩⟩, ?_⟩
  have ht := (traverse_ok (mem := sampleNS [0xC0, 16]) (parseDesc 2).blocks
    (s := ⟨29, 2, [], 65535⟩) (by decide)).mpr ⟨_, _, hrd, by decide, rfl⟩
  unfold fromWire
  rw [if_neg (by decide), (parseHeader_ok (by decide) (by decide)).mpr ⟨_, rfl, hh⟩]
  simp only [Res.bind_ok]
  show (parseRdata (sampleNS [0xC0, 16]) 29 31 2 1 2 >>= _) = _
  unfold parseRdata
  rw [if_neg (by decide), if_neg (by decide)]
  simp only [ht, asMalf, Res.bind_ok]
  rw [if_pos (by decide)]
  rfl

end Knot
