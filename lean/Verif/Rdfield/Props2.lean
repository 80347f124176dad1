import Verif.Rdfield.Props
import Verif.Rdfield.Lemmas4
import Verif.Dname.Props
/-!
# C47: code that reads the fields of RDATA of zone records; findings
-/
namespace Knot
open Rdfield
open Knot.Dname (Name NameAt Valid wire lowerName nameLen)
open Knot.Rrwire (RR Rec Field AcceptAt encAll num slice parseDesc emptyAllowed)
open Knot.Pktparse (PP parse Message deliver Delivered)

/-! ## Zone records -/

/-- C47: the name in RDATA is recognised as below the apex exactly if it is, apex excluded. -/
theorem C47_additional (type k : Nat) (d : List UInt8) (name apex : Name) (rest r : List UInt8) (hk : namePrefix type = some k)
    (h : NameRd k d name rest) (ha : Valid apex) :
    additionalBelow type d (wire apex ++ r) = .ok (decide (apex <:+ name ∧ name ≠ apex)) := by
  have hn := name_fields hk h
  obtain ⟨_, _, hv, _⟩ := h
  unfold additionalBelow
  rw [hn, Res.bind_ok]
  dsimp only
  rw [C05_in_bailiwick name apex rest r hv ha]
  by_cases hs : apex <:+ name
  · rw [if_pos hs]
    dsimp only
    congr 1
    obtain ⟨t, rfl⟩ := hs
    cases t with
    | nil => simp
    | cons x t =>
      have : x :: t ++ apex ≠ apex := by
        intro e
        have := congrArg List.length e
        simp at this
        omega
      rw [List.length_append, Nat.add_sub_cancel]
      simp only [this, ne_eq, not_false_iff, and_true, List.length_cons, Nat.zero_lt_succ, decide_true]
      exact (decide_eq_true (List.suffix_append _ _)).symm
  · rw [if_neg hs]
    simp [hs]

/-- C47: a type is taken for signed exactly if some RRSIG of the node covers it. -/
theorem C47_signed (type : Nat) (ds : List (List UInt8)) (h : ∀ d ∈ ds, d.length < 65536 ∧ ∃ s, RrsigRd d s) :
    ∃ b, isSigned type ds = .ok b ∧ (b = true ↔ ∃ d ∈ ds, ∃ s, RrsigRd d s ∧ s.covered = type) := by
  induction ds with
  | nil => exact ⟨false, rfl, by simp⟩
  | cons d ds ih =>
    obtain ⟨hd, s, hs⟩ := h d List.mem_cons_self
    obtain ⟨b, hb, hi⟩ := ih (fun x hx => h x (List.mem_cons_of_mem _ hx))
    have hc := (rrsig_fields hs hd).1
    unfold isSigned
    rw [hc, Res.bind_ok]
    by_cases he : s.covered = type
    · rw [if_pos he]
      exact ⟨true, rfl, by simp only [true_iff]; exact ⟨d, List.mem_cons_self, s, hs, he⟩⟩
    · rw [if_neg he]
      refine ⟨b, hb, ?_⟩
      rw [hi]
      constructor
      · rintro ⟨x, hx, y⟩; exact ⟨x, List.mem_cons_of_mem _ hx, y⟩
      · rintro ⟨x, hx, s', hs', e⟩
        rcases List.mem_cons.mp hx with rfl | hx
        · have := (rrsig_fields hs' hd).1
          rw [hc] at this
          injection this with this
          rw [this] at he
          exact absurd e he
        · exact ⟨x, hx, s', hs', e⟩

/-- C47: an NSEC3 record belongs to the chain of the given parameters exactly if algorithm, iterations and salt are equal. -/
theorem C47_params_match (d : List UInt8) (s : Nsec3) (p : Params) (h : Nsec3Rd d s) (hd : d.length < 65536) :
    paramsMatch d p = .ok (decide (s.alg = p.alg ∧ s.iters = p.iters ∧ s.salt = p.salt)) := by
  obtain ⟨h1, h2, h3, h4, h5, _⟩ := nsec3_fields h hd
  unfold paramsMatch
  rw [h1, Res.bind_ok]
  by_cases e1 : s.alg = p.alg
  · rw [if_neg (by simp [e1]), h3, Res.bind_ok]
    by_cases e2 : s.iters = p.iters
    · rw [if_neg (by simp [e2]), h4, Res.bind_ok]
      by_cases e3 : s.salt.length = p.salt.length
      · rw [if_neg (by simp [e3])]
        unfold nsec3Salt at h5
        rw [h4, Res.bind_ok, e3] at h5
        rw [h5, Res.bind_ok]
        simp [e1, e2]
      · rw [if_pos e3]
        have : s.salt ≠ p.salt := fun e => e3 (by rw [e])
        simp [this]
    · rw [if_pos e2]; simp [e2]
  · rw [if_pos e1]; simp [e1]

/-- C47: a DS record matches a key exactly if it is the one computed from the key for its digest type. -/
theorem C47_match_ds (create : Nat → Option (List UInt8)) (d : List UInt8) (tag alg type : Nat) (digest : List UInt8)
    (h : KeyRd d tag alg type digest) (hd : d.length < 65536) :
    matchDs create d = .ok (decide (create type = some d)) := by
  have ht : dsDigestType d = .ok type := (key_fields h hd).2.2.1
  unfold matchDs
  rw [ht, Res.bind_ok]
  cases create type with
  | none => rfl
  | some c => simp

/-- C47: verification of a zone by its ZONEMD records, six octets each at least: there has to be one; refused if two have the same scheme and
algorithm; not supported without a usable one; otherwise decided by the last usable one, whose digest has to begin with
that of the zone; a digest shorter than its algorithm says is read out of bounds. -/
theorem C47_zonemd_verify (digest : Nat → List UInt8) (serial : Nat) (ds : List (List UInt8))
    (h6 : ∀ d ∈ ds, 6 ≤ d.length) (hdig : ∀ a, a = 1 ∨ a = 2 → (digest a).length = digestLen a) :
    zonemdVerify (fun a => .ok (digest a)) serial ds =
      if ds = [] then .err .enoent
      else if (ds.map (fun d => (zmScheme d, zmAlg d))).Nodup then
        match lastUsable serial ds with
        | none => .err .enotsup
        | some d =>
          if d.length < 6 + digestLen (zmAlg d) then .ub
          else if (d.drop 6).take (digestLen (zmAlg d)) = digest (zmAlg d) then .ok () else .err .emalf
      else .err .esemcheck := by
  unfold zonemdVerify
  by_cases hne : ds = []
  · rw [if_pos hne, if_pos hne]
  rw [if_neg hne, if_neg hne, pick_eq (done := []) (found := none) (by simpa using h6) (by simp) rfl]
  simp only [List.nil_append]
  by_cases hn : (ds.map (fun d => (zmScheme d, zmAlg d))).Nodup
  · rw [if_pos hn, if_pos hn, Res.bind_ok]
    cases hl : lastUsable serial ds with
    | none => rfl
    | some d =>
      dsimp only
      have hm := List.mem_of_getLast? hl
      rw [List.mem_filter] at hm
      have hd6 := h6 d hm.1
      have hu : zmAlg d = 1 ∨ zmAlg d = 2 := by
        have := hm.2
        simp only [zmUsable, decide_eq_true_eq] at this
        exact this.2.1
      obtain ⟨_, _, r3, r4⟩ := zm_reads hd6
      unfold verifyZonemd
      rw [r3, Res.bind_ok, Res.bind_ok, r4, Res.bind_ok, hdig _ hu, if_neg (by simp)]
      by_cases hlen : d.length < 6 + digestLen (zmAlg d)
      · rw [if_pos hlen, load_ub hlen]; rfl
      · rw [if_neg hlen]
        unfold WireCtx.load
        rw [if_pos (by omega), Res.bind_ok]
  · rw [if_neg hn, if_neg hn]
    rfl

/-- A zone with a ZONEMD of scheme 1 and algorithm 1 for its serial is verified, the digest being that of the zone. -/
example : zonemdVerify (fun a => .ok (List.replicate (digestLen a) 7)) 5
    [[0, 0, 0, 5, 1, 9, 1], [0, 0, 0, 5, 1, 1] ++ List.replicate 48 7] = .ok () := by decide +kernel

/-- C47, finding: octets behind the digest are not seen, so a ZONEMD record with a digest of another length than that of its
algorithm is accepted (RFC 8976, 2.2.4 and 4). -/
theorem C47_zonemd_longer (digest : Nat → List UInt8) (extra : List UInt8)
    (hdig : ∀ a, a = 1 ∨ a = 2 → (digest a).length = digestLen a) :
    zonemdVerify (fun a => .ok (digest a)) 5 [[0, 0, 0, 5, 1, 1] ++ digest 1 ++ extra] = .ok () := by
  have h1 : (digest 1).length = 48 := hdig 1 (.inl rfl)
  rw [C47_zonemd_verify digest 5 _ (by simp) hdig, if_neg (by simp)]
  have e : zmAlg ([0, 0, 0, 5, 1, 1] ++ digest 1 ++ extra) = 1 := by simp [zmAlg, num]
  have hl : lastUsable 5 [[0, 0, 0, 5, 1, 1] ++ digest 1 ++ extra] = some ([0, 0, 0, 5, 1, 1] ++ digest 1 ++ extra) := by
    have : zmUsable 5 ([0, 0, 0, 5, 1, 1] ++ digest 1 ++ extra) = true := by
      simp [zmUsable, zmAlg, zmScheme, zmSerial, num]
    unfold lastUsable
    rw [List.filter_cons_of_pos this]
    rfl
  rw [if_pos (by simp), hl]
  dsimp only
  rw [e, if_neg (by simp [digestLen, h1]), if_pos]
  simp [digestLen, ← h1]

/-! ## Records of received messages that are read out of bounds -/

/-- C47, finding: whatever octets a message has as RDATA of a DS, DNSKEY, NSEC3, NSEC3PARAM, ZONEMD, SVCB or HTTPS record
are accepted as they are. -/
theorem C47_unchecked (keep canon : Bool) (type : Nat) (d : List UInt8) (ht : type ∈ [43, 48, 50, 51, 63, 64, 65]) (hd : d ≠ [])
    (hl : d.length < 65536) :
    ∃ mem p, parse keep canon mem mem.length = .ok p ∧ p.rrs = [⟨[0], type, 1, 0, d⟩] := by
  have hb : (parseDesc type).blocks = [.remainder] ∧ type < 65536 ∧ type ≠ 41 ∧ type ≠ 250 := by
    simp only [List.mem_cons, List.not_mem_nil, or_false] at ht
    rcases ht with h | h | h | h | h | h | h <;> rw [h] <;> decide
  have hm := msgOf_message (auth := false) (rclass := 1) (d := d) (fs := [.raw d]) hb.2.1 (by omega) hl hb.2.2.1 hb.2.2.2
    (.inr ⟨hd, msgOf_remainder hb.1, by simp [encAll, Field.enc]⟩)
  obtain ⟨p, hp, hdel⟩ := C39_complete keep canon _ _ _ _ _ _ (by rw [msgOf_length]; exact Nat.le_refl _) hm
  refine ⟨_, p, by rw [msgOf_length]; exact hp, ?_⟩
  rw [hdel.records]
  cases canon
  · simp [deliver, encAll, Field.enc, wire]
  · simp [deliver, Rec.canon, Field.lower, encAll, Field.enc, wire, lowerName]

/-- C47, finding: so there are messages whose records the following code reads out of bounds: the comparison of NSEC3
parameters, of DS records with a key, the verification of ZONEMD, the search of additional records of SVCB and HTTPS. -/
theorem C47_short (create : Nat → Option (List UInt8)) (digest : Nat → Res (List UInt8)) :
    (∀ p : Params, p.alg = 1 → paramsMatch [1] p = .ub) ∧ matchDs create [0, 1, 8] = .ub ∧
    zonemdVerify digest 5 [[0, 0, 0, 5]] = .ub ∧
    additionalBelow 64 [0] [0] = .ub ∧ additionalBelow 65 [0, 1, 3, 97] [0] = .ub := by
  refine ⟨?_, rfl, rfl, by decide +kernel, by decide +kernel⟩
  intro p hp
  unfold paramsMatch
  have h1 : nsec3Alg [1] = .ok 1 := by decide +kernel
  have h2 : nsec3Iters [1] = .ub := by decide +kernel
  rw [h1, Res.bind_ok, if_neg (by simp [hp]), h2]
  rfl

/-- C47, finding: a message with a SOA or RRSIG record without RDATA, of another class than IN, is accepted. -/
theorem Rdfield.msgOf_empty (auth : Bool) (type : Nat) (ht : type = 6 ∨ type = 46) :
    Message (msgOf auth type 3 []) 28 (some []) (if auth then [] else [⟨[], type, 3, 0, []⟩])
      (if auth then [⟨[], type, 3, 0, []⟩] else []) [] := by
  have := msgOf_message (auth := auth) (type := type) (rclass := 3) (d := []) (fs := []) (by omega) (by omega) (by simp)
    (by omega) (by omega) (.inl ⟨rfl, rfl, by rcases ht with rfl | rfl <;> (unfold emptyAllowed; decide)⟩)
  exact this

/-- C47, finding: with a SOA record without RDATA in the authority section, an IXFR query makes the server read out of bounds;
in the answer section, a NOTIFY does, and the answer to a SOA query. -/
theorem C47_empty_soa :
    (∃ mem p, parse true true mem mem.length = .ok p ∧ ixfrQuerySerial p = .ub) ∧
    (∃ mem p, parse true true mem mem.length = .ok p ∧ notifySerial p = .ub) ∧
    (∃ mem p, parse true false mem mem.length = .ok p ∧ soaAnswerSerial p = .ub) := by
  refine ⟨?_, ?_, ?_⟩
  · obtain ⟨p, h1, _, h2⟩ := C47_ixfr_query true _ 28 _ _ _ _ (Nat.le_refl _) (msgOf_empty true 6 (.inl rfl))
    exact ⟨msgOf true 6 3 [], p, h1, h2.mpr ⟨[], _, rfl, rfl, rfl, rfl, rfl⟩⟩
  · obtain ⟨p, h1, _, h2, _⟩ := C47_notify true true _ 28 _ _ _ _ (Nat.le_refl _) (msgOf_empty false 6 (.inl rfl))
    exact ⟨msgOf false 6 3 [], p, h1, h2.mpr ⟨_, rfl, rfl, rfl⟩⟩
  · obtain ⟨p, h1, _, h2⟩ := C47_soa_answer true false _ 28 _ _ _ _ (Nat.le_refl _) (msgOf_empty false 6 (.inl rfl))
    exact ⟨msgOf false 6 3 [], p, h1, h2.mpr ⟨_, rfl, rfl, rfl⟩⟩

/-- C47, finding: an RRSIG without RDATA is accepted too, and makes the check whether a type is signed read out of bounds. -/
theorem C47_empty_rrsig (type : Nat) :
    ∃ mem p rr, parse true false mem mem.length = .ok p ∧ rr ∈ p.rrs ∧ rr.type = 46 ∧ isSigned type [rr.rdata] = .ub := by
  obtain ⟨p, h1, h2⟩ := C39_complete true false _ 28 _ _ _ _ (Nat.le_refl _) (msgOf_empty false 46 (.inr rfl))
  refine ⟨msgOf false 46 3 [], p, ⟨[0], 46, 3, 0, []⟩, h1, ?_, rfl, rfl⟩
  rw [h2.records]
  simp [deliver, encAll, wire]

/-! ## The hypotheses can be met -/

/-- A SOA record with the root as both names and serial 7. -/
def Rdfield.exSoa : List UInt8 := [0, 0, 0, 0, 0, 7, 0, 0, 0, 1, 0, 0, 0, 2, 0, 0, 0, 3, 0, 0, 0, 4]

theorem Rdfield.exSoa_message (auth : Bool) :
    Message (msgOf auth 6 1 exSoa) 50 (some [])
      (if auth then [] else [⟨[], 6, 1, 0, [.name [], .name [], .raw (exSoa.drop 2)]⟩])
      (if auth then [⟨[], 6, 1, 0, [.name [], .name [], .raw (exSoa.drop 2)]⟩] else []) [] := by
  refine msgOf_message (auth := auth) (type := 6) (rclass := 1) (d := exSoa) (by omega) (by omega) (by decide) (by omega) (by omega)
    (.inr ⟨by decide, ?_, by cases auth <;> decide⟩)
  have hv : Valid [] := ⟨by simp, by simp [nameLen]⟩
  cases auth <;>
    exact .name rfl (.root (by decide) rfl) hv (.name rfl (.root (by decide) rfl) hv (.fixed (by decide) .done))

/-- The serial of an IXFR query, a NOTIFY and an answer. -/
example : (∃ mem p, parse true true mem mem.length = .ok p ∧ ixfrQuerySerial p = .ok 7) ∧
    (∃ mem p, parse true true mem mem.length = .ok p ∧ notifySerial p = .ok (some 7)) ∧
    (∃ mem p, parse true false mem mem.length = .ok p ∧ soaAnswerSerial p = .ok 7) := by
  refine ⟨?_, ?_, ?_⟩
  · obtain ⟨p, h1, h2, _⟩ := C47_ixfr_query true _ 50 _ _ _ _ (Nat.le_refl _) (exSoa_message true)
    exact ⟨msgOf true 6 1 exSoa, p, h1, (h2 7).mpr ⟨[], _, rfl, rfl, rfl, rfl, _, _, _, rfl, by decide⟩⟩
  · obtain ⟨p, h1, h2, _, _⟩ := C47_notify true true _ 50 _ _ _ _ (Nat.le_refl _) (exSoa_message false)
    exact ⟨msgOf false 6 1 exSoa, p, h1, (h2 7).mpr ⟨_, rfl, rfl, _, _, _, rfl, by decide⟩⟩
  · obtain ⟨p, h1, h2, _⟩ := C47_soa_answer true false _ 50 _ _ _ _ (Nat.le_refl _) (exSoa_message false)
    exact ⟨msgOf false 6 1 exSoa, p, h1, (h2 7).mpr ⟨_, rfl, rfl, _, _, _, rfl, by decide⟩⟩

/-- NSEC3 with salt `ab`, next `0102`, an empty bitmap; the parameters match. -/
example : paramsMatch [1, 0, 0, 5, 1, 0xab, 2, 1, 2] ⟨1, 0, 5, [0xab]⟩ = .ok true ∧
    paramsMatch [1, 0, 0, 5, 1, 0xab, 2, 1, 2] ⟨1, 0, 5, [0xac]⟩ = .ok false := by decide +kernel
example : Nsec3Rd [1, 0, 0, 5, 1, 0xab, 2, 1, 2] ⟨1, 0, 5, [0xab], [1, 2], []⟩ :=
  ⟨[1], [0], [0, 5], [1], [2], ⟨rfl, rfl⟩, ⟨rfl, rfl⟩, ⟨rfl, rfl⟩, ⟨rfl, rfl⟩, ⟨rfl, rfl⟩, rfl⟩
/-- MX 5 a.: below the root. -/
example : additionalBelow 15 [0, 5, 1, 97, 0] [0] = .ok true := by
  have hv : Valid [[97]] := ⟨by simp, by decide⟩
  have := C47_additional 15 2 [0, 5, 1, 97, 0] [[97]] [] [] [] rfl ⟨[0, 5], rfl, hv, rfl⟩ ⟨by simp, by decide⟩
  simpa [wire] using this
/-- DS of a key. -/
example : matchDs (fun t => if t = 2 then some [0, 9, 13, 2, 77] else none) [0, 9, 13, 2, 77] = .ok true := by decide +kernel
/-- RRSIG of a SOA. -/
example : isSigned 6 [[0, 6, 13, 0, 0, 0, 0, 1, 0, 0, 0, 2, 0, 0, 0, 1, 0, 9, 0, 42]] = .ok true ∧
    isSigned 2 [[0, 6, 13, 0, 0, 0, 0, 1, 0, 0, 0, 2, 0, 0, 0, 1, 0, 9, 0, 42]] = .ok false := by decide +kernel
example : RrsigRd [0, 6, 13, 0, 0, 0, 0, 1, 0, 0, 0, 2, 0, 0, 0, 1, 0, 9, 0, 42] ⟨6, 13, 0, 1, 2, 1, 9, [], [42]⟩ :=
  ⟨[0, 6], [13], [0], [0, 0, 0, 1], [0, 0, 0, 2], [0, 0, 0, 1], [0, 9], ⟨rfl, rfl⟩, ⟨rfl, rfl⟩, ⟨rfl, rfl⟩, ⟨rfl, rfl⟩, ⟨rfl, rfl⟩,
    ⟨rfl, rfl⟩, ⟨rfl, rfl⟩, ⟨by simp, by decide⟩, rfl⟩

end Knot
