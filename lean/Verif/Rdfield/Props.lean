import Verif.Rdfield.Lemmas3
import Verif.Serial.Props
/-!
# C47: fields of the RDATA of received records
-/
namespace Knot
open Rdfield
open Knot.Dname (Name NameAt Valid wire lowerName nameLen)
open Knot.Rrwire (RR Rec Field AcceptAt encAll num slice parseDesc emptyAllowed)
open Knot.Pktparse (PP parse Message deliver Delivered)

/-! ## Types whose layout is checked on receipt -/

/-- C47: a SOA record of a received message has no RDATA, which is possible in other classes than IN only, or
every accessor gives its field. -/
theorem C47_soa (keep canon : Bool) (mem : List UInt8) (size : Nat) (p : PP) (hs : size ≤ mem.length)
    (h : parse keep canon mem size = .ok p) (rr : RR) (hm : rr ∈ p.rrs) (ht : rr.type = 6) :
    (rr.rdata = [] ∧ rr.rclass ≠ 1) ∨
    ∃ s, SoaRd rr.rdata s ∧ (∃ r, soaPrimary rr.rdata = .ok (wire s.primary ++ r)) ∧
      (∃ r, soaMailbox rr.rdata = .ok (wire s.mailbox ++ r)) ∧ soaSerial rr.rdata = .ok s.serial ∧
      soaRefresh rr.rdata = .ok s.refresh ∧ soaRetry rr.rdata = .ok s.retry ∧
      soaExpire rr.rdata = .ok s.expire ∧ soaMinimum rr.rdata = .ok s.minimum := by
  rcases received_shape hs h hm with ⟨h1, h2⟩ | ⟨fs, h1, h2, h3, h4⟩
  · rw [ht] at h2
    exact Or.inl ⟨h1, empty_class h2 (by decide) (by decide) (by decide)⟩
  · right
    rw [ht, desc_soa] at h1
    obtain ⟨s, hsoa⟩ := soa_shape h1
    rw [← h2] at hsoa
    exact ⟨s, hsoa, soa_fields hsoa⟩

/-- C47: setting the serial of a SOA record changes the serial and nothing else. -/
theorem C47_soa_set (d : List UInt8) (s : Soa) (h : SoaRd d s) (v : Nat) (hv : v < 4294967296) :
    ∃ d', soaSerialSet d v = .ok d' ∧ SoaRd d' { s with serial := v } ∧ d'.length = d.length ∧
      soaSerial d' = .ok v := by
  obtain ⟨d', h1, h2⟩ := soa_set h v hv
  refine ⟨d', h1, h2, ?_, (soa_fields h2).2.2.1⟩
  obtain ⟨a, b, c, e, f, g1, g2, g3, g4, g5, g6, g7, rfl⟩ := h
  obtain ⟨a', b', c', e', f', k1, k2, k3, k4, k5, k6, k7, rfl⟩ := h2
  simp only [List.length_append, g3.1, g4.1, g5.1, g6.1, g7.1, k3.1, k4.1, k5.1, k6.1, k7.1]

/-- C47: the same for RRSIG. -/
theorem C47_rrsig (keep canon : Bool) (mem : List UInt8) (size : Nat) (p : PP) (hs : size ≤ mem.length)
    (h : parse keep canon mem size = .ok p) (rr : RR) (hm : rr ∈ p.rrs) (ht : rr.type = 46) :
    (rr.rdata = [] ∧ rr.rclass ≠ 1) ∨
    ∃ s, RrsigRd rr.rdata s ∧ rrsigCovered rr.rdata = .ok s.covered ∧ rrsigAlg rr.rdata = .ok s.alg ∧
      rrsigLabels rr.rdata = .ok s.labels ∧ rrsigTtl rr.rdata = .ok s.ttl ∧
      rrsigExpiration rr.rdata = .ok s.expiration ∧ rrsigInception rr.rdata = .ok s.inception ∧
      rrsigKeyTag rr.rdata = .ok s.keyTag ∧ (∃ r, rrsigSigner rr.rdata = .ok (wire s.signer ++ r)) ∧
      rrsigSignatureLen rr.rdata = .ok s.signature.length ∧ rrsigSignature rr.rdata = .ok s.signature := by
  rcases received_shape hs h hm with ⟨h1, h2⟩ | ⟨fs, h1, h2, h3, h4⟩
  · rw [ht] at h2
    exact Or.inl ⟨h1, empty_class h2 (by decide) (by decide) (by decide)⟩
  · right
    rw [ht, desc_rrsig] at h1
    obtain ⟨s, hsig⟩ := rrsig_shape h1
    rw [← h2] at hsig
    exact ⟨s, hsig, rrsig_fields hsig h4⟩

/-- C47: the same for NSEC. -/
theorem C47_nsec (keep canon : Bool) (mem : List UInt8) (size : Nat) (p : PP) (hs : size ≤ mem.length)
    (h : parse keep canon mem size = .ok p) (rr : RR) (hm : rr ∈ p.rrs) (ht : rr.type = 47) :
    (rr.rdata = [] ∧ rr.rclass ≠ 1) ∨
    ∃ next bitmap, NsecRd rr.rdata next bitmap ∧ (∃ r, nsecNext rr.rdata = .ok (wire next ++ r)) ∧
      nsecBitmapLen rr.rdata = .ok bitmap.length ∧ nsecBitmap rr.rdata = .ok bitmap := by
  rcases received_shape hs h hm with ⟨h1, h2⟩ | ⟨fs, h1, h2, h3, h4⟩
  · rw [ht] at h2
    exact Or.inl ⟨h1, empty_class h2 (by decide) (by decide) (by decide)⟩
  · right
    rw [ht, desc_nsec] at h1
    obtain ⟨n, b, hn⟩ := nsec_shape h1
    rw [← h2] at hn
    exact ⟨n, b, hn, nsec_fields hn h4⟩

/-- C47: the same for the name in NS, CNAME, PTR, DNAME, MX and SRV. -/
theorem C47_name (keep canon : Bool) (mem : List UInt8) (size : Nat) (p : PP) (hs : size ≤ mem.length)
    (h : parse keep canon mem size = .ok p) (rr : RR) (hm : rr ∈ p.rrs) (ht : rr.type ∈ [2, 5, 12, 39, 15, 33]) :
    (rr.rdata = [] ∧ rr.rclass ≠ 1) ∨
    ∃ k name, namePrefix rr.type = some k ∧ NameRd k rr.rdata name [] ∧
      rdataName rr.type rr.rdata = .ok (some (wire name)) := by
  have hsome : ∃ k, namePrefix rr.type = some k := by
    simp only [List.mem_cons, List.not_mem_nil, or_false] at ht
    rcases ht with h | h | h | h | h | h <;> rw [h] <;> exact ⟨_, rfl⟩
  have hn : rr.type ≠ 42 ∧ rr.type ≠ 10 ∧ rr.type ≠ 64 ∧ rr.type ≠ 65 ∧ (parseDesc rr.type).named = true := by
    simp only [List.mem_cons, List.not_mem_nil, or_false] at ht
    rcases ht with h | h | h | h | h | h <;> rw [h] <;> decide
  rcases received_shape hs h hm with ⟨h1, h2⟩ | ⟨fs, h1, h2, h3, h4⟩
  · exact Or.inl ⟨h1, empty_class h2 hn.1 hn.2.1 hn.2.2.2.2⟩
  · right
    obtain ⟨k, hk⟩ := hsome
    obtain ⟨n, hname⟩ := name_shape hk hn.2.2.1 hn.2.2.2.1 h1
    rw [← h2] at hname
    refine ⟨k, n, hk, hname, ?_⟩
    rw [name_fields hk hname, List.append_nil]

/-! ## Types whose layout is not checked on receipt -/

/-- C47: NSEC3 RDATA are well-formed, and every accessor gives its field, or reading the bitmap leaves the RDATA. -/
theorem C47_nsec3 (d : List UInt8) (hd : d.length < 65536) :
    (∃ s, Nsec3Rd d s ∧ nsec3Alg d = .ok s.alg ∧ nsec3Flags d = .ok s.flags ∧ nsec3Iters d = .ok s.iters ∧
      nsec3SaltLen d = .ok s.salt.length ∧ nsec3Salt d = .ok s.salt ∧ nsec3NextLen d = .ok s.next.length ∧
      nsec3Next d = .ok s.next ∧ nsec3BitmapLen d = .ok s.bitmap.length ∧ nsec3Bitmap d = .ok s.bitmap) ∨
    ((∀ s, ¬ Nsec3Rd d s) ∧ nsec3Bitmap d = .ub) := by
  by_cases h : ∃ s, Nsec3Rd d s
  · obtain ⟨s, h⟩ := h
    exact Or.inl ⟨s, h, nsec3_fields h hd⟩
  · have h' : ∀ s, ¬ Nsec3Rd d s := fun s hs => h ⟨s, hs⟩
    exact Or.inr ⟨h', nsec3_bad h'⟩

/-- C47: a DNSKEY of four octets at least has its fields; with less, reading the algorithm or the key leaves
the RDATA, and the length of the key is wrong. -/
theorem C47_dnskey (d : List UInt8) (hd : d.length < 65536) :
    (∃ flags proto alg key, KeyRd d flags proto alg key ∧ dnskeyFlags d = .ok flags ∧ dnskeyProto d = .ok proto ∧
      dnskeyAlg d = .ok alg ∧ dnskeyKeyLen d = key.length ∧ dnskeyKey d = .ok key) ∨
    (d.length < 4 ∧ dnskeyAlg d = .ub ∧ dnskeyKey d = .ub ∧ 65532 ≤ dnskeyKeyLen d) := by
  by_cases h : 4 ≤ d.length
  · obtain ⟨x, y, z, r, hk⟩ := key_exists h
    obtain ⟨h1, h2, h3, h4, h5⟩ := key_fields hk hd
    refine Or.inl ⟨x, y, z, r, hk, h1, h2, h3, h4, ?_⟩
    unfold dnskeyKey dnskeyKeyLen
    rw [h4]; exact h5
  · refine Or.inr ⟨by omega, (key_bad (by omega)).1, (key_bad (by omega)).2 _, ?_⟩
    unfold dnskeyKeyLen len16
    omega

/-- C47: the same for DS. -/
theorem C47_ds (d : List UInt8) (hd : d.length < 65536) :
    (∃ tag alg type digest, KeyRd d tag alg type digest ∧ dsKeyTag d = .ok tag ∧ dsAlg d = .ok alg ∧
      dsDigestType d = .ok type ∧ dsDigestLen d = digest.length ∧ dsDigest d = .ok digest) ∨
    (d.length < 4 ∧ dsDigestType d = .ub ∧ dsDigest d = .ub ∧ 65532 ≤ dsDigestLen d) := by
  by_cases h : 4 ≤ d.length
  · obtain ⟨x, y, z, r, hk⟩ := key_exists h
    obtain ⟨h1, h2, h3, h4, h5⟩ := key_fields hk hd
    refine Or.inl ⟨x, y, z, r, hk, h1, h2, h3, h4, ?_⟩
    unfold dsDigest dsDigestLen
    rw [h4]; exact h5
  · refine Or.inr ⟨by omega, (key_bad (by omega)).1, (key_bad (by omega)).2 _, ?_⟩
    unfold dsDigestLen len16
    omega

/-- C47: a ZONEMD of six octets at least has its numbers, and its digest can be read exactly if it is as long as the
algorithm requires; with less, reading the algorithm leaves the RDATA. -/
theorem C47_zonemd (d : List UInt8) :
    (∃ serial scheme alg digest, ZonemdRd d serial scheme alg digest ∧ zonemdSerial d = .ok serial ∧
      zonemdScheme d = .ok scheme ∧ zonemdAlg d = .ok alg ∧ zonemdDigestSize d = .ok (digestLen alg) ∧
      zonemdDigest d = if digestLen alg ≤ digest.length then .ok (digest.take (digestLen alg)) else .ub) ∨
    (d.length < 6 ∧ zonemdAlg d = .ub) := by
  by_cases h : 6 ≤ d.length
  · obtain ⟨x, y, z, r, hk⟩ := zonemd_exists h
    obtain ⟨h1, h2, h3, h4, h5⟩ := zonemd_fields hk
    refine Or.inl ⟨x, y, z, r, hk, h1, h2, h3, h4, ?_⟩
    unfold zonemdDigest
    rw [h4, Res.bind_ok, h5]
  · exact Or.inr ⟨by omega, readBE_ub (by omega)⟩

/-- C47: parameters are read from NSEC3PARAM RDATA exactly if these are well-formed, safely in any case. -/
theorem C47_nsec3param (d : List UInt8) :
    paramsFromRdata d ≠ .ub ∧
    ∀ q : Params, paramsFromRdata d = .ok q ↔ Nsec3ParamRd d q.alg q.flags q.iters q.salt := by
  by_cases h5 : d.length < 5
  · have e : paramsFromRdata d = .err .malformed := by unfold paramsFromRdata; rw [if_pos h5]
    rw [e]
    refine ⟨by simp, ?_⟩
    intro q
    simp only [reduceCtorEq, false_iff]
    rintro ⟨a, b, c, e, h1, h2, h3, h4, rfl⟩
    simp only [List.length_append, h1.1, h2.1, h3.1, h4.1] at h5
    omega
  · obtain ⟨a, d1, ha, l1, rfl⟩ := cut d 1 (by omega)
    simp only [List.length_append] at h5 l1
    obtain ⟨b, d2, hb, l2, rfl⟩ := cut d1 1 (by omega)
    simp only [List.length_append] at h5 l1 l2
    obtain ⟨c, d3, hc, l3, rfl⟩ := cut d2 2 (by omega)
    simp only [List.length_append] at h5 l1 l2 l3
    obtain ⟨e, d4, he, l4, rfl⟩ := cut d3 1 (by omega)
    simp only [List.length_append] at h5 l1 l2 l3 l4
    have k1 : nsec3Alg (a ++ (b ++ (c ++ (e ++ d4)))) = .ok (num a) := readBE_mid (p := []) rfl ⟨ha, rfl⟩
    have k2 : nsec3Flags (a ++ (b ++ (c ++ (e ++ d4)))) = .ok (num b) := readBE_mid ha ⟨hb, rfl⟩
    have k3 : nsec3Iters (a ++ (b ++ (c ++ (e ++ d4)))) = .ok (num c) := by
      have := readBE_mid (p := a ++ b) (off := 2) (q := e ++ d4) (by simp; omega) (⟨hc, rfl⟩ : Octets 2 c (num c))
      simp only [List.append_assoc] at this; exact this
    have k4 : nsec3SaltLen (a ++ (b ++ (c ++ (e ++ d4)))) = .ok (num e) := by
      have := readBE_mid (p := a ++ (b ++ c)) (off := 4) (q := d4) (by simp; omega) (⟨he, rfl⟩ : Octets 1 e (num e))
      simp only [List.append_assoc] at this; exact this
    have hl : (a ++ (b ++ (c ++ (e ++ d4)))).length - 5 = d4.length := by simp only [List.length_append]; omega
    have hload : WireCtx.load (a ++ (b ++ (c ++ (e ++ d4)))) 5 d4.length = .ok d4 := by
      have := load_mid (p := a ++ (b ++ (c ++ e))) (off := 5) (b := d4) (q := []) (by simp; omega) rfl
      simp only [List.append_assoc, List.append_nil] at this; exact this
    have he' : paramsFromRdata (a ++ (b ++ (c ++ (e ++ d4)))) =
        if d4.length ≠ num e then .err .malformed else .ok ⟨num a, num b, num c, d4⟩ := by
      unfold paramsFromRdata
      rw [if_neg (by simp only [List.length_append]; omega), k1, Res.bind_ok, k2, Res.bind_ok, k3, Res.bind_ok, k4, Res.bind_ok, hl]
      split
      · rfl
      · rename_i hx
        have hx : d4.length = num e := by omega
        rw [← hx, hload, Res.bind_ok]
    rw [he']
    refine ⟨by split <;> simp, ?_⟩
    intro q
    constructor
    · intro hq
      split at hq
      · cases hq
      · rename_i hx
        injection hq with hq
        subst hq
        exact ⟨a, b, c, e, ⟨ha, rfl⟩, ⟨hb, rfl⟩, ⟨hc, rfl⟩, ⟨he, by simp only [ne_eq, Decidable.not_not] at hx; exact hx.symm⟩, by simp only [List.append_assoc]⟩
    · rintro ⟨a', b', c', e', h1, h2, h3, h4, heq⟩
      simp only [List.append_assoc] at heq
      obtain ⟨e1, heq1⟩ := List.append_inj heq (by rw [ha, h1.1])
      obtain ⟨e2, heq2⟩ := List.append_inj heq1 (by rw [hb, h2.1])
      obtain ⟨e3, heq3⟩ := List.append_inj heq2 (by rw [hc, h3.1])
      obtain ⟨e4, e5⟩ := List.append_inj heq3 (by rw [he, h4.1])
      rw [e1, e2, e3, e4, e5, if_neg (by rw [h4.2]; simp), h1.2, h2.2, h3.2]

/-! ## The serial in messages -/

theorem Rdfield.map_ok {α β : Type} (f : α → β) (x : α) : (f <$> Res.ok x) = .ok (f x) := rfl
theorem Rdfield.map_ub {α β : Type} (f : α → β) : (f <$> (Res.ub : Res α)) = .ub := rfl

theorem Rdfield.section_head {keep canon : Bool} {mem : List UInt8} {size : Nat} {q : Option Name} {an ns ar : List Rec} {p : PP}
    (hd : Delivered keep canon mem size q an ns ar p) :
    sectionRR p 0 0 = an.head?.map (deliver canon) ∧ sectionRR p 1 0 = ns.head?.map (deliver canon) := by
  unfold sectionRR
  rw [hd.records, hd.counts.1, hd.counts.2.1, hd.starts.1, hd.starts.2.1]
  constructor
  · cases an with
    | nil => simp
    | cons a an => simp
  · cases ns with
    | nil => simp
    | cons a ns => simp

theorem Rdfield.message_accept {mem : List UInt8} {size : Nat} {q : Option Name} {an ns ar : List Rec}
    (hm : Message mem size q an ns ar) : ∀ r ∈ an ++ ns ++ ar, ∃ a b, AcceptAt mem size a r b := by
  obtain ⟨pos, _, h⟩ := hm.records
  exact recs_mem h

theorem Rdfield.soa_serial_iff {canon : Bool} {mem : List UInt8} {size pos stop : Nat} {r : Rec} (hs : size ≤ mem.length)
    (h : AcceptAt mem size pos r stop) (ht : r.type = 6) :
    (∀ v, soaSerial (deliver canon r).rdata = .ok v ↔ ∃ m n d, r.rdata = [.name m, .name n, .raw d] ∧ v = num (d.take 4)) ∧
    (soaSerial (deliver canon r).rdata = .ub ↔ r.rdata = []) ∧ (∀ e, soaSerial (deliver canon r).rdata ≠ .err e) := by
  rcases deliver_soa (canon := canon) hs h ht with ⟨g1, _, g3⟩ | ⟨m, n, d, g1, g2, g3⟩
  · rw [g3, g1]
    exact ⟨fun v => ⟨fun h => (by cases h), fun ⟨_, _, _, h, _⟩ => (by cases h)⟩, ⟨fun _ => rfl, fun _ => rfl⟩, fun e h => by cases h⟩
  · rw [g3, g1]
    refine ⟨fun v => ⟨fun h => ?_, ?_⟩, ⟨fun h => (by cases h), fun h => (by cases h)⟩, fun e h => by cases h⟩
    · injection h with h
      exact ⟨m, n, d, rfl, h.symm⟩
    · rintro ⟨m', n', d', e3, e4⟩
      injection e3 with _ e3
      injection e3 with _ e3
      injection e3 with e3 _
      injection e3 with e3
      rw [e4, e3]

/-- The SOA record `r` holds the serial `v`: the first four octets behind the two names. -/
def Rdfield.HoldsSerial (r : Rec) (v : Nat) : Prop :=
  r.type = 6 ∧ ∃ m n d, r.rdata = [.name m, .name n, .raw d] ∧ v = num (d.take 4)

/-- A SOA record without RDATA. -/
def Rdfield.EmptySoa (r : Rec) : Prop := r.type = 6 ∧ r.rdata = []

/-- C47: the serial of a NOTIFY message is that of the SOA record it starts its answer section with, if there is one; if
this record has no RDATA, its memory is read out of bounds. -/
theorem C47_notify (keep canon : Bool) (mem : List UInt8) (size : Nat) (q : Option Name) (an ns ar : List Rec)
    (hs : size ≤ mem.length) (hm : Message mem size q an ns ar) :
    ∃ p, parse keep canon mem size = .ok p ∧
      (∀ v, notifySerial p = .ok (some v) ↔ ∃ r, an.head? = some r ∧ HoldsSerial r v) ∧
      (notifySerial p = .ub ↔ ∃ r, an.head? = some r ∧ EmptySoa r) ∧
      (∀ e, notifySerial p ≠ .err e) := by
  obtain ⟨p, h1, h2⟩ := C39_complete keep canon mem size q an ns ar hs hm
  refine ⟨p, h1, ?_⟩
  unfold notifySerial HoldsSerial EmptySoa
  rw [(section_head h2).1]
  cases an with
  | nil => simp
  | cons r rest =>
    simp only [List.head?_cons, Option.map_some, Option.some.injEq, exists_eq_left']
    rw [Pktparse.deliver_type]
    by_cases h6 : r.type = 6
    · rw [if_pos h6]
      obtain ⟨a, b, hacc⟩ := message_accept hm r (by simp)
      obtain ⟨g1, g2, g3⟩ := soa_serial_iff (canon := canon) hs hacc h6
      simp only [h6, true_and]
      rw [← g2]
      simp only [← g1]
      cases hv : soaSerial (deliver canon r).rdata with
      | ok x => simp [map_ok]
      | err e => exact absurd hv (g3 e)
      | ub => simp [map_ub]
    · rw [if_neg h6]
      simp [h6]

/-- C47: the serial taken from an answer to a SOA query is that of the only record of its answer section. -/
theorem C47_soa_answer (keep canon : Bool) (mem : List UInt8) (size : Nat) (q : Option Name) (an ns ar : List Rec)
    (hs : size ≤ mem.length) (hm : Message mem size q an ns ar) :
    ∃ p, parse keep canon mem size = .ok p ∧
      (∀ v, soaAnswerSerial p = .ok v ↔ ∃ r, an = [r] ∧ HoldsSerial r v) ∧
      (soaAnswerSerial p = .ub ↔ ∃ r, an = [r] ∧ EmptySoa r) := by
  obtain ⟨p, h1, h2⟩ := C39_complete keep canon mem size q an ns ar hs hm
  refine ⟨p, h1, ?_⟩
  unfold soaAnswerSerial HoldsSerial EmptySoa
  rw [(section_head h2).1, h2.counts.1]
  match an, hm with
  | [], _ => simp
  | r :: s :: rest, _ => simp
  | [r], hm =>
    simp only [List.length_cons, List.length_nil, Nat.zero_add, if_true, List.head?_cons, Option.map_some,
      List.cons.injEq, and_true, exists_eq_left']
    rw [Pktparse.deliver_type]
    by_cases h6 : r.type = 6
    · obtain ⟨a, b, hacc⟩ := message_accept hm r (by simp)
      obtain ⟨g1, g2, g3⟩ := soa_serial_iff (canon := canon) hs hacc h6
      simp only [h6, true_and, ne_eq, not_true, if_false]
      exact ⟨g1, g2⟩
    · simp [h6]

/-- C47: the serial of the client of an IXFR query is that of the SOA record of the zone asked for that starts the
authority section. Queries are parsed with conversion to the canonical form. -/
theorem C47_ixfr_query (keep : Bool) (mem : List UInt8) (size : Nat) (q : Option Name) (an ns ar : List Rec)
    (hs : size ≤ mem.length) (hm : Message mem size q an ns ar) :
    ∃ p, parse keep true mem size = .ok p ∧
      (∀ v, ixfrQuerySerial p = .ok v ↔ ∃ qn r, q = some qn ∧ ns.head? = some r ∧
        lowerName qn = lowerName r.owner ∧ HoldsSerial r v) ∧
      (ixfrQuerySerial p = .ub ↔ ∃ qn r, q = some qn ∧ ns.head? = some r ∧
        lowerName qn = lowerName r.owner ∧ EmptySoa r) := by
  obtain ⟨p, h1, h2⟩ := C39_complete keep true mem size q an ns ar hs hm
  refine ⟨p, h1, ?_⟩
  unfold ixfrQuerySerial HoldsSerial EmptySoa
  rw [(section_head h2).2]
  cases ns with
  | nil => simp
  | cons r rest =>
    simp only [List.head?_cons, Option.map_some]
    rw [Pktparse.deliver_type]
    by_cases h6 : r.type = 6
    · obtain ⟨a, b, hacc⟩ := message_accept hm r (by simp)
      obtain ⟨g1, g2, g3⟩ := soa_serial_iff (canon := true) hs hacc h6
      simp only [h6, ne_eq, not_true, if_false]
      have hown : Valid r.owner := by
        obtain ⟨k, x, ⟨n, hh⟩, _⟩ := hacc
        exact hh.2.1
      obtain ⟨pos, hq, _⟩ := hm.records
      cases q with
      | none =>
        have h0 : p.qnameSize = 0 := h2.question
        unfold qnameIs
        rw [if_pos h0]
        simp
      | some qn =>
        obtain ⟨_, n, _, hv, _⟩ := hq
        obtain ⟨e1, e2, _⟩ := h2.question
        have hsame : qnameIs p (deliver true r).owner = .ok (decide (lowerName qn = lowerName r.owner)) := by
          unfold qnameIs
          rw [if_neg (by rw [e1, Dname.wire_length]; cases qn <;> simp [nameLen]), e2]
          have := (C04_equality (lowerName qn) (lowerName r.owner) [] [] (lowerName_valid hv) (lowerName_valid hown)).1
          simp only [List.append_nil] at this
          exact this
        rw [hsame, Res.bind_ok]
        by_cases hn : lowerName qn = lowerName r.owner
        · simp only [hn, decide_true, if_true]
          refine ⟨fun v => ?_, ?_⟩
          · rw [g1]
            constructor
            · rintro h; exact ⟨qn, r, rfl, rfl, hn, h6, h⟩
            · rintro ⟨_, _, _, e, _, _, h⟩; injection e with e; subst e; exact h
          · rw [g2]
            constructor
            · rintro h; exact ⟨qn, r, rfl, rfl, hn, h6, h⟩
            · rintro ⟨_, _, _, e, _, _, h⟩; injection e with e; subst e; exact h
        · simp only [hn, decide_false, Bool.false_eq_true, if_false]
          refine ⟨fun v => ⟨fun h => (by cases h), ?_⟩, ⟨fun h => (by cases h), ?_⟩⟩
          · rintro ⟨_, _, e0, e, h, _⟩
            injection e0 with e0
            injection e with e
            subst e0 e
            exact absurd h hn
          · rintro ⟨_, _, e0, e, h, _⟩
            injection e0 with e0
            injection e with e
            subst e0 e
            exact absurd h hn
    · simp only [h6, ne_eq, not_false_iff, if_true]
      refine ⟨fun v => ⟨fun h => (by cases h), ?_⟩, ⟨fun h => (by cases h), ?_⟩⟩
      · rintro ⟨_, _, _, e, _, h, _⟩
        injection e with e
        subst e
        exact absurd h h6
      · rintro ⟨_, _, _, e, _, h, _⟩
        injection e with e
        subst e
        exact absurd h h6

/-- C47: in a dynamic update, whose records are of the classes IN, NONE and ANY, no SOA record is read out of bounds; one of
class IN is skipped unless its serial is newer than that of the zone. -/
theorem C47_update (keep canon : Bool) (mem : List UInt8) (size : Nat) (p : PP) (hs : size ≤ mem.length)
    (h : parse keep canon mem size = .ok p) (rr : RR) (hm : rr ∈ p.rrs) (hc : rr.rclass ∈ [1, 254, 255]) (sn : Nat)
    (hsn : sn < 4294967296) :
    ∃ b, skipSoa rr sn = .ok b ∧ (b = true ↔ rr.type = 6 ∧ (rr.rclass ≠ 1 ∨ ∃ s, SoaRd rr.rdata s ∧ ¬ SerialLt sn s.serial)) := by
  unfold skipSoa
  by_cases h6 : rr.type = 6
  · rw [if_neg (by simp [h6])]
    by_cases h1 : rr.rclass = 1
    · rw [if_neg (by simp [h1])]
      rcases C47_soa keep canon mem size p hs h rr hm h6 with ⟨_, h2⟩ | ⟨s, hsd, _, _, hser, _⟩
      · exact absurd h1 h2
      · rw [hser, Res.bind_ok]
        have hlt : s.serial < 4294967296 := by
          obtain ⟨a, b, c, e, f, g1, g2, g3, _⟩ := hsd
          rw [← g3.2]
          exact num_four g3.1
        obtain ⟨c, hcmp⟩ := C08_compare_total s.serial sn
        rw [hcmp, Res.bind_ok]
        refine ⟨_, rfl, ?_⟩
        have hg := (C08_compare_rfc1982 s.serial sn hlt hsn).2.2.1
        rw [hcmp] at hg
        simp only [Res.ok.injEq] at hg
        simp only [decide_eq_true_eq, h6, true_and, h1, ne_eq, not_true, false_or]
        rw [hg]
        constructor
        · intro hn; exact ⟨s, hsd, hn⟩
        · rintro ⟨s', hsd', hn⟩
          have e := (soa_fields hsd').2.2.1
          rw [hser] at e
          injection e with e
          rw [e]; exact hn
    · have h2 : rr.rclass = 254 ∨ rr.rclass = 255 := by
        simp only [List.mem_cons, List.not_mem_nil, or_false] at hc
        rcases hc with h | h | h
        · exact absurd h h1
        · exact Or.inl h
        · exact Or.inr h
      rw [if_pos h2]
      exact ⟨true, rfl, by simp [h6, h1]⟩
  · rw [if_pos h6]
    exact ⟨false, rfl, by simp [h6]⟩

end Knot
