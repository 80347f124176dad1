import Verif.Rdfield.Lemmas2
/-! # Fields of types whose layout is not checked on receipt; the serial of a received SOA record -/
namespace Knot.Rdfield
open Knot
open Knot.Dname (Name Valid wire nameLen lowerName)
open Knot.Rrwire (num RR Rec Field Block RdAt AcceptAt encAll parseDesc emptyAllowed slice readBE)
open Knot.Pktparse (PP parse deliver RecsAt Message)

theorem readBE_ub {d : Bytes} {off k : Nat} (h : d.length < off + k) : readBE d off k = .ub := by
  rw [readBE_eq, if_neg (by omega)]

theorem load_ub {d : Bytes} {off k : Nat} (h : d.length < off + k) : WireCtx.load d off k = .ub := by
  unfold WireCtx.load
  rw [if_neg (by omega)]

theorem num_one (a : Bytes) (h : a.length = 1) : num a < 256 := by
  match a, h with
  | [x], _ => have := x.toNat_lt; simp only [num, List.foldl_cons, List.foldl_nil]; omega

theorem num_four {a : Bytes} (h : a.length = 4) : num a < 4294967296 := by
  match a, h with
  | [x, y, z, w], _ =>
    have := x.toNat_lt
    have := y.toNat_lt
    have := z.toNat_lt
    have := w.toNat_lt
    simp only [num, List.foldl_cons, List.foldl_nil]
    omega

/-! ## NSEC3 -/

theorem nsec3_fields {d : Bytes} {s : Nsec3} (h : Nsec3Rd d s) (hd : d.length < 65536) :
    nsec3Alg d = .ok s.alg ∧ nsec3Flags d = .ok s.flags ∧ nsec3Iters d = .ok s.iters ∧
    nsec3SaltLen d = .ok s.salt.length ∧ nsec3Salt d = .ok s.salt ∧ nsec3NextLen d = .ok s.next.length ∧
    nsec3Next d = .ok s.next ∧ nsec3BitmapLen d = .ok s.bitmap.length ∧ nsec3Bitmap d = .ok s.bitmap := by
  obtain ⟨a, b, c, e, f, h1, h2, h3, h4, h5, rfl⟩ := h
  have la := h1.1
  have lb := h2.1
  have lc := h3.1
  have le := h4.1
  have lf := h5.1
  simp only [List.append_assoc] at hd ⊢
  generalize hD : a ++ (b ++ (c ++ (e ++ (s.salt ++ (f ++ (s.next ++ s.bitmap)))))) = D at hd ⊢
  have k1 : nsec3Alg D = .ok s.alg := by rw [← hD]; exact readBE_mid (p := []) rfl h1
  have k2 : nsec3Flags D = .ok s.flags := by rw [← hD]; exact readBE_mid la h2
  have k3 : nsec3Iters D = .ok s.iters := by
    have := readBE_mid (p := a ++ b) (off := 2) (q := (e ++ (s.salt ++ (f ++ (s.next ++ s.bitmap))))) (by simp; omega) h3
    simp only [List.append_assoc] at this; rw [← hD]; exact this
  have k4 : nsec3SaltLen D = .ok s.salt.length := by
    have := readBE_mid (p := a ++ (b ++ c)) (off := 4) (q := ((s.salt ++ (f ++ (s.next ++ s.bitmap))))) (by simp; omega) h4
    simp only [List.append_assoc] at this; rw [← hD]; exact this
  have k5 : nsec3Salt D = .ok s.salt := by
    unfold nsec3Salt
    rw [k4]
    have := load_mid (p := a ++ (b ++ (c ++ e))) (off := 5) (b := s.salt) (q := (f ++ (s.next ++ s.bitmap))) (by simp; omega) rfl
    simp only [List.append_assoc] at this
    rw [Res.bind_ok, ← hD]; exact this
  have k6 : nsec3NextLen D = .ok s.next.length := by
    unfold nsec3NextLen
    rw [k4]
    have := readBE_mid (p := a ++ (b ++ (c ++ (e ++ s.salt)))) (off := 5 + s.salt.length) (q := (s.next ++ s.bitmap)) (by simp; omega) h5
    simp only [List.append_assoc] at this
    rw [Res.bind_ok, ← hD]; exact this
  have k7 : nsec3Next D = .ok s.next := by
    unfold nsec3Next
    rw [k4]; simp only [Res.bind_ok]; rw [k6]
    have := load_mid (p := a ++ (b ++ (c ++ (e ++ (s.salt ++ f))))) (off := 6 + s.salt.length) (b := s.next) (q := s.bitmap) (by simp; omega) rfl
    simp only [List.append_assoc] at this
    rw [Res.bind_ok, ← hD]; exact this
  have k8 : nsec3BitmapLen D = .ok s.bitmap.length := by
    unfold nsec3BitmapLen
    rw [k4]; simp only [Res.bind_ok]; rw [k6]; simp only [Res.bind_ok]
    congr 1
    have hl := congrArg List.length hD
    simp only [List.length_append] at hl
    unfold len16
    omega
  have k9 : nsec3Bitmap D = .ok s.bitmap := by
    unfold nsec3Bitmap
    rw [k4]; simp only [Res.bind_ok]; rw [k6]; simp only [Res.bind_ok]; rw [k8]
    have := load_mid (p := a ++ (b ++ (c ++ (e ++ (s.salt ++ (f ++ s.next)))))) (off := 6 + s.salt.length + s.next.length) (b := s.bitmap) (q := []) (by simp; omega) rfl
    simp only [List.append_assoc, List.append_nil] at this
    rw [Res.bind_ok, ← hD]; exact this
  exact ⟨k1, k2, k3, k4, k5, k6, k7, k8, k9⟩

/-- RDATA that are not those of a NSEC3 record: reading the bitmap goes out of bounds. -/
theorem nsec3_bad {d : Bytes} (h : ∀ s, ¬ Nsec3Rd d s) : nsec3Bitmap d = .ub := by
  by_cases h5 : d.length < 5
  · unfold nsec3Bitmap nsec3SaltLen
    rw [readBE_ub (by omega), Res.bind_ub]
  obtain ⟨a, d1, ha, l1, rfl⟩ := cut d 1 (by omega)
  simp only [List.length_append] at h5 l1
  obtain ⟨b, d2, hb, l2, rfl⟩ := cut d1 1 (by omega)
  simp only [List.length_append] at h5 l1 l2
  obtain ⟨c, d3, hc, l3, rfl⟩ := cut d2 2 (by omega)
  simp only [List.length_append] at h5 l1 l2 l3
  obtain ⟨e, d4, he, l4, rfl⟩ := cut d3 1 (by omega)
  simp only [List.length_append] at h5 l1 l2 l3 l4
  have ks : nsec3SaltLen (a ++ (b ++ (c ++ (e ++ d4)))) = .ok (num e) := by
    have := readBE_mid (p := a ++ (b ++ c)) (off := 4) (q := d4) (by simp; omega) (⟨he, rfl⟩ : Octets 1 e (num e))
    simp only [List.append_assoc] at this; exact this
  by_cases h6 : d4.length < num e + 1
  · have kn : nsec3NextLen (a ++ (b ++ (c ++ (e ++ d4)))) = .ub := by
      unfold nsec3NextLen
      rw [ks, Res.bind_ok, readBE_ub (by simp only [List.length_append]; omega)]
    unfold nsec3Bitmap
    rw [ks, Res.bind_ok, kn, Res.bind_ub]
  · obtain ⟨salt, d5, hsalt, l5, rfl⟩ := cut d4 (num e) (by omega)
    simp only [List.length_append] at h6 l5
    obtain ⟨f, d6, hf, l6, rfl⟩ := cut d5 1 (by omega)
    simp only [List.length_append] at h6 l5 l6
    have kn : nsec3NextLen (a ++ (b ++ (c ++ (e ++ (salt ++ (f ++ d6)))))) = .ok (num f) := by
      unfold nsec3NextLen
      rw [ks, Res.bind_ok]
      have := readBE_mid (p := a ++ (b ++ (c ++ (e ++ salt)))) (off := 5 + num e) (q := d6) (by simp; omega) (⟨hf, rfl⟩ : Octets 1 f (num f))
      simp only [List.append_assoc] at this; exact this
    by_cases h7 : d6.length < num f
    · unfold nsec3Bitmap
      rw [ks, Res.bind_ok, kn, Res.bind_ok]
      unfold nsec3BitmapLen
      rw [ks, Res.bind_ok, kn, Res.bind_ok, Res.bind_ok, load_ub (by simp only [List.length_append]; omega)]
    · exfalso
      obtain ⟨next, bm, hn, l7, rfl⟩ := cut d6 (num f) (by omega)
      exact h ⟨num a, num b, num c, salt, next, bm⟩ ⟨a, b, c, e, f, ⟨ha, rfl⟩, ⟨hb, rfl⟩, ⟨hc, rfl⟩, ⟨he, hsalt.symm⟩, ⟨hf, hn.symm⟩,
        by simp only [List.append_assoc]⟩

/-! ## DNSKEY and DS -/

theorem key_fields {d : Bytes} {x y z : Nat} {rest : Bytes} (h : KeyRd d x y z rest) (hd : d.length < 65536) :
    readBE d 0 2 = .ok x ∧ readBE d 2 1 = .ok y ∧ readBE d 3 1 = .ok z ∧ len16 ((d.length : Int) - 4) = rest.length ∧
    WireCtx.load d 4 rest.length = .ok rest := by
  obtain ⟨a, b, c, h1, h2, h3, rfl⟩ := h
  have la := h1.1
  have lb := h2.1
  have lc := h3.1
  simp only [List.append_assoc] at hd ⊢
  refine ⟨readBE_mid (p := []) rfl h1, readBE_mid la h2, ?_, ?_, ?_⟩
  · have := readBE_mid (p := a ++ b) (off := 3) (q := rest) (by simp; omega) h3
    simp only [List.append_assoc] at this; exact this
  · simp only [List.length_append] at hd ⊢
    unfold len16
    omega
  · have := load_mid (p := a ++ (b ++ c)) (off := 4) (b := rest) (q := []) (by simp; omega) rfl
    simp only [List.append_assoc, List.append_nil] at this; exact this

theorem key_exists {d : Bytes} (h : 4 ≤ d.length) : ∃ x y z rest, KeyRd d x y z rest := by
  obtain ⟨a, d1, ha, l1, rfl⟩ := cut d 2 (by omega)
  simp only [List.length_append] at h l1
  obtain ⟨b, d2, hb, l2, rfl⟩ := cut d1 1 (by omega)
  simp only [List.length_append] at h l1 l2
  obtain ⟨c, d3, hc, l3, rfl⟩ := cut d2 1 (by omega)
  exact ⟨num a, num b, num c, d3, a, b, c, ⟨ha, rfl⟩, ⟨hb, rfl⟩, ⟨hc, rfl⟩, by simp only [List.append_assoc]⟩

theorem key_bad {d : Bytes} (h : d.length < 4) : readBE d 3 1 = .ub ∧ ∀ k, WireCtx.load d 4 k = .ub :=
  ⟨readBE_ub (by omega), fun _ => load_ub (by omega)⟩

/-! ## ZONEMD -/

theorem zonemd_fields {d : Bytes} {serial scheme alg : Nat} {digest : Bytes} (h : ZonemdRd d serial scheme alg digest) :
    zonemdSerial d = .ok serial ∧ zonemdScheme d = .ok scheme ∧ zonemdAlg d = .ok alg ∧
    zonemdDigestSize d = .ok (digestLen alg) ∧
    (∀ k, WireCtx.load d 6 k = if k ≤ digest.length then .ok (digest.take k) else .ub) := by
  obtain ⟨a, b, c, h1, h2, h3, rfl⟩ := h
  have la := h1.1
  have lb := h2.1
  have lc := h3.1
  simp only [List.append_assoc]
  have k3 : zonemdAlg (a ++ (b ++ (c ++ digest))) = .ok alg := by
    have := readBE_mid (p := a ++ b) (off := 5) (q := digest) (by simp; omega) h3
    simp only [List.append_assoc] at this; exact this
  refine ⟨readBE_mid (p := []) rfl h1, readBE_mid la h2, k3, ?_, ?_⟩
  · unfold zonemdDigestSize
    rw [k3, Res.bind_ok]
    rfl
  · intro k
    unfold WireCtx.load
    by_cases hk : k ≤ digest.length
    · rw [if_pos (by simp only [List.length_append]; omega), if_pos hk]
      have : (a ++ (b ++ (c ++ digest))) = (a ++ (b ++ c)) ++ digest := by simp
      rw [this, List.drop_left' (by simp; omega)]
    · rw [if_neg (by simp only [List.length_append]; omega), if_neg hk]

theorem zonemd_exists {d : Bytes} (h : 6 ≤ d.length) : ∃ serial scheme alg digest, ZonemdRd d serial scheme alg digest := by
  obtain ⟨a, d1, ha, l1, rfl⟩ := cut d 4 (by omega)
  simp only [List.length_append] at h l1
  obtain ⟨b, d2, hb, l2, rfl⟩ := cut d1 1 (by omega)
  simp only [List.length_append] at h l1 l2
  obtain ⟨c, d3, hc, l3, rfl⟩ := cut d2 1 (by omega)
  exact ⟨num a, num b, num c, d3, a, b, c, ⟨ha, rfl⟩, ⟨hb, rfl⟩, ⟨hc, rfl⟩, by simp only [List.append_assoc]⟩

/-! ## The serial of a received SOA record -/

theorem soa_empty : soaSerial [] = .ub := by
  simp [soaSerial, soaNumber, soaNamesLen, soaPrimary, at', Dname.size]

theorem deliver_soa {canon : Bool} {mem : Bytes} {size pos stop : Nat} {r : Rec} (hs : size ≤ mem.length)
    (h : AcceptAt mem size pos r stop) (ht : r.type = 6) :
    (r.rdata = [] ∧ r.rclass ≠ 1 ∧ soaSerial (deliver canon r).rdata = .ub) ∨
    ∃ m n d, r.rdata = [.name m, .name n, .raw d] ∧ d.length = 20 ∧
      soaSerial (deliver canon r).rdata = .ok (num (d.take 4)) := by
  obtain ⟨k, x, ⟨n, hh⟩, hb, hx⟩ := h
  rcases hx with ⟨_, h1, h2⟩ | ⟨h0, ⟨y, h1⟩, h2, h3⟩
  · left
    rw [ht] at h2
    refine ⟨h1, empty_class h2 (by decide) (by decide) (by decide), ?_⟩
    cases canon
    · show soaSerial (encAll r.rdata) = .ub
      rw [h1]; exact soa_empty
    · simp only [deliver, Rec.canon, h1, if_true, List.map_nil, ite_self]; exact soa_empty
  · right
    have hsh := shape_of_rdAt (by omega) h1
    rw [ht, desc_soa] at hsh
    obtain ⟨m, f1, hm, hf1, g1⟩ := shape_name rfl hsh
    obtain ⟨n, f2, hn, hf2, g2⟩ := shape_name rfl g1
    obtain ⟨d, f3, hd, hf3, g3⟩ := shape_fixed g2
    have hf4 := shape_nil g3
    subst hf4 hf3 hf2
    refine ⟨m, n, d, hf1, hd, ?_⟩
    have main : ∀ a b : Name, Valid a → Valid b → soaSerial (encAll [.name a, .name b, .raw d]) = .ok (num (d.take 4)) := by
      intro a b ha hb
      have := soaNumber_rd (p := []) (b := d.take 4) (q := d.drop 4) (off := 0) ha hb rfl ⟨by simp; omega, rfl⟩
      simp only [List.nil_append, List.take_append_drop] at this
      simp only [encAll, List.flatMap_cons, List.flatMap_nil, Field.enc, List.append_nil]
      exact this
    cases canon
    · show soaSerial (encAll r.rdata) = _
      rw [hf1]; exact main m n hm hn
    · simp only [deliver, Rec.canon, if_true]
      rw [if_pos (by rw [ht]; decide), hf1]
      exact main _ _ (lowerName_valid hm) (lowerName_valid hn)

end Knot.Rdfield
