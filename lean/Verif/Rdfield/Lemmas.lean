import Verif.Rdfield.Model
import Verif.Rdfield.Spec
import Verif.Pktparse.Props
/-! # Fields of RDATA with a known layout -/
namespace Knot.Rdfield
open Knot
open Knot.Dname (Name Valid wire nameLen)
open Knot.Rrwire (num readBE)

theorem readBE_eq (d : Bytes) (off k : Nat) :
    readBE d off k = if off + k ≤ d.length then .ok (num ((d.drop off).take k)) else .ub := by
  unfold readBE WireCtx.load
  split <;> rfl

theorem readBE_mid {p b q : Bytes} {off k v : Nat} (hp : p.length = off) (h : Octets k b v) :
    readBE (p ++ (b ++ q)) off k = .ok v := by
  obtain ⟨h1, h2⟩ := h
  rw [readBE_eq, if_pos (by simp; omega), ← hp, List.drop_left, ← h1, List.take_left, h2]

theorem load_mid {p b q : Bytes} {off k : Nat} (hp : p.length = off) (h : b.length = k) :
    WireCtx.load (p ++ (b ++ q)) off k = .ok b := by
  unfold WireCtx.load
  rw [if_pos (by simp; omega), ← hp, List.drop_left, ← h, List.take_left]

theorem at_mid {p q : Bytes} {off : Nat} (hp : p.length = off) : at' (p ++ q) off = .ok q := by
  unfold at'
  rw [if_pos (by simp; omega), ← hp, List.drop_left]

theorem size_name {n : Name} (r : Bytes) (h : Valid n) : Dname.size (wire n ++ r) = .ok (wire n).length := by
  rw [Dname.size_wire r h.1, Dname.wire_length]

theorem len16_sub {a : Nat} {b : Int} {c : Nat} (h : (a : Int) - b = c) (hc : c < 65536) : len16 ((a : Int) - b) = c := by
  unfold len16; omega

/-! ## SOA -/

theorem soaNamesLen_rd {m r : Name} (rest : Bytes) (hm : Valid m) (hr : Valid r) :
    soaMailbox (wire m ++ (wire r ++ rest)) = .ok (wire r ++ rest) ∧
    soaNamesLen (wire m ++ (wire r ++ rest)) = .ok ((wire m).length + (wire r).length) := by
  have h1 : soaPrimary (wire m ++ (wire r ++ rest)) = .ok (wire m ++ (wire r ++ rest)) := at_mid (p := []) rfl
  have h2 : soaMailbox (wire m ++ (wire r ++ rest)) = .ok (wire r ++ rest) := by
    unfold soaMailbox
    rw [h1]
    simp only [Res.bind_ok]
    rw [size_name _ hm]
    simp only [Res.bind_ok]
    exact at_mid rfl
  refine ⟨h2, ?_⟩
  unfold soaNamesLen
  rw [h1]
  simp only [Res.bind_ok]
  rw [size_name _ hm]
  simp only [Res.bind_ok]
  rw [h2]
  simp only [Res.bind_ok]
  rw [size_name _ hr]
  rfl

theorem soaNumber_rd {m r : Name} {p b q : Bytes} {off v : Nat} (hm : Valid m) (hr : Valid r) (hp : p.length = off)
    (h : Octets 4 b v) : soaNumber (wire m ++ (wire r ++ (p ++ (b ++ q)))) off = .ok v := by
  unfold soaNumber
  rw [(soaNamesLen_rd _ hm hr).2]
  simp only [Res.bind_ok]
  have := readBE_mid (p := wire m ++ (wire r ++ p)) (b := b) (q := q) (off := (wire m).length + (wire r).length + off) (k := 4) (v := v)
    (by simp; omega) h
  simp only [List.append_assoc] at this; exact this

theorem soa_fields {d : Bytes} {s : Soa} (h : SoaRd d s) :
    (∃ r, soaPrimary d = .ok (wire s.primary ++ r)) ∧ (∃ r, soaMailbox d = .ok (wire s.mailbox ++ r)) ∧
    soaSerial d = .ok s.serial ∧ soaRefresh d = .ok s.refresh ∧ soaRetry d = .ok s.retry ∧
    soaExpire d = .ok s.expire ∧ soaMinimum d = .ok s.minimum := by
  obtain ⟨a, b, c, e, f, h1, h2, h3, h4, h5, h6, h7, rfl⟩ := h
  have la := h3.1
  have lb := h4.1
  have lc := h5.1
  have le := h6.1
  simp only [List.append_assoc]
  refine ⟨⟨_, at_mid (p := []) rfl⟩, ⟨_, (soaNamesLen_rd _ h1 h2).1⟩, ?_, ?_, ?_, ?_, ?_⟩
  · exact soaNumber_rd (p := []) h1 h2 rfl h3
  · exact soaNumber_rd (p := a) h1 h2 la h4
  · have := soaNumber_rd (p := a ++ b) (q := e ++ f) (off := 8) h1 h2 (by simp; omega) h5
    simp only [List.append_assoc] at this; exact this
  · have := soaNumber_rd (p := a ++ (b ++ c)) (q := f) (off := 12) h1 h2 (by simp; omega) h6
    simp only [List.append_assoc] at this; exact this
  · have := soaNumber_rd (p := a ++ (b ++ (c ++ e))) (q := []) (off := 16) h1 h2 (by simp; omega) h7
    simp only [List.append_assoc, List.append_nil] at this; exact this

theorem num_append (a b : Bytes) : num (a ++ b) = num a * 256 ^ b.length + num b := by
  unfold num
  suffices H : ∀ (b : Bytes) (x : Nat), b.foldl (fun a b => a * 256 + b.toNat) x =
      x * 256 ^ b.length + b.foldl (fun a b => a * 256 + b.toNat) 0 by
    rw [List.foldl_append, H]
  intro b
  induction b with
  | nil => intro x; simp
  | cons y t ih =>
    intro x
    simp only [List.foldl_cons, List.length_cons]
    rw [ih (x * 256 + y.toNat), ih (0 * 256 + y.toNat)]
    simp only [Nat.zero_mul, Nat.zero_add, Nat.pow_succ, Nat.add_mul]
    rw [Nat.mul_comm (256 ^ t.length) 256, ← Nat.mul_assoc]
    omega

theorem beBytes_octets (k v : Nat) : Octets k (WireCtx.beBytes k v) (v % 256 ^ k) := by
  induction k with
  | zero => exact ⟨rfl, by simp [WireCtx.beBytes, num, Nat.mod_one]⟩
  | succ n ih =>
    obtain ⟨h1, h2⟩ := ih
    refine ⟨by simp [WireCtx.beBytes, h1], ?_⟩
    have : WireCtx.beBytes (n + 1) v = [UInt8.ofNat (v / 256 ^ n % 256)] ++ WireCtx.beBytes n v := rfl
    rw [this, num_append, h2, h1]
    have e : num [UInt8.ofNat (v / 256 ^ n % 256)] = v / 256 ^ n % 256 := by
      have : v / 256 ^ n % 256 < 256 := Nat.mod_lt _ (by decide)
      simp [num]
    rw [e, Nat.pow_succ, Nat.mod_mul, Nat.mul_comm, Nat.add_comm]

theorem soa_set {d : Bytes} {s : Soa} (h : SoaRd d s) (v : Nat) (hv : v < 4294967296) :
    ∃ d', soaSerialSet d v = .ok d' ∧ SoaRd d' { s with serial := v } := by
  obtain ⟨a, b, c, e, f, h1, h2, h3, h4, h5, h6, h7, rfl⟩ := h
  have la := h3.1
  have ho := beBytes_octets 4 v
  rw [Nat.mod_eq_of_lt (show v < 256 ^ 4 from hv)] at ho
  refine ⟨wire s.primary ++ wire s.mailbox ++ WireCtx.beBytes 4 v ++ b ++ c ++ e ++ f, ?_,
    WireCtx.beBytes 4 v, b, c, e, f, h1, h2, ho, h4, h5, h6, h7, rfl⟩
  unfold soaSerialSet
  have hn := (soaNamesLen_rd (a ++ (b ++ (c ++ (e ++ f)))) h1 h2).2
  simp only [List.append_assoc]
  rw [hn]
  simp only [Res.bind_ok]
  unfold WireCtx.store
  rw [if_pos (by simp [ho.1, la]; omega)]
  congr 1
  have e1 : (wire s.primary ++ (wire s.mailbox ++ (a ++ (b ++ (c ++ (e ++ f)))))) =
      (wire s.primary ++ wire s.mailbox) ++ (a ++ (b ++ (c ++ (e ++ f)))) := by simp
  rw [e1, List.take_left' (by simp), ← List.drop_drop, List.drop_left' (by simp), ho.1, ← la, List.drop_left]
  simp

/-! ## RRSIG -/

theorem rrsig_fields {d : Bytes} {s : Rrsig} (h : RrsigRd d s) (hd : d.length < 65536) :
    rrsigCovered d = .ok s.covered ∧ rrsigAlg d = .ok s.alg ∧ rrsigLabels d = .ok s.labels ∧
    rrsigTtl d = .ok s.ttl ∧ rrsigExpiration d = .ok s.expiration ∧ rrsigInception d = .ok s.inception ∧
    rrsigKeyTag d = .ok s.keyTag ∧ (∃ r, rrsigSigner d = .ok (wire s.signer ++ r)) ∧
    rrsigSignatureLen d = .ok s.signature.length ∧ rrsigSignature d = .ok s.signature := by
  obtain ⟨a, b, c, e, f, g, h, h1, h2, h3, h4, h5, h6, h7, h8, rfl⟩ := h
  have la := h1.1
  have lb := h2.1
  have lc := h3.1
  have le := h4.1
  have lf := h5.1
  have lg := h6.1
  have lh := h7.1
  simp only [List.append_assoc] at hd ⊢
  have hs : rrsigSigner (a ++ (b ++ (c ++ (e ++ (f ++ (g ++ (h ++ (wire s.signer ++ s.signature)))))))) =
      .ok (wire s.signer ++ s.signature) := by
    have := at_mid (p := a ++ (b ++ (c ++ (e ++ (f ++ (g ++ h)))))) (q := wire s.signer ++ s.signature) (off := 18) (by simp; omega)
    simp only [List.append_assoc] at this; exact this
  have hl : rrsigSignatureLen (a ++ (b ++ (c ++ (e ++ (f ++ (g ++ (h ++ (wire s.signer ++ s.signature)))))))) =
      .ok s.signature.length := by
    unfold rrsigSignatureLen
    rw [hs]
    simp only [Res.bind_ok]
    rw [size_name _ h8]
    simp only [Res.bind_ok]
    congr 1
    simp only [List.length_append] at hd ⊢
    unfold len16
    omega
  refine ⟨?_, ?_, ?_, ?_, ?_, ?_, ?_, ⟨_, hs⟩, hl, ?_⟩
  · exact readBE_mid (p := []) rfl h1
  · exact readBE_mid (p := a) la h2
  · have := readBE_mid (p := a ++ b) (off := 3) (q := (e ++ (f ++ (g ++ (h ++ (wire s.signer ++ s.signature)))))) (by simp; omega) h3
    simp only [List.append_assoc] at this; exact this
  · have := readBE_mid (p := a ++ (b ++ c)) (off := 4) (q := (f ++ (g ++ (h ++ (wire s.signer ++ s.signature))))) (by simp; omega) h4
    simp only [List.append_assoc] at this; exact this
  · have := readBE_mid (p := a ++ (b ++ (c ++ e))) (off := 8) (q := (g ++ (h ++ (wire s.signer ++ s.signature)))) (by simp; omega) h5
    simp only [List.append_assoc] at this; exact this
  · have := readBE_mid (p := a ++ (b ++ (c ++ (e ++ f)))) (off := 12) (q := (h ++ (wire s.signer ++ s.signature))) (by simp; omega) h6
    simp only [List.append_assoc] at this; exact this
  · have := readBE_mid (p := a ++ (b ++ (c ++ (e ++ (f ++ g))))) (off := 16) (q := (wire s.signer ++ s.signature)) (by simp; omega) h7
    simp only [List.append_assoc] at this; exact this
  · unfold rrsigSignature
    rw [hs]
    simp only [Res.bind_ok]
    rw [size_name _ h8]
    simp only [Res.bind_ok]
    rw [hl]
    simp only [Res.bind_ok]
    have := load_mid (p := a ++ (b ++ (c ++ (e ++ (f ++ (g ++ (h ++ wire s.signer))))))) (b := s.signature) (q := [])
      (off := 18 + (wire s.signer).length) (k := s.signature.length) (by simp; omega) rfl
    simp only [List.append_assoc, List.append_nil] at this; exact this

/-! ## NSEC -/

theorem nsec_fields {d : Bytes} {next : Name} {bitmap : Bytes} (h : NsecRd d next bitmap) (hd : d.length < 65536) :
    (∃ r, nsecNext d = .ok (wire next ++ r)) ∧ nsecBitmapLen d = .ok bitmap.length ∧ nsecBitmap d = .ok bitmap := by
  obtain ⟨h1, rfl⟩ := h
  have hn : nsecNext (wire next ++ bitmap) = .ok (wire next ++ bitmap) := at_mid (p := []) rfl
  have hl : nsecBitmapLen (wire next ++ bitmap) = .ok bitmap.length := by
    unfold nsecBitmapLen
    rw [hn]
    simp only [Res.bind_ok]
    rw [size_name _ h1]
    simp only [Res.bind_ok]
    congr 1
    simp only [List.length_append] at hd ⊢
    unfold len16
    omega
  refine ⟨⟨_, hn⟩, hl, ?_⟩
  unfold nsecBitmap
  rw [hn]
  simp only [Res.bind_ok]
  rw [size_name _ h1]
  simp only [Res.bind_ok]
  rw [hl]
  simp only [Res.bind_ok]
  have := load_mid (p := wire next) (b := bitmap) (q := []) rfl rfl
  simp only [List.append_nil] at this; exact this

/-! ## Names -/

theorem name_fields {type k : Nat} {d : Bytes} {name : Name} {rest : Bytes} (hk : namePrefix type = some k)
    (h : NameRd k d name rest) : rdataName type d = .ok (some (wire name ++ rest)) := by
  obtain ⟨a, h1, h2, rfl⟩ := h
  simp only [List.append_assoc]
  unfold namePrefix at hk
  unfold rdataName
  simp only [List.mem_cons, List.not_mem_nil, or_false] at hk
  split at hk
  · injection hk with hk
    subst hk
    have ha : at' (a ++ (wire name ++ rest)) 0 = .ok (wire name ++ rest) := at_mid h1
    rename_i ht
    rw [ha]
    rcases ht with rfl | rfl | rfl | rfl <;> rfl
  · split at hk
    · injection hk with hk
      subst hk
      have ha : at' (a ++ (wire name ++ rest)) 2 = .ok (wire name ++ rest) := at_mid h1
      rename_i ht
      rw [ha]
      rcases ht with rfl | rfl | rfl <;> rfl
    · split at hk
      · injection hk with hk
        subst hk
        have ha : at' (a ++ (wire name ++ rest)) 6 = .ok (wire name ++ rest) := at_mid h1
        rename_i ht
        subst ht
        rw [ha]
        rfl
      · cases hk

end Knot.Rdfield
