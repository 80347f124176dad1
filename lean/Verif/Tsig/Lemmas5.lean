import Verif.Tsig.Lemmas4
/-!
# TSIG: signing
-/
namespace Knot.Tsig
open Dname (Name wire Valid lowerName nameLen)
open WireCtx (Ctx beBytes beVal load store)

/-- The record made by signing. -/
def made (k : Name) (a : Alg) (time id error : Nat) (other mac : Bytes) : Tsig :=
  ⟨k, 255, 0, algName a, time % 2 ^ 48, 300, mac, id, error, other⟩

theorem made_ok {k : Name} (hk : Valid k) (a : Alg) (time : Nat) {id error : Nat} {other mac : Bytes} (hid : id < 65536)
    (he : error < 65536) (ho : other.length ≤ 6) (hm : mac.length = a.size) : (made k a time id error other mac).Ok := by
  have hs : a.size ≤ 64 := by cases a <;> decide
  have h1 : (255 : Nat) < 2 ^ 16 := by decide
  have h2 : (0 : Nat) < 2 ^ 32 := by decide
  have h3 : (300 : Nat) < 2 ^ 16 := by decide
  refine ⟨hk, h1, h2, algName_ok a, Nat.mod_lt _ (by decide), h3, ?_, hid, he, ?_⟩
  · show mac.length < 2 ^ 16; omega
  · show other.length < 2 ^ 16; omega

theorem made_covered (k : Name) (a : Alg) (time id error : Nat) (other mac mac' : Bytes) (msg req : Bytes) :
    (made k a time id error other mac).covered msg req = (made k a time id error other mac').covered msg req := rfl

theorem made_coveredNext (k : Name) (a : Alg) (time id error : Nat) (other mac mac' : Bytes) (msg req : Bytes) :
    (made k a time id error other mac).coveredNext msg req = (made k a time id error other mac').coveredNext msg req := rfl

theorem idOf_bytes {msg : Bytes} (h : 2 ≤ msg.length) : beBytes 2 (idOf msg) = msg.take 2 := by
  have := beBytes_beVal (msg.take 2)
  rw [show (msg.take 2).length = 2 by simp; omega] at this
  exact this

theorem beVal_lt (b : Bytes) : beVal b < 256 ^ b.length := by
  induction b with
  | nil => simp [beVal]
  | cons y b ih =>
    simp only [beVal, List.length_cons, Nat.pow_succ]
    have := y.toNat_lt
    have h1 : y.toNat * 256 ^ b.length ≤ 255 * 256 ^ b.length := Nat.mul_le_mul_right _ (by omega)
    omega

theorem idOf_lt {msg : Bytes} (h : 2 ≤ msg.length) : idOf msg < 65536 := by
  have := beVal_lt (msg.take 2)
  rw [show (msg.take 2).length = 2 by simp; omega] at this
  exact this

theorem withId_self {msg : Bytes} (h : 2 ≤ msg.length) : withId msg (idOf msg) = msg := by
  unfold withId
  rw [idOf_bytes h, List.take_append_drop]

theorem load_id {msg : Bytes} (h : 2 ≤ msg.length) : load msg 0 2 = .ok (msg.take 2) := by
  unfold load
  rw [if_pos (by omega)]
  simp

theorem beBytes6_mod (v : Nat) : beBytes 6 (v % 2 ^ 48) = beBytes 6 v := beBytes_mod 6 v

theorem append_spec {msg : Bytes} (h : 12 ≤ msg.length) (max : Nat) (t : Tsig) :
    (t.octets.length ≤ max - msg.length ∧ ∃ w, append msg max t.rr = .ok w ∧ Carries w msg t) ∨
    (¬ t.octets.length ≤ max - msg.length ∧ append msg max t.rr = .err .espace) := by
  have hw : rrWire t.rr = t.octets := rfl
  unfold append
  rw [hw]
  by_cases hs : t.octets.length > max - msg.length
  · right; rw [if_pos hs]; exact ⟨by omega, rfl⟩
  · left
    rw [if_neg hs]
    refine ⟨by omega, ?_⟩
    have e : msg = msg.take 10 ++ (msg.drop 10).take 2 ++ msg.drop 12 := by
      rw [List.append_assoc, show msg.drop 12 = (msg.drop 10).drop 2 by simp, List.take_append_drop, List.take_append_drop]
    have l1 : (msg.take 10).length = 10 := by simp; omega
    have l2 : ((msg.drop 10).take 2).length = 2 := by simp; omega
    have hl : load msg 10 2 = .ok ((msg.drop 10).take 2) := by
      unfold load; rw [if_pos (by omega)]
    rw [hl]
    simp only [Res.bind_ok]
    have hst : store msg 10 (beBytes 2 ((beVal ((msg.drop 10).take 2) + 1) % 65536)) =
        .ok (msg.take 10 ++ beBytes 2 ((beVal ((msg.drop 10).take 2) + 1) % 65536) ++ msg.drop 12) := by
      have := store_mid (msg.take 10) ((msg.drop 10).take 2) (msg.drop 12) (beBytes 2 ((beVal ((msg.drop 10).take 2) + 1) % 65536))
        (p := 10) l1.symm (by rw [beBytes_length, l2])
      rw [← e] at this
      exact this
    rw [hst]
    refine ⟨_, rfl, beVal ((msg.drop 10).take 2), ?_, ?_, rfl⟩
    · have := beBytes_beVal ((msg.drop 10).take 2)
      rw [l2] at this
      rw [this, show msg.drop 12 = (msg.drop 10).drop 2 by simp, List.take_append_drop]
    · have := beVal_lt ((msg.drop 10).take 2)
      rw [l2] at this
      exact this

theorem made_rdata (k : Name) (a : Alg) (time id error : Nat) (other mac : Bytes) :
    (made k a time id error other mac).rdata = shape (wire (algName a)) (beBytes 6 time) (beBytes 2 300) mac (beBytes 2 id)
      (beBytes 2 error) (beBytes 2 other.length ++ other) := by
  rw [Tsig.rdata_shape, ← beBytes6_mod time]; rfl

theorem setTimes_shape {n : Name} {fudge mac id err : Bytes} (hv : Valid n) (hf : fudge.length = 2) (hm : mac.length < 65536)
    (hi : id.length = 2) (he : err.length = 2) (now rcode reqTime : Nat) :
    setTimes (shape (wire n) (List.replicate 6 0) fudge mac id err (List.replicate (if rcode = 18 then 8 else 2) 0)) now rcode reqTime =
      .ok (shape (wire n) (beBytes 6 (if rcode = 18 then reqTime else now)) fudge mac id err
        (beBytes 2 (if rcode = 18 then 6 else 0) ++ (if rcode = 18 then beBytes 6 now else []))) := by
  unfold setTimes
  by_cases hr : rcode = 18
  · simp only [hr, if_true]
    have s1 : Shape n (List.replicate 6 0) fudge mac id err (List.replicate 8 0) := ⟨hv.1, by simp, hf, hm, hi, he, by simp⟩
    have s2 : Shape n (beBytes 6 reqTime) fudge mac id err (List.replicate 8 0) :=
      ⟨hv.1, by simp [beBytes_length], hf, hm, hi, he, by simp⟩
    rw [set_time s1 (by simp [beBytes_length])]
    simp only [Res.bind_ok]
    rw [setOther_shape s2 (by simp [beBytes_length]) (by simp [beBytes_length])]
    simp [beBytes_length]
  · simp only [hr, if_false]
    have s1 : Shape n (List.replicate 6 0) fudge mac id err (List.replicate 2 0) := ⟨hv.1, by simp, hf, hm, hi, he, by simp⟩
    have s2 : Shape n (beBytes 6 now) fudge mac id err (List.replicate 2 0) :=
      ⟨hv.1, by simp [beBytes_length], hf, hm, hi, he, by simp⟩
    rw [set_time s1 (by simp [beBytes_length])]
    simp only [Res.bind_ok]
    rw [setOther_shape s2 (by simp) (by simp)]
    simp

theorem sign_spec {hmac : Alg → Bytes → Bytes → Bytes} (hl : ∀ a k m, (hmac a k m).length = a.size) {key : Key} {k : Name}
    (hk : key.Is k) {msg : Bytes} (hm : 12 ≤ msg.length) (mac : Bytes) (now max rcode reqTime : Nat) :
    ∃ t, t = made k key.alg (if rcode = 18 then reqTime else now) (idOf msg) (if rcode = 18 then 18 else 0)
        (if rcode = 18 then beBytes 6 now else []) (hmac key.alg key.secret (t.covered msg mac)) ∧ t.Ok ∧
      ((t.octets.length ≤ max - msg.length ∧ ∃ w, sign hmac now msg max mac key rcode reqTime = .ok (w, t.mac) ∧ Carries w msg t) ∨
       (¬ t.octets.length ≤ max - msg.length ∧ sign hmac now msg max mac key rcode reqTime = .err .espace)) := by
  generalize hT : (if rcode = 18 then reqTime else now) = T
  generalize hE : (if rcode = 18 then 18 else 0) = E
  generalize hO : (if rcode = 18 then beBytes 6 now else []) = O
  have hEl : E < 65536 := by rw [← hE]; split <;> omega
  have hOl : O.length ≤ 6 := by rw [← hO]; split <;> simp [beBytes_length]
  have hOl' : O.length = if rcode = 18 then 6 else 0 := by rw [← hO]; split <;> simp [beBytes_length]
  have hid := idOf_lt (msg := msg) (by omega)
  generalize hz : List.replicate key.alg.size (0 : UInt8) = z
  have hzl : z.length = key.alg.size := by rw [← hz]; simp
  have hsz : key.alg.size ≤ 64 := by cases key.alg <;> decide
  have ok0 : (made k key.alg T (idOf msg) E O z).Ok := made_ok hk.2 key.alg T hid hEl hOl hzl
  generalize hd : hmac key.alg key.secret ((made k key.alg T (idOf msg) E O z).covered msg mac) = d
  have hdl : d.length = key.alg.size := by rw [← hd, hl]
  refine ⟨made k key.alg T (idOf msg) E O d, ?_, made_ok hk.2 key.alg T hid hEl hOl hdl, ?_⟩
  · rw [made_covered k key.alg T (idOf msg) E O d z, hd]
  unfold sign
  have e1 : (if rcode = 18 then rcode else 0) = E := by rw [← hE]; split <;> simp_all
  rw [e1, dname_wire, createRdata_shape (algName_ok _) (by omega)]
  simp only [Res.bind_ok, hz]
  have e2 : (if E = 18 then 8 else 2) = if rcode = 18 then 8 else 2 := by
    rw [← hE]; by_cases h : rcode = 18 <;> simp [h]
  rw [e2, setTimes_shape (algName_ok _) (by simp) (by omega) (by simp) (by simp [beBytes_length]), hT, hO, ← hOl']
  simp only [Res.bind_ok]
  have s1 : ∀ f i m, f.length = 2 → i.length = 2 → m.length = key.alg.size →
      Shape (algName key.alg) (beBytes 6 T) f m i (beBytes 2 E) (beBytes 2 O.length ++ O) := fun f i m h1 h2 h3 =>
    ⟨(algName_ok _).1, by simp [beBytes_length], h1, by omega, h2, by simp [beBytes_length], by simp [beBytes_length]⟩
  rw [set_fudge (s1 _ _ _ (by simp) (by simp) hzl) (by simp [beBytes_length])]
  simp only [Res.bind_ok]
  rw [load_id (by omega)]
  simp only [Res.bind_ok]
  have hid2 : (msg.take 2).length = 2 := by simp; omega
  rw [set_origId (s1 _ _ _ (by simp [beBytes_length]) (by simp) hzl) hid2]
  simp only [Res.bind_ok]
  rw [← idOf_bytes (msg := msg) (by omega), ← made_rdata k]
  have hrr : (⟨key.name, 255, 0, (made k key.alg T (idOf msg) E O z).rdata⟩ : Rr) = (made k key.alg T (idOf msg) E O z).rr := by
    rw [hk.1]; rfl
  rw [hrr, signWire_eq ok0]
  simp only [Res.bind_ok]
  have hcov : (if mac = [] then [] else beBytes 2 mac.length ++ mac) ++ msg ++ (made k key.alg T (idOf msg) E O z).variables =
      (made k key.alg T (idOf msg) E O z).covered msg mac := by
    unfold Tsig.covered
    show _ = _ ++ withId msg (idOf msg) ++ _
    rw [withId_self (by omega)]
  rw [hcov, hd, made_rdata]
  rw [set_mac (s1 _ _ _ (by simp [beBytes_length]) (by simp [beBytes_length]) hzl) (by rw [hdl, hzl])]
  simp only [Res.bind_ok]
  rw [← made_rdata k]
  have hrr' : (⟨key.name, 255, 0, (made k key.alg T (idOf msg) E O d).rdata⟩ : Rr) = (made k key.alg T (idOf msg) E O d).rr := by
    rw [hk.1]; rfl
  rw [hrr']
  rcases append_spec hm max (made k key.alg T (idOf msg) E O d) with ⟨h1, w, h2, h3⟩ | ⟨h1, h2⟩
  · exact .inl ⟨h1, w, by rw [h2]; rfl, h3⟩
  · exact .inr ⟨h1, by rw [h2]; rfl⟩

theorem signNext_spec {hmac : Alg → Bytes → Bytes → Bytes} (hl : ∀ a k m, (hmac a k m).length = a.size) {key : Key} {k : Name}
    (hk : key.Is k) {msg : Bytes} (hm : 12 ≤ msg.length) (mac : Bytes) (now max : Nat) {space : Nat} (hsp : key.alg.size ≤ space) :
    ∃ t, t = made k key.alg now (idOf msg) 0 [] (hmac key.alg key.secret (t.coveredNext msg mac)) ∧ t.Ok ∧
      ((t.octets.length ≤ max - msg.length ∧ ∃ w, signNext hmac now msg max mac space key = .ok (w, t.mac) ∧ Carries w msg t) ∨
       (¬ t.octets.length ≤ max - msg.length ∧ signNext hmac now msg max mac space key = .err .espace)) := by
  have hid := idOf_lt (msg := msg) (by omega)
  generalize hz : List.replicate key.alg.size (0 : UInt8) = z
  have hzl : z.length = key.alg.size := by rw [← hz]; simp
  have hsz : key.alg.size ≤ 64 := by cases key.alg <;> decide
  have ok0 : (made k key.alg now (idOf msg) 0 [] z).Ok := made_ok hk.2 key.alg now hid (by omega) (by simp) hzl
  generalize hd : hmac key.alg key.secret ((made k key.alg now (idOf msg) 0 [] z).coveredNext msg mac) = d
  have hdl : d.length = key.alg.size := by rw [← hd, hl]
  refine ⟨made k key.alg now (idOf msg) 0 [] d, ?_, made_ok hk.2 key.alg now hid (by omega) (by simp) hdl, ?_⟩
  · rw [made_coveredNext k key.alg now (idOf msg) 0 [] d z, hd]
  unfold signNext
  rw [dname_wire, createRdata_shape (algName_ok _) (by omega)]
  simp only [Res.bind_ok, hz, show ¬ (0 = 18) by omega, if_false]
  have s1 : ∀ t f i m o, t.length = 6 → f.length = 2 → i.length = 2 → m.length = key.alg.size → o.length = 2 →
      Shape (algName key.alg) t f m i (beBytes 2 0) o := fun t f i m o h0 h1 h2 h3 h4 =>
    ⟨(algName_ok _).1, h0, h1, by omega, h2, by simp [beBytes_length], by omega⟩
  rw [set_time (s1 _ _ _ _ _ (by simp) (by simp) (by simp) hzl (by simp)) (by simp [beBytes_length])]
  simp only [Res.bind_ok]
  rw [set_fudge (s1 _ _ _ _ _ (by simp [beBytes_length]) (by simp) (by simp) hzl (by simp)) (by simp [beBytes_length])]
  simp only [Res.bind_ok]
  have sh := s1 (beBytes 6 now) (beBytes 2 300) (List.replicate 2 0) z (List.replicate 2 0) (by simp [beBytes_length])
    (by simp [beBytes_length]) (by simp) hzl (by simp)
  have g1 := get_time sh
  have g2 := get_fudge sh
  rw [signWireNext_gen (rr := ⟨key.name, 255, 0, shape (wire (algName key.alg)) (beBytes 6 now) (beBytes 2 300) z (List.replicate 2 0)
    (beBytes 2 0) (List.replicate 2 0)⟩) g1 g2]
  simp only [Res.bind_ok]
  have hcov : beBytes 2 mac.length ++ mac ++ msg ++ (beBytes 6 (beVal (beBytes 6 now)) ++ beBytes 2 (beVal (beBytes 2 300))) =
      (made k key.alg now (idOf msg) 0 [] z).coveredNext msg mac := by
    unfold Tsig.coveredNext
    show _ = _ ++ _ ++ withId msg (idOf msg) ++ (beBytes 6 (now % 2 ^ 48) ++ beBytes 2 300)
    rw [withId_self (by omega), beVal_beBytes]
    rfl
  rw [hcov, hd, if_neg (by omega)]
  rw [set_mac sh (by rw [hdl, hzl])]
  simp only [Res.bind_ok]
  rw [load_id (by omega)]
  simp only [Res.bind_ok]
  have hid2 : (msg.take 2).length = 2 := by simp; omega
  rw [set_origId (s1 _ _ _ _ _ (by simp [beBytes_length]) (by simp [beBytes_length]) (by simp) hdl (by simp)) hid2]
  simp only [Res.bind_ok]
  rw [setOther_shape (s1 _ _ _ _ _ (by simp [beBytes_length]) (by simp [beBytes_length]) hid2 hdl (by simp)) (by simp) (by simp)]
  simp only [Res.bind_ok]
  rw [← idOf_bytes (msg := msg) (by omega), ← made_rdata k]
  have hrr' : (⟨key.name, 255, 0, (made k key.alg now (idOf msg) 0 [] d).rdata⟩ : Rr) = (made k key.alg now (idOf msg) 0 [] d).rr := by
    rw [hk.1]; rfl
  rw [hrr']
  rcases append_spec hm max (made k key.alg now (idOf msg) 0 [] d) with ⟨h1, w, h2, h3⟩ | ⟨h1, h2⟩
  · exact .inl ⟨h1, w, by rw [h2]; rfl, h3⟩
  · exact .inr ⟨h1, by rw [h2]; rfl⟩

end Knot.Tsig
