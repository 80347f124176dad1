import Verif.Tsig.Lemmas3
import Verif.Dname.Props
/-!
# TSIG: checking
-/
namespace Knot.Tsig
open Dname (Name wire Valid lowerName nameLen)
open WireCtx (Ctx beBytes beVal load store)

theorem store_id {msg : Bytes} (h : 2 ≤ msg.length) (id : Nat) : store msg 0 (beBytes 2 id) = .ok (withId msg id) := by
  unfold store withId
  simp only [beBytes_length]
  rw [if_pos (by omega)]
  simp

theorem checkAlgorithm_spec {t : Tsig} (h : t.Ok) :
    (∃ a, t.Names a ∧ checkAlgorithm t.rr = .ok a) ∨ ((∀ a, ¬ t.Names a) ∧ checkAlgorithm t.rr = .err .tsigBadKey) := by
  have e : t.rdata = wire t.alg ++ (beBytes 6 t.time ++ (beBytes 2 t.fudge ++ (beBytes 2 t.mac.length ++ (t.mac ++ (beBytes 2 t.id ++
    (beBytes 2 t.error ++ (beBytes 2 t.other.length ++ t.other))))))) := by simp [Tsig.rdata, List.append_assoc]
  unfold checkAlgorithm Tsig.rr
  simp only
  rw [e]
  rcases algFrom_spec h.alg _ with ⟨a, h1, h2⟩ | ⟨h1, h2⟩
  · exact .inl ⟨a, h1, by rw [h2]; rfl⟩
  · exact .inr ⟨h1, by rw [h2]; rfl⟩

theorem checkKey_eq {t : Tsig} (h : t.Ok) {key : Key} {k : Name} (hk : key.Is k) :
    checkKey t.rr key = if t.key = k then .ok () else .err .tsigBadKey := by
  have := (C04_equality t.key k [] [] h.key hk.2).1
  rw [List.append_nil, List.append_nil, ← hk.1] at this
  unfold checkKey Tsig.rr
  simp only [this, Res.bind_ok, decide_eq_true_eq]

theorem checkTime_eq {t : Tsig} (h : t.Ok) (now prev : Nat) :
    (t.Fresh now prev ∧ checkTime now t.rr prev = .ok ()) ∨ (¬ t.Fresh now prev ∧ checkTime now t.rr prev = .err .tsigBadTime) := by
  have v := t.values h
  unfold checkTime Tsig.rr Tsig.Fresh
  simp only [v.time, v.fudge, Res.bind_ok]
  by_cases h0 : t.time = 0
  · right; simp [h0]
  rw [if_neg h0]
  by_cases h1 : t.fudge = 0
  · right; simp [h1]
  rw [if_neg h1]
  by_cases h2 : (now : Int) - t.time > t.fudge ∨ (now : Int) - t.time < -t.fudge
  · right; rw [if_pos h2]
    refine ⟨?_, rfl⟩
    omega
  rw [if_neg h2]
  by_cases h3 : (t.time : Int) - prev < 0
  · right; rw [if_pos h3]
    refine ⟨?_, rfl⟩
    omega
  · left; rw [if_neg h3]
    refine ⟨?_, rfl⟩
    omega

/-- What the MAC covers. -/
def Tsig.data (t : Tsig) (next : Bool) (msg mac : Bytes) : Bytes := if next then t.coveredNext msg mac else t.covered msg mac

theorem data_eq {t : Tsig} (h : t.Ok) (next : Bool) {msg : Bytes} (mac : Bytes) :
    signData next (withId msg t.id) mac t.rr = .ok (t.data next msg mac) := by
  have v := t.values h
  unfold signData
  cases next with
  | true =>
    simp only [if_true, Tsig.data]
    rw [signWireNext_gen (rr := t.rr) v.time v.fudge]
    rfl
  | false =>
    simp only [Bool.false_eq_true, if_false, Tsig.data]
    rw [signWire_eq h]
    rfl

theorem check_spec {hmac : Alg → Bytes → Bytes → Bytes} (hl : ∀ a k m, (hmac a k m).length = a.size) {t : Tsig} (h : t.Ok)
    {key : Key} {k : Name} (hk : key.Is k) {msg : Bytes} (hm : 2 ≤ msg.length) (mac : Bytes) (now prev : Nat) (next : Bool) :
    ((∀ a, ¬ t.Names a) ∧ check hmac now t.rr msg mac key prev next = .err .tsigBadKey) ∨
    (∃ a, t.Names a ∧
      ((t.key ≠ k ∧ check hmac now t.rr msg mac key prev next = .err .tsigBadKey) ∨
       (t.key = k ∧ t.mac.length ≠ a.size ∧ check hmac now t.rr msg mac key prev next = .err .tsigBadSig) ∨
       (t.key = k ∧ t.mac.length = a.size ∧ key.alg.size < a.size ∧ check hmac now t.rr msg mac key prev next = .ub) ∨
       (t.key = k ∧ t.mac.length = a.size ∧ a.size ≤ key.alg.size ∧
          t.mac ≠ (hmac key.alg key.secret (t.data next msg mac)).take a.size ∧
          check hmac now t.rr msg mac key prev next = .err .tsigBadSig) ∨
       (t.key = k ∧ t.mac.length = a.size ∧ a.size ≤ key.alg.size ∧
          t.mac = (hmac key.alg key.secret (t.data next msg mac)).take a.size ∧ ¬ t.Fresh now prev ∧
          check hmac now t.rr msg mac key prev next = .err .tsigBadTime) ∨
       (t.key = k ∧ t.mac.length = a.size ∧ a.size ≤ key.alg.size ∧
          t.mac = (hmac key.alg key.secret (t.data next msg mac)).take a.size ∧ t.Fresh now prev ∧
          check hmac now t.rr msg mac key prev next = .ok ()))) := by
  have v := t.values h
  have v1 : get t.rr.rdata .origId 2 = .ok t.id := v.id
  have v2 : get t.rr.rdata .macLen 2 = .ok t.mac.length := v.macLen
  have v3 : seek t.rr.rdata .mac 0 = .ok (some ((wire t.alg).length + 10)) := v.mac
  have v4 : load t.rr.rdata ((wire t.alg).length + 10) t.mac.length = .ok t.mac := v.macIs
  unfold check
  rcases checkAlgorithm_spec h with ⟨a, h1, h2⟩ | ⟨h1, h2⟩
  · right
    refine ⟨a, h1, ?_⟩
    rw [h2, checkKey_eq h hk]
    by_cases hn : t.key = k
    · right
      simp only [hn, if_true, Res.bind_ok, v1, store_id hm, v2, v3, true_and]
      rw [data_eq h next mac]
      simp only [Res.bind_ok]
      by_cases hs : t.mac.length = a.size
      · simp only [hs, ne_eq, not_true_eq_false, if_false, true_and, false_and, false_or]
        rw [← hs, v4]
        simp only [Res.bind_ok]
        by_cases hz : key.alg.size < t.mac.length
        · left
          refine ⟨hz, ?_⟩
          unfold load
          rw [if_neg (by rw [hl]; omega)]
          rfl
        · right
          have e : load (hmac key.alg key.secret (t.data next msg mac)) 0 t.mac.length =
              .ok ((hmac key.alg key.secret (t.data next msg mac)).take t.mac.length) := by
            unfold load
            rw [if_pos (by rw [hl]; omega)]
            simp
          rw [e]
          simp only [Res.bind_ok]
          have hle : t.mac.length ≤ key.alg.size := by omega
          by_cases hq : t.mac = (hmac key.alg key.secret (t.data next msg mac)).take t.mac.length
          · right
            rw [if_neg (by intro hc; exact hc hq)]
            rcases checkTime_eq h now prev with ⟨f1, f2⟩ | ⟨f1, f2⟩
            · right; exact ⟨hle, hq, f1, f2⟩
            · left; exact ⟨hle, hq, f1, f2⟩
          · left
            rw [if_pos hq]
            exact ⟨hle, hq, rfl⟩
      · left
        simp [hs]
    · left
      refine ⟨hn, ?_⟩
      simp [hn]
  · left
    refine ⟨h1, ?_⟩
    rw [h2]; rfl

end Knot.Tsig
