import Verif.Tsig.Lemmas5
/-!
# TSIG: exchanges of messages
-/
namespace Knot.Tsig
open Dname (Name wire Valid lowerName nameLen)
open WireCtx (Ctx beBytes beVal load store)

theorem names_inj {t : Tsig} {a b : Alg} (h1 : t.Names a) (h2 : t.Names b) : a = b :=
  algName_inj (h1.symm.trans h2)

theorem take_all {hmac : Alg → Bytes → Bytes → Bytes} (hl : ∀ a k m, (hmac a k m).length = a.size) (a : Alg) (s m : Bytes) :
    (hmac a s m).take a.size = hmac a s m := List.take_of_length_le (by rw [hl]; exact Nat.le_refl _)

/-- The outcome when the record names the algorithm of the key. -/
theorem check_same {hmac : Alg → Bytes → Bytes → Bytes} (hl : ∀ a k m, (hmac a k m).length = a.size) {t : Tsig} (h : t.Ok)
    {key : Key} {k : Name} (hk : key.Is k) {msg : Bytes} (hm : 2 ≤ msg.length) (mac : Bytes) (now prev : Nat) (next : Bool)
    (hn : t.Names key.alg) :
    (t.key ≠ k ∧ check hmac now t.rr msg mac key prev next = .err .tsigBadKey) ∨
    (t.key = k ∧ t.mac ≠ hmac key.alg key.secret (t.data next msg mac) ∧
      check hmac now t.rr msg mac key prev next = .err .tsigBadSig) ∨
    (t.key = k ∧ t.mac = hmac key.alg key.secret (t.data next msg mac) ∧ ¬ t.Fresh now prev ∧
      check hmac now t.rr msg mac key prev next = .err .tsigBadTime) ∨
    (t.key = k ∧ t.mac = hmac key.alg key.secret (t.data next msg mac) ∧ t.Fresh now prev ∧
      check hmac now t.rr msg mac key prev next = .ok ()) := by
  rcases check_spec hl h hk hm mac now prev next with ⟨h1, _⟩ | ⟨a, h1, h2⟩
  · exact absurd hn (h1 _)
  · have := names_inj h1 hn; subst this
    rcases h2 with h2 | ⟨h2, h3, h4⟩ | ⟨_, _, h4, _⟩ | ⟨h2, h3, _, h5, h6⟩ | ⟨h2, h3, _, h5, h6, h7⟩ | ⟨h2, h3, _, h5, h6, h7⟩
    · exact .inl h2
    · refine .inr (.inl ⟨h2, fun e => h3 ?_, h4⟩)
      rw [e, hl]
    · exact absurd h4 (Nat.lt_irrefl _)
    · rw [take_all hl] at h5; exact .inr (.inl ⟨h2, h5, h6⟩)
    · rw [take_all hl] at h5; exact .inr (.inr (.inl ⟨h2, h5, h6, h7⟩))
    · rw [take_all hl] at h5; exact .inr (.inr (.inr ⟨h2, h5, h6, h7⟩))

/-- Accepted by the functions of the library. -/
theorem check_ok_iff {hmac : Alg → Bytes → Bytes → Bytes} (hl : ∀ a k m, (hmac a k m).length = a.size) {t : Tsig} (h : t.Ok)
    {key : Key} {k : Name} (hk : key.Is k) {msg : Bytes} (hm : 2 ≤ msg.length) (mac : Bytes) (now prev : Nat) (next : Bool) :
    check hmac now t.rr msg mac key prev next = .ok () ↔ ∃ a, t.Names a ∧ t.key = k ∧ a.size ≤ key.alg.size ∧
      t.mac = (hmac key.alg key.secret (t.data next msg mac)).take a.size ∧ t.Fresh now prev := by
  constructor
  · intro e
    rcases check_spec hl h hk hm mac now prev next with ⟨_, h1⟩ | ⟨a, h1, h2⟩
    · rw [e] at h1; simp at h1
    · refine ⟨a, h1, ?_⟩
      rcases h2 with ⟨_, h2⟩ | ⟨_, _, h2⟩ | ⟨_, _, _, h2⟩ | ⟨_, _, _, _, h2⟩ | ⟨_, _, _, _, _, h2⟩ | ⟨h2, h3, h4, h5, h6, h7⟩
      all_goals first | (rw [e] at h2; simp at h2; done) | exact ⟨h2, h4, h5, h6⟩
  · rintro ⟨a, h1, h2, h3, h4, h5⟩
    have hlen : t.mac.length = a.size := by rw [h4, List.length_take, hl]; omega
    rcases check_spec hl h hk hm mac now prev next with ⟨g1, _⟩ | ⟨b, g1, g2⟩
    · exact absurd h1 (g1 _)
    · have := names_inj g1 h1; subst this
      rcases g2 with ⟨g2, _⟩ | ⟨_, g2, _⟩ | ⟨_, _, g2, _⟩ | ⟨_, _, _, g2, _⟩ | ⟨_, _, _, _, g2, _⟩ | ⟨_, _, _, _, _, g2⟩
      · exact absurd h2 g2
      · exact absurd hlen g2
      · omega
      · exact absurd h4 g2
      · exact absurd h5 g2
      · exact g2

theorem checkNth_eq (hmac : Alg → Bytes → Bytes → Bytes) (now : Nat) (c : Cli) (rr : Rr) :
    checkNth hmac now c rr = check hmac now rr c.buffer c.digest c.key c.prev (decide (c.prev ≠ 0)) := by
  unfold checkNth
  by_cases h : c.prev = 0
  · rw [if_pos h]; simp [h, clientCheck]
  · rw [if_neg h]; simp [h, clientCheckNext]

theorem data_nth (t : Tsig) (prev : Nat) (msg mac : Bytes) : t.data (decide (prev ≠ 0)) msg mac =
    if prev = 0 then t.covered msg mac else t.coveredNext msg mac := by
  unfold Tsig.data
  by_cases h : prev = 0 <;> simp [h]

/-- A signed message is accepted by a client exactly if it is genuine. -/
theorem verifyPacket_iff {hmac : Alg → Bytes → Bytes → Bytes} (hl : ∀ a k m, (hmac a k m).length = a.size) {t : Tsig} (h : t.Ok)
    {c : Cli} {k : Name} (hk : c.key.Is k) (hd : c.digest.length = c.key.alg.size) {msg : Bytes} (hm : 2 ≤ msg.length) (now : Nat)
    (c' : Cli) :
    verifyPacket hmac now c msg (some t.rr) = .ok c' ↔ (c.buffer ++ msg).length ≤ 65535 * 100 ∧ t.key = k ∧ t.Names c.key.alg ∧
      t.mac = hmac c.key.alg c.key.secret (if c.prev = 0 then t.covered (c.buffer ++ msg) c.digest
        else t.coveredNext (c.buffer ++ msg) c.digest) ∧ t.Fresh now c.prev ∧
      c' = { c with digest := t.mac, prev := t.time, unsignedCount := 0, buffer := [] } := by
  have v := t.values h
  have v2 : get t.rr.rdata .macLen 2 = .ok t.mac.length := v.macLen
  have v3 : seek t.rr.rdata .mac 0 = .ok (some ((wire t.alg).length + 10)) := v.mac
  have v4 : load t.rr.rdata ((wire t.alg).length + 10) t.mac.length = .ok t.mac := v.macIs
  have v5 : get t.rr.rdata .time 6 = .ok t.time := v.time
  unfold verifyPacket
  by_cases hb : c.buffer.length + msg.length > 65535 * 100
  · rw [if_pos hb]
    constructor
    · intro e; simp at e
    · rintro ⟨e, _⟩; rw [List.length_append] at e; omega
  rw [if_neg hb]
  have hb' : (c.buffer ++ msg).length ≤ 65535 * 100 := by rw [List.length_append]; omega
  have hm' : 2 ≤ (c.buffer ++ msg).length := by rw [List.length_append]; omega
  simp only [checkNth_eq]
  rw [← data_nth]
  constructor
  · intro e
    generalize hch : check hmac now t.rr (c.buffer ++ msg) c.digest c.key c.prev (decide (c.prev ≠ 0)) = r at e
    cases r with
    | err => simp at e
    | ub => simp at e
    | ok u =>
      obtain ⟨a, h1, h2, h3, h4, h5⟩ := (check_ok_iff hl h hk hm' c.digest now c.prev _).1 hch
      simp only [Res.bind_ok, v2] at e
      by_cases hn : c.digest.length ≠ t.mac.length
      · rw [if_pos hn] at e; simp at e
      · rw [if_neg hn, v3] at e
        simp only [Res.bind_ok, v4, v5, Res.ok.injEq] at e
        have hlen : t.mac.length = a.size := by rw [h4, List.length_take, hl]; omega
        have ha : a = c.key.alg := size_inj (by omega)
        subst ha
        rw [take_all hl] at h4
        exact ⟨hb', h2, h1, h4, h5, e.symm⟩
  · rintro ⟨_, h2, h3, h4, h5, h6⟩
    have hch := (check_ok_iff hl h hk hm' c.digest now c.prev (decide (c.prev ≠ 0))).2
      ⟨_, h3, h2, Nat.le_refl _, by rw [take_all hl]; exact h4, h5⟩
    rw [hch]
    simp only [Res.bind_ok, v2]
    have hn : ¬ c.digest.length ≠ t.mac.length := by rw [h4, hl, hd]; simp
    rw [if_neg hn, v3]
    simp only [Res.bind_ok, v4, v5, h6]

theorem receive_iff {hmac : Alg → Bytes → Bytes → Bytes} (hl : ∀ a k m, (hmac a k m).length = a.size) {key : Key} {k : Name}
    (hk : key.Is k) : ∀ (l : List (Nat × Bytes × Option Tsig)) (mac : Bytes) (prev : Nat) (pend : List Bytes),
    (∀ x ∈ l, 2 ≤ x.2.1.length ∧ ∀ t, x.2.2 = some t → t.Ok) → mac.length = key.alg.size → pend.length < 100 →
    ((∃ c, receive hmac ⟨key, mac, prev, pend.length, pend.flatten⟩ (given l) = .ok c) ↔ Chain hmac key k mac prev pend l) := by
  intro l
  induction l with
  | nil =>
    intro mac prev pend _ _ _
    show (∃ c, receive hmac _ [] = .ok c) ↔ pend = []
    unfold receive
    by_cases hp : pend = []
    · simp [hp]
    · have : pend.length ≠ 0 := by simpa using hp
      simp [hp]
  | cons x l ih =>
    intro mac prev pend ha hmac' hp
    obtain ⟨now, m, o⟩ := x
    have ha' := fun x hx => ha x (List.mem_cons_of_mem _ hx)
    obtain ⟨hm, ho⟩ := ha _ (List.mem_cons_self ..)
    have hfl : (pend ++ [m]).flatten = pend.flatten ++ m := by simp
    cases o with
    | none =>
      have ih' := ih mac prev (pend ++ [m]) ha' hmac'
      rw [hfl] at ih'
      show (∃ c, receive hmac _ ((now, m, none) :: given l) = .ok c) ↔ _
      simp only [receive, verifyPacket, Chain]
      rw [hfl]
      by_cases hb : pend.flatten.length + m.length > 65535 * 100
      · rw [if_pos hb]
        simp only [Res.bind_err, List.length_append]
        constructor
        · rintro ⟨c, hc⟩; simp at hc
        · rintro ⟨_, h, _⟩; omega
      · rw [if_neg hb]
        simp only [Res.bind_ok]
        have hle : (pend ++ [m]).length = pend.length + 1 := by simp
        rw [hle] at ih'
        by_cases hc : pend.length + 1 ≥ 100
        · rw [if_pos hc, hle]
          constructor
          · rintro ⟨c, hc⟩; simp at hc
          · rintro ⟨h, _⟩; omega
        · rw [if_neg hc, ih' (by omega), hle]
          constructor
          · intro h; exact ⟨by omega, by rw [List.length_append]; omega, h⟩
          · rintro ⟨_, _, h⟩; exact h
    | some t =>
      show (∃ c, receive hmac _ ((now, m, some t.rr) :: given l) = .ok c) ↔ _
      have hv := fun c' => verifyPacket_iff hl (ho t rfl) (c := ⟨key, mac, prev, pend.length, pend.flatten⟩) hk hmac' hm now c'
      simp only [receive, Chain]
      rw [hfl]
      constructor
      · rintro ⟨c, hc⟩
        generalize hr : verifyPacket hmac now _ m (some t.rr) = r at hc
        cases r with
        | err => simp at hc
        | ub => simp at hc
        | ok c' =>
          obtain ⟨h1, h2, h3, h4, h5, h6⟩ := (hv c').1 hr
          subst h6
          simp only [Res.bind_ok] at hc
          rw [if_neg (by omega)] at hc
          have := (ih t.mac t.time [] ha' (by rw [h4, hl]) (by simp)).1 ⟨c, hc⟩
          exact ⟨h1, h2, h3, h4, h5, this⟩
      · rintro ⟨h1, h2, h3, h4, h5, h6⟩
        rw [(hv _).2 ⟨h1, h2, h3, h4, h5, rfl⟩]
        simp only [Res.bind_ok]
        rw [if_neg (by omega)]
        exact (ih t.mac t.time [] ha' (by rw [h4, hl]) (by simp)).2 h6

/-! ## The server -/

theorem verifyQuery_same {hmac : Alg → Bytes → Bytes → Bytes} (hl : ∀ a k m, (hmac a k m).length = a.size) {t : Tsig} (h : t.Ok)
    {key : Key} {k : Name} (hk : key.Is k) {msg : Bytes} (hm : 2 ≤ msg.length) (now : Nat) (hn : t.Names key.alg) :
    (t.key ≠ k ∧ verifyQuery hmac now t.rr msg key = .ok ⟨key, t.mac, 0, 17, 0⟩) ∨
    (t.key = k ∧ t.mac ≠ hmac key.alg key.secret (t.covered msg []) ∧ verifyQuery hmac now t.rr msg key = .ok ⟨key, t.mac, 0, 16, 0⟩) ∨
    (t.key = k ∧ t.mac = hmac key.alg key.secret (t.covered msg []) ∧ ¬ t.Fresh now 0 ∧
      verifyQuery hmac now t.rr msg key = .ok ⟨key, t.mac, 0, 18, t.time⟩) ∨
    (t.key = k ∧ t.mac = hmac key.alg key.secret (t.covered msg []) ∧ t.Fresh now 0 ∧
      verifyQuery hmac now t.rr msg key = .ok ⟨key, t.mac, 0, 0, 0⟩) := by
  have v := t.values h
  have v2 : get t.rr.rdata .macLen 2 = .ok t.mac.length := v.macLen
  have v3 : seek t.rr.rdata .mac 0 = .ok (some ((wire t.alg).length + 10)) := v.mac
  have v4 : load t.rr.rdata ((wire t.alg).length + 10) t.mac.length = .ok t.mac := v.macIs
  have v5 : get t.rr.rdata .time 6 = .ok t.time := v.time
  unfold verifyQuery
  rw [v2, v3]
  simp only [Res.bind_ok, v4, serverCheck]
  rcases check_same hl h hk hm [] now 0 false hn with ⟨h1, h2⟩ | ⟨h1, h2, h3⟩ | ⟨h1, h2, h3, h4⟩ | ⟨h1, h2, h3, h4⟩
  · left; rw [h2]; exact ⟨h1, rfl⟩
  · right; left; rw [h3]; exact ⟨h1, h2, rfl⟩
  · right; right; left; rw [h4]; simp only [v5, Res.bind_ok]; exact ⟨h1, h2, h3, trivial⟩
  · right; right; right; rw [h4]; exact ⟨h1, h2, h3, rfl⟩

theorem store_whole {a b : Bytes} (h : a.length = b.length) : store a 0 b = .ok b := by
  have := store_mid [] a [] b (p := 0) rfl h.symm
  simpa using this

theorem signResponse_first {hmac : Alg → Bytes → Bytes → Bytes} (hl : ∀ a k m, (hmac a k m).length = a.size) {key : Key} {k : Name}
    (hk : key.Is k) {msg : Bytes} (hm : 12 ≤ msg.length) {mac : Bytes} (hmac' : mac.length = key.alg.size) (now max : Nat)
    (q : Rr) {rcode : Nat} (hr : rcode = 0 ∨ rcode = 18) (rt : Nat) :
    ∃ t, t = made k key.alg (if rcode = 18 then rt else now) (idOf msg) (if rcode = 18 then 18 else 0)
        (if rcode = 18 then beBytes 6 now else []) (hmac key.alg key.secret (t.covered msg mac)) ∧ t.Ok ∧
      ((t.octets.length ≤ max - msg.length ∧ ∃ w, signResponse hmac now ⟨key, mac, 0, rcode, rt⟩ q msg max =
          .ok (w, ⟨key, t.mac, 1, rcode, rt⟩) ∧ Carries w msg t) ∨
       (¬ t.octets.length ≤ max - msg.length ∧ signResponse hmac now ⟨key, mac, 0, rcode, rt⟩ q msg max = .err .espace)) := by
  obtain ⟨t, h1, h2, h3⟩ := sign_spec hl hk hm mac now max rcode rt
  refine ⟨t, h1, h2, ?_⟩
  have hml : t.mac.length = key.alg.size := by rw [h1]; exact hl _ _ _
  unfold signResponse
  rw [if_pos (show (⟨key, mac, 0, rcode, rt⟩ : Srv).rcode = 0 ∨ (⟨key, mac, 0, rcode, rt⟩ : Srv).rcode = 18 from hr)]
  simp only [signNth, if_true]
  rcases h3 with ⟨g1, w, g2, g3⟩ | ⟨g1, g2⟩
  · left
    refine ⟨g1, w, ?_, g3⟩
    rw [g2]
    simp only [Res.bind_ok]
    rw [store_whole (by rw [hmac', hml])]
    rfl
  · right
    exact ⟨g1, by rw [g2]; rfl⟩

theorem signResponse_next {hmac : Alg → Bytes → Bytes → Bytes} (hl : ∀ a k m, (hmac a k m).length = a.size) {key : Key} {k : Name}
    (hk : key.Is k) {msg : Bytes} (hm : 12 ≤ msg.length) {mac : Bytes} (hmac' : mac.length = key.alg.size) (now max : Nat)
    (q : Rr) {count : Nat} (hc : count ≠ 0) (rt : Nat) :
    ∃ t, t = made k key.alg now (idOf msg) 0 [] (hmac key.alg key.secret (t.coveredNext msg mac)) ∧ t.Ok ∧
      ((t.octets.length ≤ max - msg.length ∧ ∃ w, signResponse hmac now ⟨key, mac, count, 0, rt⟩ q msg max =
          .ok (w, ⟨key, t.mac, count + 1, 0, rt⟩) ∧ Carries w msg t) ∨
       (¬ t.octets.length ≤ max - msg.length ∧ signResponse hmac now ⟨key, mac, count, 0, rt⟩ q msg max = .err .espace)) := by
  obtain ⟨t, h1, h2, h3⟩ := signNext_spec hl hk hm mac now max (space := key.alg.size) (Nat.le_refl _)
  refine ⟨t, h1, h2, ?_⟩
  have hml : t.mac.length = key.alg.size := by rw [h1]; exact hl _ _ _
  unfold signResponse
  rw [if_pos (show (⟨key, mac, count, 0, rt⟩ : Srv).rcode = 0 ∨ (⟨key, mac, count, 0, rt⟩ : Srv).rcode = 18 from .inl rfl)]
  simp only [signNth, hc, if_false]
  rcases h3 with ⟨g1, w, g2, g3⟩ | ⟨g1, g2⟩
  · left
    refine ⟨g1, w, ?_, g3⟩
    rw [g2]
    simp only [Res.bind_ok]
    rw [store_whole (by rw [hmac', hml])]
    rfl
  · right
    exact ⟨g1, by rw [g2]; rfl⟩

theorem made_names (k : Name) (a : Alg) (time id error : Nat) (other mac : Bytes) : (made k a time id error other mac).Names a :=
  algName_low a

end Knot.Tsig
