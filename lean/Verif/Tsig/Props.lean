import Verif.Tsig.Lemmas7
/-!
# TSIG: properties (C24)

`hmac` is any function with the lengths of the digests.
-/
namespace Knot
open Tsig
open Dname (Name wire Valid lowerName)
open WireCtx (beBytes beVal)

/-- The record in a message: knot_tsig_rdata_is_ok() tells exactly the RDATA of RFC 8945 from others. -/
theorem C24_format {k a : Name} (hk : Valid k) (ha : Valid a) {cls ttl : Nat} (hc : cls < 2 ^ 16) (ht : ttl < 2 ^ 32) (rest : Tsig.Bytes) :
    (isOk ⟨wire k, cls, ttl, wire a ++ rest⟩ = .ok true ↔ ∃ t : Tsig.Tsig, t.Ok ∧ t.rr = ⟨wire k, cls, ttl, wire a ++ rest⟩ ∧ t.alg = a) ∧
    (isOk ⟨wire k, cls, ttl, wire a ++ rest⟩ = .ok true ∨ isOk ⟨wire k, cls, ttl, wire a ++ rest⟩ = .ok false) :=
  isOk_iff hk ha hc ht rest

section
variable {hmac : Alg → Tsig.Bytes → Tsig.Bytes → Tsig.Bytes} (hl : ∀ a k m, (hmac a k m).length = a.size)
include hl

/-- What is accepted by the functions of the library: the key has the name, the algorithm in the record is known and has
a digest not longer than the one of the key, the MAC is the beginning of the digest and the time is in the window. The
digest is of the algorithm of the key, so the algorithm in the record need not be the one of the key; see
`C24_algorithm_ignored`. -/
theorem C24_accept_partial {t : Tsig.Tsig} (h : t.Ok) {key : Key} {k : Name} (hk : key.Is k) {msg : Tsig.Bytes} (hm : 2 ≤ msg.length)
    (mac : Tsig.Bytes) (now prev : Nat) :
    (serverCheck hmac now t.rr msg key = .ok () ↔ ∃ a, t.Names a ∧ t.key = k ∧ a.size ≤ key.alg.size ∧
      t.mac = (hmac key.alg key.secret (t.covered msg [])).take a.size ∧ t.Fresh now 0) ∧
    (clientCheck hmac now t.rr msg mac key prev = .ok () ↔ ∃ a, t.Names a ∧ t.key = k ∧ a.size ≤ key.alg.size ∧
      t.mac = (hmac key.alg key.secret (t.covered msg mac)).take a.size ∧ t.Fresh now prev) ∧
    (clientCheckNext hmac now t.rr msg mac key prev = .ok () ↔ ∃ a, t.Names a ∧ t.key = k ∧ a.size ≤ key.alg.size ∧
      t.mac = (hmac key.alg key.secret (t.coveredNext msg mac)).take a.size ∧ t.Fresh now prev) :=
  ⟨check_ok_iff hl h hk hm [] now 0 false, check_ok_iff hl h hk hm mac now prev false, check_ok_iff hl h hk hm mac now prev true⟩

/-- When the record names the algorithm of the key (the server looks for the key by both, C20), a request is accepted
exactly if the key has the name, the MAC is the digest of the message, and the time is in the window; the errors are told
apart in this order. -/
theorem C24_request {t : Tsig.Tsig} (h : t.Ok) {key : Key} {k : Name} (hk : key.Is k) {msg : Tsig.Bytes} (hm : 2 ≤ msg.length)
    (now : Nat) (hn : t.Names key.alg) :
    (serverCheck hmac now t.rr msg key = .ok () ↔
      t.key = k ∧ t.mac = hmac key.alg key.secret (t.covered msg []) ∧ t.Fresh now 0) ∧
    (serverCheck hmac now t.rr msg key = .err .tsigBadKey ↔ t.key ≠ k) ∧
    (serverCheck hmac now t.rr msg key = .err .tsigBadSig ↔
      t.key = k ∧ t.mac ≠ hmac key.alg key.secret (t.covered msg [])) ∧
    (serverCheck hmac now t.rr msg key = .err .tsigBadTime ↔
      t.key = k ∧ t.mac = hmac key.alg key.secret (t.covered msg []) ∧ ¬ t.Fresh now 0) := by
  unfold serverCheck
  have hd : t.data false msg [] = t.covered msg [] := rfl
  rcases check_same hl h hk hm [] now 0 false hn with ⟨h1, h2⟩ | ⟨h1, h2, h3⟩ | ⟨h1, h2, h3, h4⟩ | ⟨h1, h2, h3, h4⟩
  · rw [h2]; simp [h1]
  · rw [h3]; rw [hd] at h2; simp [h1, h2]
  · rw [h4]; rw [hd] at h2; simp [h1, ← h2, h3]
  · rw [h4]; rw [hd] at h2; simp [h1, ← h2, h3]

/-- A message is signed by the record of RFC 8945: with the time of the clock and the window of 300 seconds, and for
BADTIME with the time of the request and the clock in the other data. It is not signed if there is no room. -/
theorem C24_signed {key : Key} {k : Name} (hk : key.Is k) {msg : Tsig.Bytes} (hm : 12 ≤ msg.length) (mac : Tsig.Bytes)
    (now max rcode reqTime : Nat) :
    ∃ t : Tsig.Tsig, t.Ok ∧ t.key = k ∧ t.cls = 255 ∧ t.ttl = 0 ∧ t.alg = algName key.alg ∧
      t.time = (if rcode = 18 then reqTime else now) % 2 ^ 48 ∧ t.fudge = 300 ∧ t.id = idOf msg ∧
      t.error = (if rcode = 18 then 18 else 0) ∧ t.other = (if rcode = 18 then beBytes 6 now else []) ∧
      t.mac = hmac key.alg key.secret (t.covered msg mac) ∧
      ((t.octets.length ≤ max - msg.length ∧ ∃ w, sign hmac now msg max mac key rcode reqTime = .ok (w, t.mac) ∧ Carries w msg t) ∨
       (¬ t.octets.length ≤ max - msg.length ∧ sign hmac now msg max mac key rcode reqTime = .err .espace)) := by
  obtain ⟨t, h1, h2, h3⟩ := sign_spec hl hk hm mac now max rcode reqTime
  refine ⟨t, h2, ?_, ?_, ?_, ?_, ?_, ?_, ?_, ?_, ?_, ?_, h3⟩
  all_goals first | exact congrArg Tsig.mac h1 | (rw [h1]; rfl)

/-- The same for the next messages of a response. -/
theorem C24_signed_next {key : Key} {k : Name} (hk : key.Is k) {msg : Tsig.Bytes} (hm : 12 ≤ msg.length) (mac : Tsig.Bytes)
    (now max space : Nat) (hs : key.alg.size ≤ space) :
    ∃ t : Tsig.Tsig, t.Ok ∧ t.key = k ∧ t.cls = 255 ∧ t.ttl = 0 ∧ t.alg = algName key.alg ∧
      t.time = now % 2 ^ 48 ∧ t.fudge = 300 ∧ t.id = idOf msg ∧ t.error = 0 ∧ t.other = [] ∧
      t.mac = hmac key.alg key.secret (t.coveredNext msg mac) ∧
      ((t.octets.length ≤ max - msg.length ∧ ∃ w, signNext hmac now msg max mac space key = .ok (w, t.mac) ∧ Carries w msg t) ∨
       (¬ t.octets.length ≤ max - msg.length ∧ signNext hmac now msg max mac space key = .err .espace)) := by
  obtain ⟨t, h1, h2, h3⟩ := signNext_spec hl hk hm mac now max hs
  refine ⟨t, h2, ?_, ?_, ?_, ?_, ?_, ?_, ?_, ?_, ?_, ?_, h3⟩
  all_goals first | exact congrArg Tsig.mac h1 | (rw [h1]; rfl)

/-- The space reserved for the record is the one it takes, but for BADTIME there are 6 octets more. -/
theorem C24_reserved {key : Key} {k : Name} (hk : key.Is k) {msg : Tsig.Bytes} (hm : 12 ≤ msg.length) (mac : Tsig.Bytes)
    (now max rcode reqTime : Nat) :
    ∃ n, wireSize key = .ok n ∧
      ((∃ w, sign hmac now msg max mac key rcode reqTime = .ok w) ↔ n + (if rcode = 18 then 6 else 0) ≤ max - msg.length) := by
  have h1 : Dname.size (wire k) = .ok (wire k).length := by
    have := Dname.size_wire [] hk.2.1
    rw [List.append_nil] at this
    rw [this, Dname.wire_length]
  have h2 : Dname.size (wire (algName key.alg)) = .ok (wire (algName key.alg)).length := by
    have := Dname.size_wire [] (algName_ok key.alg).1
    rw [List.append_nil] at this
    rw [this, Dname.wire_length]
  refine ⟨(wire k).length + 16 + 2 + 2 + 4 + 2 + (wire (algName key.alg)).length + key.alg.size, ?_, ?_⟩
  · unfold wireSize
    rw [hk.1, dname_wire, h1, h2]
    rfl
  · obtain ⟨t, t1, _, t3⟩ := sign_spec hl hk hm mac now max rcode reqTime
    have ho : t.octets.length = (wire k).length + 16 + 2 + 2 + 4 + 2 + (wire (algName key.alg)).length + key.alg.size +
        (if rcode = 18 then 6 else 0) := by
      rw [t1]
      unfold Tsig.octets Tsig.rdata made
      simp only [List.length_append, beBytes_length, hl]
      split
      · simp only [beBytes_length]; omega
      · simp only [List.length_nil]; omega
    rw [← ho]
    rcases t3 with ⟨g1, w, g2, _⟩ | ⟨g1, g2⟩
    · rw [g2]; exact ⟨fun _ => g1, fun _ => ⟨_, rfl⟩⟩
    · rw [g2]; simp [g1]

/-- A response in several messages is taken by the client exactly if it is genuine: every TSIG record is by the key, with
its algorithm, covers the previous MAC and all the messages since then, and is fresh; the last message has a record. -/
theorem C24_response {key : Key} {k : Name} (hk : key.Is k) {mac : Tsig.Bytes} (hm : mac.length = key.alg.size)
    (l : List (Nat × Tsig.Bytes × Option Tsig.Tsig)) (ha : ∀ x ∈ l, 2 ≤ x.2.1.length ∧ ∀ t, x.2.2 = some t → t.Ok) :
    (∃ c, receive hmac ⟨key, mac, 0, 0, []⟩ (given l) = .ok c) ↔ Chain hmac key k mac 0 [] l :=
  receive_iff hl hk l mac 0 [] ha hm (by simp)

/-- From the query to the end of a response: what the client signs is accepted by the server, and all that the server
signs is accepted by the client, when the clocks differ by not more than 300 seconds and the one of the server does not
go back. -/
theorem C24_exchange {key : Key} {k : Name} (hk : key.Is k) {query : Tsig.Bytes} (hq : 12 ≤ query.length) {now now' max : Nat}
    (hc : Clocks now now') {wq : Tsig.Bytes} {c : Cli} (hsign : signQuery hmac now { key } query max = .ok (wq, c)) :
    ∃ t s, t.Ok ∧ Carries wq query t ∧ verifyQuery hmac now' t.rr query key = .ok s ∧ s.rcode = 0 ∧
      ∀ (l : List (Nat × Nat × Tsig.Bytes × Nat)) (ws : List Tsig.Bytes) (s' : Srv),
        (∀ x ∈ l, Clocks x.1 x.2.1 ∧ 12 ≤ x.2.2.1.length ∧ x.2.2.1.length ≤ 65535) →
        List.Pairwise (fun x y => x.1 ≤ y.1) l →
        answerAll hmac t.rr s (l.map fun x => (x.1, x.2.2)) = .ok (ws, s') →
        ∃ ts : List Tsig.Tsig, ws.length = l.length ∧ ts.length = l.length ∧
          (∀ (i : Nat) (w : Tsig.Bytes) (x : Nat × Nat × Tsig.Bytes × Nat) (t : Tsig.Tsig), ws[i]? = some w → l[i]? = some x →
            ts[i]? = some t → Carries w x.2.2.1 t ∧ t.Ok) ∧
          ∃ c', receive hmac c (given (List.zipWith (fun x t => (x.2.1, x.2.2.1, some t)) l ts)) = .ok c' := by
  obtain ⟨t, t1, t2, t3⟩ := sign_spec hl hk hq [] now max 0 0
  simp only [show ¬ (0 = 18) by omega, if_false] at t1
  rcases t3.symm with ⟨_, t3⟩ | ⟨_, w, t3, t4⟩
  · unfold signQuery at hsign; simp only [t3, Res.bind_err] at hsign; simp at hsign
  unfold signQuery at hsign
  simp only [t3, Res.bind_ok, Res.ok.injEq, Prod.mk.injEq] at hsign
  obtain ⟨rfl, rfl⟩ := hsign
  have hmacl : t.mac.length = key.alg.size := by rw [t1]; exact hl _ _ _
  have hn : t.Names key.alg := by rw [t1]; exact made_names _ _ _ _ _ _ _
  have hkey : t.key = k := by rw [t1]; rfl
  have hm : t.mac = hmac key.alg key.secret (t.covered query []) := congrArg Tsig.mac t1
  have hf : t.Fresh now' 0 := by rw [t1]; exact made_fresh hc (Nat.zero_le _)
  have hv : verifyQuery hmac now' t.rr query key = .ok ⟨key, t.mac, 0, 0, 0⟩ := by
    rcases verifyQuery_same hl t2 hk (msg := query) (by omega) now' hn with ⟨g, _⟩ | ⟨_, g, _⟩ | ⟨_, _, g, _⟩ | ⟨_, _, _, g⟩
    · exact absurd hkey g
    · exact absurd hm g
    · exact absurd hf g
    · exact g
  refine ⟨t, _, t2, t4, hv, rfl, ?_⟩
  intro l ws s' ha hs h
  obtain ⟨ts, g1, g2, g3, g4⟩ := transfer_first hl hk t.rr l t.mac ws s' hmacl ha hs h
  refine ⟨ts, g1, g2, g3, (receive_iff hl hk _ t.mac 0 [] ?_ hmacl (by simp)).2 g4⟩
  intro x hx
  obtain ⟨i, hi⟩ := List.mem_iff_getElem?.1 hx
  rw [List.getElem?_zipWith] at hi
  cases hli : l[i]? with
  | none => simp [hli] at hi
  | some y =>
    cases hti : ts[i]? with
    | none => simp [hli, hti] at hi
    | some u =>
      simp [hli, hti] at hi
      subst hi
      have hy := (ha y (List.mem_of_getElem? hli)).2.1
      have hlt : i < ws.length := by
        rw [g1]; exact (List.getElem?_eq_some_iff.1 hli).1
      have := g3 i ws[i] y u (List.getElem?_eq_getElem hlt) hli hti
      refine ⟨by simp only; omega, ?_⟩
      intro v hv
      simp only [Option.some.injEq] at hv
      subst hv
      exact this.2

/-- A query with the right MAC at the wrong time: the response is signed, with BADTIME, the time of the query and the
clock of the server. -/
theorem C24_badtime {t : Tsig.Tsig} (h : t.Ok) {key : Key} {k : Name} (hk : key.Is k) {query : Tsig.Bytes} (hq : 2 ≤ query.length)
    (now now' : Nat) (hn : t.Names key.alg) (hkey : t.key = k) (hmac' : t.mac = hmac key.alg key.secret (t.covered query []))
    (hf : ¬ t.Fresh now 0) {msg : Tsig.Bytes} (hm : 12 ≤ msg.length) (max : Nat) :
    ∃ s, verifyQuery hmac now t.rr query key = .ok s ∧ s.rcode = 18 ∧
      ∃ u : Tsig.Tsig, u.Ok ∧ u.key = k ∧ u.alg = algName key.alg ∧ u.error = 18 ∧ u.time = t.time ∧ u.other = beBytes 6 now' ∧
        u.mac = hmac key.alg key.secret (u.covered msg t.mac) ∧
        ((∃ w s', signResponse hmac now' s t.rr msg max = .ok (w, s') ∧ Carries w msg u) ∨
          (¬ u.octets.length ≤ max - msg.length ∧ signResponse hmac now' s t.rr msg max = .err .espace)) := by
  rcases verifyQuery_same hl h hk hq now hn with ⟨g, _⟩ | ⟨_, g, _⟩ | ⟨_, _, _, hv⟩ | ⟨_, _, g, _⟩
  · exact absurd hkey g
  · exact absurd hmac' g
  · refine ⟨_, hv, rfl, ?_⟩
    have hml : t.mac.length = key.alg.size := by rw [hmac', hl]
    obtain ⟨u, h1, h2, h3⟩ := signResponse_first hl hk hm hml now' max t.rr (rcode := 18) (.inr rfl) t.time
    simp only [if_true] at h1
    refine ⟨u, h2, by rw [h1]; rfl, by rw [h1]; rfl, by rw [h1]; rfl, ?_, by rw [h1]; rfl, congrArg Tsig.mac h1, ?_⟩
    · rw [h1]; exact Nat.mod_eq_of_lt h.time
    · rcases h3 with ⟨_, w, g1, g2⟩ | h3
      · exact .inl ⟨w, _, g1, g2⟩
      · exact .inr h3
  · exact absurd g hf

/-- A query with the wrong key or MAC: the response is not signed, the record has no MAC and tells the error. -/
theorem C24_unsigned_error {t : Tsig.Tsig} (h : t.Ok) {key : Key} {k : Name} (hk : key.Is k) {query : Tsig.Bytes} (hq : 2 ≤ query.length)
    (now now' : Nat) (hn : t.Names key.alg) (hbad : t.key ≠ k ∨ t.mac ≠ hmac key.alg key.secret (t.covered query []))
    {msg : Tsig.Bytes} (hm : 12 ≤ msg.length) (max : Nat) :
    ∃ s, verifyQuery hmac now t.rr query key = .ok s ∧ s.rcode = (if t.key ≠ k then 17 else 16) ∧
      ∃ u : Tsig.Tsig, u = ⟨t.key, 255, 0, t.alg, t.time, 300, [], idOf msg, s.rcode, []⟩ ∧
        ((∃ w, signResponse hmac now' s t.rr msg max = .ok (w, s) ∧ Carries w msg u) ∨
          (¬ u.octets.length ≤ max - msg.length ∧ signResponse hmac now' s t.rr msg max = .err .espace)) := by
  have key17 : ∀ r, r = 17 ∨ r = 16 → ∀ s : Srv, s.rcode = r → ∃ u : Tsig.Tsig, u = ⟨t.key, 255, 0, t.alg, t.time, 300, [], idOf msg, s.rcode, []⟩ ∧
        ((∃ w, signResponse hmac now' s t.rr msg max = .ok (w, s) ∧ Carries w msg u) ∨
          (¬ u.octets.length ≤ max - msg.length ∧ signResponse hmac now' s t.rr msg max = .err .espace)) := by
    intro r hr s hs
    obtain ⟨u, h1, h2⟩ := add_spec h hm max (rcode := s.rcode) (by omega)
    refine ⟨u, h1, ?_⟩
    unfold signResponse
    rw [if_neg (by omega)]
    rcases h2 with ⟨_, w, g1, g2⟩ | ⟨g1, g2⟩
    · left; exact ⟨w, by rw [g1]; rfl, g2⟩
    · right; exact ⟨g1, by rw [g2]; rfl⟩
  rcases verifyQuery_same hl h hk hq now hn with ⟨g, hv⟩ | ⟨g, _, hv⟩ | ⟨g, g', _⟩ | ⟨g, g', _⟩
  · exact ⟨_, hv, by simp [g], key17 17 (.inl rfl) _ rfl⟩
  · exact ⟨_, hv, by simp [g], key17 16 (.inr rfl) _ rfl⟩
  · exact absurd hbad (by simp [g, ← g'])
  · exact absurd hbad (by simp [g, ← g'])

/-- Finding: the library does not compare the algorithm in the record to the one of the key. A record that names another
algorithm with a shorter digest needs only the beginning of the digest: with a key for HMAC-SHA512, the 16 octets of MD5. -/
theorem C24_algorithm_ignored {key : Key} {k : Name} (hk : key.Is k) (ha : key.alg = .sha512) {msg : Tsig.Bytes}
    (hm : 2 ≤ msg.length) {now : Nat} (hnow : 0 < now) (hnow' : now < 2 ^ 48) :
    ∃ t : Tsig.Tsig, t.Ok ∧ t.Names .md5 ∧ t.mac.length = 16 ∧ serverCheck hmac now t.rr msg key = .ok () := by
  let t0 := made k .md5 now 0 0 [] []
  let d := (hmac key.alg key.secret (t0.covered msg [])).take 16
  have hd : d.length = Alg.size .md5 := by
    show ((hmac key.alg key.secret (t0.covered msg [])).take 16).length = 16
    rw [List.length_take, hl, ha]; decide
  refine ⟨made k .md5 now 0 0 [] d, made_ok hk.2 .md5 now (by omega) (by omega) (by simp) hd, made_names _ _ _ _ _ _ _, hd, ?_⟩
  refine (check_ok_iff hl (made_ok hk.2 .md5 now (by omega) (by omega) (by simp) hd) hk hm [] now 0 false).2
    ⟨.md5, made_names _ _ _ _ _ _ _, rfl, by rw [ha]; decide, rfl, made_fresh ⟨hnow, hnow', by omega, by omega⟩ (Nat.zero_le _)⟩

/-- Finding: if the digest of the algorithm in the record is longer than the one of the key, octets of the stack that
were not written are compared. The client does so for every MAC of that length. -/
theorem C24_uninitialised {key : Key} {k : Name} (hk : key.Is k) {t : Tsig.Tsig} (h : t.Ok) {a : Alg} (hn : t.Names a)
    (hkey : t.key = k) (hmac' : t.mac.length = a.size) (hs : key.alg.size < a.size) {msg : Tsig.Bytes} (hm : 2 ≤ msg.length)
    (hm' : msg.length ≤ 65535) (mac : Tsig.Bytes) (now : Nat) :
    serverCheck hmac now t.rr msg key = .ub ∧ verifyPacket hmac now ⟨key, mac, 0, 0, []⟩ msg (some t.rr) = .ub := by
  have hub : ∀ m, check hmac now t.rr msg m key 0 false = .ub := by
    intro m
    rcases check_spec hl h hk hm m now 0 false with ⟨g, _⟩ | ⟨b, g1, g2⟩
    · exact absurd hn (g _)
    · have := names_inj g1 hn; subst this
      rcases g2 with ⟨g, _⟩ | ⟨_, g, _⟩ | ⟨_, _, _, g⟩ | ⟨_, _, g, _⟩ | ⟨_, _, g, _⟩ | ⟨_, _, g, _⟩
      · exact absurd hkey g
      · exact absurd hmac' g
      · exact g
      all_goals omega
  refine ⟨hub [], ?_⟩
  unfold verifyPacket
  rw [if_neg (by simp only [List.length_nil]; omega)]
  simp only [checkNth_eq, List.nil_append, ne_eq, not_true_eq_false, decide_false]
  rw [hub]
  rfl

end

/-! ## Cases -/

section
/-- A function with the lengths of the digests. -/
private def toy : Alg → Tsig.Bytes → Tsig.Bytes → Tsig.Bytes :=
  fun a k m => (List.range a.size).map fun i => UInt8.ofNat (i + (k.map UInt8.toNat).sum + (m.map UInt8.toNat).sum)

private theorem toy_len : ∀ a k m, (toy a k m).length = a.size := by intro a k m; simp [toy]

private def key1 : Key := ⟨wire [[107]], .sha256, [1, 2, 3]⟩
private theorem key1_is : key1.Is [[107]] := ⟨rfl, by unfold Valid; decide⟩
private def query1 : Tsig.Bytes := [18, 52, 0, 0, 0, 1, 0, 0, 0, 0, 0, 0, 1, 97, 0, 0, 1, 0, 1]
private def long1 : Tsig.Tsig := ⟨[[107]], 255, 0, algName .sha512, 1000, 300, List.replicate 64 7, 18, 0, []⟩

/-- The client signs a query. -/
example : (match signQuery toy 1000 { key := key1 } query1 512 with
    | .ok (w, c) => (w.length, c.digest.length)
    | _ => (0, 0)) = (19 + 74, 32) := by decide +kernel

/-- A response of two messages by the server. -/
example : (match answerAll toy long1.rr ⟨key1, List.replicate 32 5, 0, 0, 0⟩ [(1000, query1, 512), (1001, query1, 512)] with
    | .ok (ws, s) => (ws.map List.length, s.count)
    | _ => ([], 0)) = ([93, 93], 2) := by decide +kernel

example : Clocks 1000 1300 := by unfold Clocks; decide

/-- A record that makes the client read what was not written. -/
example : serverCheck toy 1000 long1.rr query1 key1 = .ub :=
  (C24_uninitialised toy_len key1_is (t := long1) ⟨by unfold Valid; decide, by decide, by decide, by unfold Valid; decide, by decide, by decide, by decide, by decide,
    by decide, by decide⟩ (a := .sha512) (by show lowerName (algName .sha512) = algName .sha512; decide) rfl (by decide) (by decide) (by decide)
    (by decide) [] 1000).1
end

end Knot
