import Verif.Tsig.Lemmas6
/-!
# TSIG: records without signature, the format, transfers
-/
namespace Knot.Tsig
open Dname (Name wire Valid lowerName nameLen)
open WireCtx (Ctx beBytes beVal load store)

theorem add_spec {t : Tsig} (h : t.Ok) {msg : Bytes} (hm : 12 ≤ msg.length) (max : Nat) {rcode : Nat} (hr : rcode ≠ 18) :
    ∃ u : Tsig, u = ⟨t.key, 255, 0, t.alg, t.time, 300, [], idOf msg, rcode, []⟩ ∧
      ((u.octets.length ≤ max - msg.length ∧ ∃ w, add msg max rcode t.rr = .ok w ∧ Carries w msg u) ∨
       (¬ u.octets.length ≤ max - msg.length ∧ add msg max rcode t.rr = .err .espace)) := by
  refine ⟨_, rfl, ?_⟩
  have v := t.values h
  have v1 : Dname.copyAll t.rr.rdata = .ok (wire t.alg) := v.algIs
  have v5 : get t.rr.rdata .time 6 = .ok t.time := v.time
  unfold add
  rw [if_neg hr, v1]
  simp only [Res.bind_ok]
  rw [createRdata_shape h.alg (by omega)]
  simp only [Res.bind_ok, v5, hr, if_false]
  have s1 : ∀ x f i o, x.length = 6 → f.length = 2 → i.length = 2 → o.length = 2 →
      Shape t.alg x f [] i (beBytes 2 rcode) o := fun x f i o h0 h1 h2 h4 =>
    ⟨h.alg.1, h0, h1, by simp, h2, by simp [beBytes_length], by omega⟩
  have hid2 : (msg.take 2).length = 2 := by simp; omega
  simp only [List.replicate_zero]
  rw [set_time (s1 _ _ _ _ (by simp) (by simp) (by simp) (by simp)) (by simp [beBytes_length])]
  simp only [Res.bind_ok]
  rw [set_fudge (s1 _ _ _ _ (by simp [beBytes_length]) (by simp) (by simp) (by simp)) (by simp [beBytes_length])]
  simp only [Res.bind_ok]
  rw [load_id (by omega)]
  simp only [Res.bind_ok]
  rw [set_origId (s1 _ _ _ _ (by simp [beBytes_length]) (by simp [beBytes_length]) (by simp) (by simp)) hid2]
  simp only [Res.bind_ok]
  rw [setOther_shape (s1 _ _ _ _ (by simp [beBytes_length]) (by simp [beBytes_length]) hid2 (by simp)) (by simp) (by simp)]
  simp only [Res.bind_ok]
  have hrr : (⟨t.rr.owner, 255, 0, shape (wire t.alg) (beBytes 6 t.time) (beBytes 2 300) [] (msg.take 2) (beBytes 2 rcode)
      (beBytes 2 ([] : Bytes).length ++ [])⟩ : Rr) = (⟨t.key, 255, 0, t.alg, t.time, 300, [], idOf msg, rcode, []⟩ : Tsig).rr := by
    unfold Tsig.rr
    rw [Tsig.rdata_shape ⟨t.key, 255, 0, t.alg, t.time, 300, [], idOf msg, rcode, []⟩, idOf_bytes (msg := msg) (by omega)]
  have e : ([] : Bytes).length = 0 := rfl
  simp only [e] at hrr ⊢
  rw [hrr]
  exact append_spec hm max _

/-! ## The format -/

theorem skip_err {c : Ctx} (h : c.error ≠ none) (n : Int) : (WireCtx.skip c n).error ≠ none := by
  unfold WireCtx.skip; rw [if_pos h]; exact h

theorem skip_short {c : Ctx} {n : Nat} (hn : WireCtx.available c < n) : (WireCtx.skip c (n : Int)).error ≠ none := by
  unfold WireCtx.skip
  split
  · assumption
  · rw [if_pos (by omega), if_pos (by omega)]; simp

theorem readU_short {c : Ctx} {n : Nat} (h : c.error ≠ none ∨ WireCtx.available c < n) :
    ∃ v c', WireCtx.readU c n = .ok (v, c') ∧ c'.error ≠ none := by
  unfold WireCtx.readU WireCtx.read
  by_cases he : c.error ≠ none
  · rw [if_pos he]; exact ⟨_, _, rfl, he⟩
  · have he' : c.error = none := Classical.not_not.1 he
    have hs : WireCtx.available c < n := h.resolve_left he
    rw [if_neg he]
    unfold WireCtx.canRead
    rw [he']
    simp only [if_pos hs]
    exact ⟨_, _, rfl, by simp⟩

/-- The end of the search for the other data. -/
theorem tail_err {c : Ctx} (h : c.error ≠ none ∨ WireCtx.available c < 6) :
    ∃ v c', WireCtx.readU (WireCtx.skip c 4) 2 = .ok (v, c') ∧ c'.error ≠ none := by
  apply readU_short
  rcases h with h | h
  · exact .inl (skip_err h 4)
  · by_cases h4 : WireCtx.available c < 4
    · exact .inl (skip_short (n := 4) h4)
    · by_cases he : c.error = none
      · right
        have := skip_ok (n := 4) he (by omega)
        rw [show ((4 : Nat) : Int) = 4 from rfl] at this
        rw [this]
        unfold WireCtx.available at *
        simp only
        omega
      · exact .inl (skip_err he 4)

theorem seek_other_err {rd : Bytes} {n : Nat} {c : Ctx} (hs : Dname.size rd = .ok n)
    (h1 : skip16 (WireCtx.skip (WireCtx.initConst rd rd.length) (n + 8 : Nat)) = .ok c) (h : c.error ≠ none ∨ WireCtx.available c < 6) :
    seek rd .other 0 = .ok none := by
  unfold seek
  split
  · rfl
  · obtain ⟨v, c', h2, h3⟩ := tail_err h
    rw [hs]
    simp only [Res.bind_ok, seekField, h1, ne_eq, not_true_eq_false, if_false, h2]
    split
    · rfl
    · rw [Res.bind_ok]; simp only; rw [if_pos h3]

theorem skip16_short {c : Ctx} (h : c.error ≠ none ∨ WireCtx.available c < 2) : ∃ c', skip16 c = .ok c' ∧ c'.error ≠ none := by
  obtain ⟨v, c', h1, h2⟩ := readU_short h
  unfold skip16
  rw [h1]
  exact ⟨_, rfl, skip_err h2 _⟩

theorem split_at {l : Bytes} {n : Nat} (h : n ≤ l.length) : ∃ a b, l = a ++ b ∧ a.length = n :=
  ⟨l.take n, l.drop n, by simp, by simp; omega⟩

theorem bytes2 {b : Bytes} {n : Nat} (h : b.length = n) : beBytes n (beVal b) = b := by
  subst h; exact beBytes_beVal b

theorem beVal_lt2 {b : Bytes} {n : Nat} (h : b.length = n) : beVal b < 256 ^ n := by
  subst h; exact beVal_lt b

theorem isOk_iff {k a : Name} (hk : Valid k) (ha : Valid a) {cls ttl : Nat} (hc : cls < 2 ^ 16) (ht : ttl < 2 ^ 32) (rest : Bytes) :
    (isOk ⟨wire k, cls, ttl, wire a ++ rest⟩ = .ok true ↔ ∃ t : Tsig, t.Ok ∧ t.rr = ⟨wire k, cls, ttl, wire a ++ rest⟩ ∧ t.alg = a) ∧
    (isOk ⟨wire k, cls, ttl, wire a ++ rest⟩ = .ok true ∨ isOk ⟨wire k, cls, ttl, wire a ++ rest⟩ = .ok false) := by
  have hsz : Dname.size (wire a ++ rest) = .ok (wire a).length := by rw [Dname.size_wire _ ha.1, Dname.wire_length]
  -- a record with the fields is accepted
  have hback : (∃ t : Tsig, t.Ok ∧ t.rr = ⟨wire k, cls, ttl, wire a ++ rest⟩ ∧ t.alg = a) →
      isOk ⟨wire k, cls, ttl, wire a ++ rest⟩ = .ok true := by
    rintro ⟨t, h1, h2, _⟩
    rw [← h2]
    have : seek t.rr.rdata .other 0 = .ok (some ((wire t.alg).length + 16 + t.mac.length)) := (t.values h1).other
    unfold isOk
    rw [this]; rfl
  -- a search that fails
  have hno : seek (wire a ++ rest) .other 0 = .ok none → isOk ⟨wire k, cls, ttl, wire a ++ rest⟩ = .ok false := by
    intro h; unfold isOk; show (do let p ← seek (wire a ++ rest) .other 0; _) = _
    rw [h]; rfl
  have done : ∀ {p : Prop}, seek (wire a ++ rest) .other 0 = .ok none → (p → isOk ⟨wire k, cls, ttl, wire a ++ rest⟩ = .ok true) →
      (isOk ⟨wire k, cls, ttl, wire a ++ rest⟩ = .ok true ↔ p) ∧
      (isOk ⟨wire k, cls, ttl, wire a ++ rest⟩ = .ok true ∨ isOk ⟨wire k, cls, ttl, wire a ++ rest⟩ = .ok false) := by
    intro p h hp
    have := hno h
    refine ⟨⟨fun e => ?_, hp⟩, .inr this⟩
    rw [this] at e; simp at e
  have yes : ∀ {t : Tsig}, t.Ok → t.rr = ⟨wire k, cls, ttl, wire a ++ rest⟩ → t.alg = a →
      (isOk ⟨wire k, cls, ttl, wire a ++ rest⟩ = .ok true ↔ ∃ t : Tsig, t.Ok ∧ t.rr = ⟨wire k, cls, ttl, wire a ++ rest⟩ ∧ t.alg = a) ∧
      (isOk ⟨wire k, cls, ttl, wire a ++ rest⟩ = .ok true ∨ isOk ⟨wire k, cls, ttl, wire a ++ rest⟩ = .ok false) := by
    intro t h1 h2 h3
    have := hback ⟨t, h1, h2, h3⟩
    exact ⟨⟨fun _ => ⟨t, h1, h2, h3⟩, fun _ => this⟩, .inl this⟩
  have hlen : (wire a ++ rest).length = (wire a).length + rest.length := by simp
  by_cases h10 : rest.length < 10
  · -- no length of the MAC
    have : ∃ c', skip16 (WireCtx.skip (WireCtx.initConst (wire a ++ rest) (wire a ++ rest).length) ((wire a).length + 8 : Nat)) = .ok c' ∧
        c'.error ≠ none := by
      apply skip16_short
      by_cases h8 : rest.length < 8
      · left
        apply skip_short
        simp only [WireCtx.available, WireCtx.initConst, WireCtx.init]
        omega
      · right
        rw [skip_ok (by simp [WireCtx.initConst, WireCtx.init]) (by simp only [WireCtx.available, WireCtx.initConst, WireCtx.init]; omega)]
        simp only [WireCtx.available, WireCtx.initConst, WireCtx.init]
        omega
    obtain ⟨c', h1, h2⟩ := this
    exact done (seek_other_err hsz h1 (.inl h2)) hback
  obtain ⟨tm, r1, e1, l1⟩ := split_at (l := rest) (n := 6) (by omega)
  have q1 : rest.length = 6 + r1.length := by rw [e1, List.length_append, l1]
  obtain ⟨fu, r2, e2, l2⟩ := split_at (l := r1) (n := 2) (by omega)
  have q2 : r1.length = 2 + r2.length := by rw [e2, List.length_append, l2]
  obtain ⟨nn, r3, e3, l3⟩ := split_at (l := r2) (n := 2) (by omega)
  have q3 : r2.length = 2 + r3.length := by rw [e3, List.length_append, l3]
  have hc1 : WireCtx.skip (WireCtx.initConst (wire a ++ rest) (wire a ++ rest).length) ((wire a).length + 8 : Nat) =
      ⟨wire a ++ rest, (wire a ++ rest).length, (wire a).length + 8, none, true⟩ := by
    rw [skip_ok (by simp [WireCtx.initConst, WireCtx.init]) (by simp only [WireCtx.available, WireCtx.initConst, WireCtx.init]; omega)]
    simp [WireCtx.initConst, WireCtx.init]
  have hc2 : WireCtx.readU ⟨wire a ++ rest, (wire a ++ rest).length, (wire a).length + 8, none, true⟩ 2 =
      .ok (beVal nn, ⟨wire a ++ rest, (wire a ++ rest).length, (wire a).length + 10, none, true⟩) :=
    readU_ok (a := wire a ++ tm ++ fu) (b := nn) (d := r3) rfl (by simp [e1, e2, e3]) (by simp [l1, l2]) l3.symm rfl
  have hs16 : skip16 (WireCtx.skip (WireCtx.initConst (wire a ++ rest) (wire a ++ rest).length) ((wire a).length + 8 : Nat)) =
      .ok (WireCtx.skip ⟨wire a ++ rest, (wire a ++ rest).length, (wire a).length + 10, none, true⟩ (beVal nn)) := by
    unfold skip16; rw [hc1, hc2]; rfl
  by_cases hmac : r3.length < beVal nn
  · refine done (seek_other_err hsz hs16 (.inl (skip_short ?_))) hback
    simp only [WireCtx.available]; omega
  have hsk := skip_ok (c := ⟨wire a ++ rest, (wire a ++ rest).length, (wire a).length + 10, none, true⟩) (n := beVal nn) rfl
    (by simp only [WireCtx.available]; omega)
  rw [hsk] at hs16
  by_cases h6 : r3.length < beVal nn + 6
  · refine done (seek_other_err hsz hs16 (.inr ?_)) hback
    simp only [WireCtx.available]; omega
  obtain ⟨mac, r4, e4, l4⟩ := split_at (l := r3) (n := beVal nn) (by omega)
  have q4 : r3.length = beVal nn + r4.length := by rw [e4, List.length_append, l4]
  obtain ⟨id, r5, e5, l5⟩ := split_at (l := r4) (n := 2) (by omega)
  have q5 : r4.length = 2 + r5.length := by rw [e5, List.length_append, l5]
  obtain ⟨er, r6, e6, l6⟩ := split_at (l := r5) (n := 2) (by omega)
  have q6 : r5.length = 2 + r6.length := by rw [e6, List.length_append, l6]
  obtain ⟨on, o, e7, l7⟩ := split_at (l := r6) (n := 2) (by omega)
  have hnn : beVal nn < 256 ^ 2 := beVal_lt2 l3
  have hshape : wire a ++ rest = shape (wire a) tm fu mac id er r6 := by
    unfold shape
    rw [l4, bytes2 l3, e1, e2, e3, e4, e5, e6]
    simp
  have hS : Shape a tm fu mac id er r6 := ⟨ha.1, l1, l2, by omega, l5, l6, by rw [e7]; simp [l7]⟩
  have hseek := seek_other hS e7 l7
  rw [← hshape] at hseek
  by_cases ho : o.length = beVal on
  · have hon : beVal on < 256 ^ 2 := beVal_lt2 l7
    refine yes (t := ⟨k, cls, ttl, a, beVal tm, beVal fu, mac, beVal id, beVal er, o⟩) ?_ ?_ rfl
    · refine ⟨hk, hc, ht, ha, beVal_lt2 l1, beVal_lt2 l2, ?_, beVal_lt2 l5, beVal_lt2 l6, ?_⟩
      · show mac.length < 2 ^ 16; omega
      · show o.length < 2 ^ 16; omega
    · unfold Tsig.rr
      rw [Tsig.rdata_shape, hshape]
      simp only [bytes2 l1, bytes2 l2, bytes2 l5, bytes2 l6, ho, bytes2 l7, ← e7]
  · rw [if_neg ho] at hseek
    exact done hseek hback

/-! ## Transfers -/

theorem made_fresh {k : Name} {a : Alg} {s c id error : Nat} {other mac : Bytes} (h : Clocks s c) {prev : Nat} (hp : prev ≤ s) :
    (made k a s id error other mac).Fresh c prev := by
  obtain ⟨h1, h2, h3, h4⟩ := h
  unfold made Tsig.Fresh
  simp only [Nat.mod_eq_of_lt h2]
  omega

theorem transfer_next {hmac : Alg → Bytes → Bytes → Bytes} (hl : ∀ a k m, (hmac a k m).length = a.size) {key : Key} {k : Name}
    (hk : key.Is k) (q : Rr) : ∀ (l : List (Nat × Nat × Bytes × Nat)) (mac : Bytes) (prev count : Nat) (ws : List Bytes) (s' : Srv),
    mac.length = key.alg.size → prev ≠ 0 → count ≠ 0 → (∀ x ∈ l, Clocks x.1 x.2.1 ∧ prev ≤ x.1 ∧ 12 ≤ x.2.2.1.length ∧ x.2.2.1.length ≤ 65535) →
    List.Pairwise (fun x y => x.1 ≤ y.1) l →
    answerAll hmac q ⟨key, mac, count, 0, 0⟩ (l.map fun x => (x.1, x.2.2)) = .ok (ws, s') →
    ∃ ts : List Tsig, ws.length = l.length ∧ ts.length = l.length ∧ (∀ (i : Nat) (w : Bytes) (x : Nat × Nat × Bytes × Nat) (t : Tsig), ws[i]? = some w → l[i]? = some x → ts[i]? = some t →
        Carries w x.2.2.1 t ∧ t.Ok) ∧
      Chain hmac key k mac prev [] (List.zipWith (fun x t => (x.2.1, x.2.2.1, some t)) l ts) := by
  intro l
  induction l with
  | nil =>
    intro mac prev count ws s' _ _ _ _ _ h
    simp only [List.map_nil, answerAll, Res.ok.injEq, Prod.mk.injEq] at h
    obtain ⟨rfl, _⟩ := h
    exact ⟨[], rfl, rfl, by simp, rfl⟩
  | cons x l ih =>
    intro mac prev count ws s' hmac' hp hc ha hs h
    obtain ⟨sn, cn, msg, max⟩ := x
    obtain ⟨h1, h2, h3, h4⟩ := ha _ (List.mem_cons_self ..)
    simp only at h1 h2 h3 h4
    have ha' := fun x hx => ha x (List.mem_cons_of_mem _ hx)
    rw [List.pairwise_cons] at hs
    obtain ⟨t, t1, t2, t3⟩ := signResponse_next hl hk h3 hmac' sn max q hc 0
    simp only [List.map_cons, answerAll] at h
    rcases t3 with ⟨_, w, t3, t4⟩ | ⟨_, t3⟩
    · rw [t3] at h
      simp only [Res.bind_ok] at h
      have hml : t.mac.length = key.alg.size := by rw [t1]; exact hl _ _ _
      have htime : t.time = sn := by rw [t1]; exact Nat.mod_eq_of_lt h1.2.1
      generalize hr : answerAll hmac q ⟨key, t.mac, count + 1, 0, 0⟩ (l.map fun x => (x.1, x.2.2)) = r at h
      cases r with
      | err => simp at h
      | ub => simp at h
      | ok r =>
        obtain ⟨ws', s''⟩ := r
        simp only [Res.bind_ok, Res.ok.injEq, Prod.mk.injEq] at h
        obtain ⟨rfl, rfl⟩ := h
        obtain ⟨ts, g1, g2, g3, g4⟩ := ih t.mac t.time (count + 1) ws' s'' hml (by rw [htime]; have := h1.1; omega) (by omega)
          (fun x hx => ⟨(ha' x hx).1, by rw [htime]; exact hs.1 x hx, (ha' x hx).2.2⟩) hs.2 hr
        refine ⟨t :: ts, by simp [g1], by simp [g2], ?_, ?_⟩
        · intro i w' x' t' e1 e2 e3
          cases i with
          | zero => simp only [List.getElem?_cons_zero, Option.some.injEq] at e1 e2 e3; subst e1 e2 e3; exact ⟨t4, t2⟩
          | succ i => simp only [List.getElem?_cons_succ] at e1 e2 e3; exact g3 i w' x' t' e1 e2 e3
        · simp only [List.zipWith_cons_cons, Chain, List.nil_append, List.flatten_cons, List.flatten_nil, List.append_nil]
          refine ⟨by omega, by rw [t1]; rfl, by rw [t1]; exact made_names _ _ _ _ _ _ _, ?_, ?_, g4⟩
          · rw [if_neg hp]; exact congrArg Tsig.mac t1
          · rw [t1]; exact made_fresh h1 h2
    · rw [t3] at h; simp at h

theorem transfer_first {hmac : Alg → Bytes → Bytes → Bytes} (hl : ∀ a k m, (hmac a k m).length = a.size) {key : Key} {k : Name}
    (hk : key.Is k) (q : Rr) (l : List (Nat × Nat × Bytes × Nat)) (mac : Bytes) (ws : List Bytes) (s' : Srv)
    (hmac' : mac.length = key.alg.size) (ha : ∀ x ∈ l, Clocks x.1 x.2.1 ∧ 12 ≤ x.2.2.1.length ∧ x.2.2.1.length ≤ 65535)
    (hs : List.Pairwise (fun x y => x.1 ≤ y.1) l)
    (h : answerAll hmac q ⟨key, mac, 0, 0, 0⟩ (l.map fun x => (x.1, x.2.2)) = .ok (ws, s')) :
    ∃ ts : List Tsig, ws.length = l.length ∧ ts.length = l.length ∧ (∀ (i : Nat) (w : Bytes) (x : Nat × Nat × Bytes × Nat) (t : Tsig), ws[i]? = some w → l[i]? = some x → ts[i]? = some t →
        Carries w x.2.2.1 t ∧ t.Ok) ∧
      Chain hmac key k mac 0 [] (List.zipWith (fun x t => (x.2.1, x.2.2.1, some t)) l ts) := by
  cases l with
  | nil =>
    simp only [List.map_nil, answerAll, Res.ok.injEq, Prod.mk.injEq] at h
    obtain ⟨rfl, _⟩ := h
    exact ⟨[], rfl, rfl, by simp, rfl⟩
  | cons x l =>
    obtain ⟨sn, cn, msg, max⟩ := x
    obtain ⟨h1, h3, h4⟩ := ha _ (List.mem_cons_self ..)
    simp only at h1 h3 h4
    have ha' := fun x hx => ha x (List.mem_cons_of_mem _ hx)
    rw [List.pairwise_cons] at hs
    obtain ⟨t, t1, t2, t3⟩ := signResponse_first hl hk h3 hmac' sn max q (.inl rfl) 0
    simp only [show ¬ (0 = 18) by omega, if_false] at t1
    simp only [List.map_cons, answerAll] at h
    rcases t3 with ⟨_, w, t3, t4⟩ | ⟨_, t3⟩
    · rw [t3] at h
      simp only [Res.bind_ok] at h
      have hml : t.mac.length = key.alg.size := by rw [t1]; exact hl _ _ _
      have htime : t.time = sn := by rw [t1]; exact Nat.mod_eq_of_lt h1.2.1
      generalize hr : answerAll hmac q ⟨key, t.mac, 1, 0, 0⟩ (l.map fun x => (x.1, x.2.2)) = r at h
      cases r with
      | err => simp at h
      | ub => simp at h
      | ok r =>
        obtain ⟨ws', s''⟩ := r
        simp only [Res.bind_ok, Res.ok.injEq, Prod.mk.injEq] at h
        obtain ⟨rfl, rfl⟩ := h
        obtain ⟨ts, g1, g2, g3, g4⟩ := transfer_next hl hk q l t.mac t.time 1 ws' s'' hml (by rw [htime]; have := h1.1; omega) (by omega)
          (fun x hx => ⟨(ha' x hx).1, by rw [htime]; exact hs.1 x hx, (ha' x hx).2⟩) hs.2 hr
        refine ⟨t :: ts, by simp [g1], by simp [g2], ?_, ?_⟩
        · intro i w' x' t' e1 e2 e3
          cases i with
          | zero => simp only [List.getElem?_cons_zero, Option.some.injEq] at e1 e2 e3; subst e1 e2 e3; exact ⟨t4, t2⟩
          | succ i => simp only [List.getElem?_cons_succ] at e1 e2 e3; exact g3 i w' x' t' e1 e2 e3
        · simp only [List.zipWith_cons_cons, Chain, List.nil_append, List.flatten_cons, List.flatten_nil, List.append_nil]
          refine ⟨by omega, by rw [t1]; rfl, by rw [t1]; exact made_names _ _ _ _ _ _ _, ?_, ?_, g4⟩
          · rw [if_pos trivial]; exact congrArg Tsig.mac t1
          · rw [t1]; exact made_fresh h1 (Nat.zero_le _)
    · rw [t3] at h; simp at h

end Knot.Tsig
