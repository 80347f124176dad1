import Verif.Query.Lemmas6
import Verif.Zonedb.Props
/-!
# C50: what comes back for a query
-/
namespace Knot
open Query Reply

/-- C50. A message that is a response, or shorter than a header, is not answered; any other is. -/
theorem C50_ignored (q : Query) : consume q = .produce ↔ 12 ≤ q.parsed ∧ ¬ Response q.hdr := by
  have h : ∀ x : UInt8, x &&& 0x80 ≠ 0 ↔ x &&& 0x80 = 0x80 := forall_u8 _ (by decide +kernel)
  unfold consume Response
  rw [← h]
  split
  · constructor
    · intro h; cases h
    · omega
  · split
    · rename_i h1
      constructor
      · intro h; cases h
      · intro h2; exact absurd h1 h2.2
    · rename_i h0 h1
      exact ⟨fun _ => ⟨by omega, h1⟩, fun _ => rfl⟩

example : consume ⟨⟨7, 0x01, 0, 1, 0, 0, 0⟩, 40, 40, [1, 97, 0, 0, 1, 0, 1], [[97]], 1, 1, none, none⟩ = .produce := by decide

/-- C50. Whatever the handlers and the modules do, the response has the identifier, the question, the operation code and the
bit RD of the query, the bit QR, and none of RA, AD, CD and Z. -/
theorem C50_header (e : Env) (q : Query) (g : Hdr) (he : Configured e) (hq : Parsed q) :
    Answers q (produce e q (start g)).2.pkt := by
  have hql := hq.question
  unfold produce
  split
  · have hmx : (start g).pkt.maxSize = 65535 := rfl
    apply answers_endAll
    · exact answers_err (by dsimp only; omega) e
    · show 12 + _ ≤ (err e q _).pkt.maxSize
      rw [max_err]; dsimp only; omega
  · obtain ⟨hf, ht⟩ := prepare_spec (g := g) he hq
    generalize prepare e q (start g) = r at hf ht
    obtain ⟨b, s⟩ := r
    cases b
    · obtain ⟨_, hm⟩ := hf rfl
      dsimp only at hm ⊢
      have hm' : 12 + q.question.length ≤ s.pkt.maxSize := by rcases hm with hm | hm <;> omega
      apply answers_endAll
      · exact answers_err hm' e
      · show 12 + _ ≤ (err e q _).pkt.maxSize
        rw [max_err]; exact hm'
    · obtain ⟨ha, _, hm1, hm2, _⟩ := ht rfl
      dsimp only at ha hm1 hm2 ⊢
      have hb := beginAll_induct (P := fun t => Answers q t.pkt ∧ t.pkt.maxSize = s.pkt.maxSize) (e.beginHooks s.qd.zone)
        (fun t k _ ht => ⟨answers_run ht.1 _, (max_run _ _).trans ht.2⟩) .produce s ⟨ha, rfl⟩
      generalize beginAll .produce s (e.beginHooks s.qd.zone) = b at hb ⊢
      have hmid := answers_middle (e := e) hb.1 b.1
      rw [hb.2] at hmid
      have hfin := answers_finish (e := e) hmid.1 (by omega) (middle e q b.1 b.2).1
      apply answers_endAll hfin.1
      rw [hfin.2, hmid.2]; omega

/-- What holds of the response in general. -/
private theorem reply_produce {e : Env} {q : Query} {g : Hdr} (he : Configured e) (hq : Parsed q) (hl : Quiet e)
    (h : ∀ m, Limit e q m → 12 + q.question.length + optSize e q ≤ m) :
    (produce e q (start g)).2.pkt.opt ≠ none → q.opt ≠ none := by
  have hql := hq.question
  have key : ∀ (m : Nat) (s : St), Reply1 e q m s → s.pkt.opt ≠ none → q.opt ≠ none := by
    intro m s hr hn hx
    exact hn (hr.opt (hr.same hx))
  unfold produce
  split
  · have hr := reply_err (e := e) (q := q) (s := { start g with qd := { (start g).qd with rcode := 1 } }) (Nat.le_refl 65535)
      (by show 12 + _ ≤ 65535; omega) ⟨fun _ => rfl, fun o ho => by cases ho⟩ (fun _ => rfl)
    exact key _ _ (reply_endAll (Nat.le_refl 65535) (by show 12 + _ ≤ 65535; omega) hr hl _ _)
  · obtain ⟨hf, ht⟩ := prepare_spec (g := g) he hq
    obtain ⟨k1, k2, _⟩ := prepare_opt (e := e) (g := g) hq
    have hmid := mid_prepare (g := g) he hq
    generalize prepare e q (start g) = r at hf ht k1 k2 hmid
    obtain ⟨b, s⟩ := r
    cases b
    · obtain ⟨_, hm⟩ := hf rfl
      dsimp only at hm k1 k2 ⊢
      have hm1 : 12 + q.question.length ≤ s.pkt.maxSize := by rcases hm with hm | hm <;> omega
      have hm2 : s.pkt.maxSize ≤ 65535 := by rcases hm with hm | hm <;> omega
      exact key _ _ (reply_endAll hm2 hm1 (reply_err hm2 hm1 k1 k2) hl _ _)
    · obtain ⟨_, hlim, hm1, hm2, _⟩ := ht rfl
      dsimp only at hlim hm1 hm2 hmid ⊢
      have hb := mid_beginAll hm2 (hmid rfl (h _ hlim)) .produce (e.beginHooks s.qd.zone)
      have hlate := late_middle (e := e) hm2 hb (beginAll .produce s (e.beginHooks s.qd.zone)).1
      exact key _ _ (reply_endAll hm2 (by omega) (reply_finish hm2 (by omega) hlate) hl _ _)

/-- C50. The response is not larger than the protocol and the client allow, if the question and the OPT record that the query
asks for fit (see `C50_nsid`), and the hooks at the end do not write. -/
theorem C50_size_partial (e : Env) (q : Query) (g : Hdr) (m : Nat) (he : Configured e) (hq : Parsed q) (hl : Quiet e) (hm : Limit e q m)
    (h : 12 + q.question.length + optSize e q ≤ m) : (produce e q (start g)).2.pkt.size ≤ m := by
  have hql := hq.question
  have hmb := limit_bound he hm
  unfold produce
  split
  · have hE : Early e q { start g with qd := { (start g).qd with rcode := 1 } } := ⟨rfl, rfl, rfl, rfl, fun o ho => by cases ho⟩
    by_cases hu : e.proto = .udp
    · obtain ⟨a, b⟩ := early_err hE (Nat.le_refl 65535) (by show 12 + _ ≤ 65535; omega) (by rw [hu]; simp) (by rw [hu]; simp)
      have := early_endAll (m := 65535) (Nat.le_refl _) (by omega) a hl (by rw [hu]; simp) (by rw [hu]; simp) (max_err e q _) b .done none
      exact Nat.le_trans this h
    · have hr := reply_err (e := e) (q := q) (s := { start g with qd := { (start g).qd with rcode := 1 } }) (Nat.le_refl 65535)
        (by show 12 + _ ≤ 65535; omega) ⟨fun _ => rfl, fun o ho => by cases ho⟩ (fun _ => rfl)
      have := (reply_endAll (Nat.le_refl 65535) (by show 12 + _ ≤ 65535; omega) hr hl .done none).fit
      rw [limit_stream hm hu]; exact this
  · obtain ⟨hf, ht⟩ := prepare_spec (g := g) he hq
    obtain ⟨k1, k2, _⟩ := prepare_opt (e := e) (g := g) hq
    have hmid := mid_prepare (g := g) he hq
    generalize prepare e q (start g) = r at hf ht k1 k2 hmid
    obtain ⟨b, s⟩ := r
    cases b
    · obtain ⟨hE, hm'⟩ := hf rfl
      dsimp only at hm' hE k1 k2 ⊢
      have hm1 : 12 + q.question.length ≤ s.pkt.maxSize := by rcases hm' with hm' | hm' <;> omega
      have hm2 : s.pkt.maxSize ≤ 65535 := by rcases hm' with hm' | hm' <;> omega
      by_cases hu : e.proto = .udp
      · obtain ⟨a, b⟩ := early_err hE hm2 hm1 (by rw [hu]; simp) (by rw [hu]; simp)
        have := early_endAll (m := s.pkt.maxSize) hm2 hm1 a hl (by rw [hu]; simp) (by rw [hu]; simp) (max_err e q _) b .done none
        exact Nat.le_trans this h
      · have := (reply_endAll hm2 hm1 (reply_err hm2 hm1 k1 k2) hl .done none).fit
        rw [limit_stream hm hu]; exact Nat.le_trans this hm2
    · obtain ⟨_, hlim, hm1, hm2, _⟩ := ht rfl
      dsimp only at hlim hm1 hm2 hmid ⊢
      have heq := limit_unique hm hlim
      have hb := mid_beginAll hm2 (hmid rfl (by omega)) .produce (e.beginHooks s.qd.zone)
      have hlate := late_middle (e := e) hm2 hb (beginAll .produce s (e.beginHooks s.qd.zone)).1
      rw [heq]
      exact (reply_endAll hm2 (by omega) (reply_finish hm2 (by omega) hlate) hl _ _).fit

/-- C50. A response has an OPT record only if the query has one. -/
theorem C50_opt_asked (e : Env) (q : Query) (g : Hdr) (he : Configured e) (hq : Parsed q) (hl : Quiet e)
    (h : ∀ m, Limit e q m → 12 + q.question.length + optSize e q ≤ m) (ho : HasOpt (produce e q (start g)).2.pkt) : q.opt ≠ none :=
  reply_produce he hq hl h ho

private theorem quiet_of_plain {e : Env} (h : Plain e) : Quiet e := by
  intro z k hk
  rw [h.ends z] at hk
  cases hk

private theorem padMax_le {e : Env} {q : Query} {m : Nat} (he : Configured e) (hm : Limit e q m) : 484 + 28 + 2 * padMax e ≤ m := by
  have hb := limit_bound he hm
  unfold padMax
  split
  · rename_i hp
    rw [limit_stream hm (by rcases hp with hp | hp <;> rw [hp] <;> simp)]; omega
  · omega

/-- C50. If the query can be parsed and has an OPT record, the response has one, whatever the answer is, as long as the
record itself is not huge and modules do not interfere. -/
theorem C50_opt_partial (e : Env) (q : Query) (g : Hdr) (he : Configured e) (hq : Parsed q) (hp : Plain e) (hc : NoCookies e) (had : Address e)
    (hw : q.size ≤ q.parsed) (ho : q.opt ≠ none) (h : optSize e q ≤ 200) : HasOpt (produce e q (start g)).2.pkt := by
  have hql := hq.question
  unfold produce HasOpt
  rw [if_neg (by omega)]
  obtain ⟨hf, ht⟩ := prepare_spec (g := g) he hq
  obtain ⟨k1, k2, k3, k4, k5⟩ := prepare_opt (e := e) (g := g) hq
  have hmid := mid_prepare (g := g) he hq
  generalize prepare e q (start g) = r at hf ht k1 k2 k3 k4 k5 hmid
  obtain ⟨b, s⟩ := r
  have hsome : ∃ o, s.qd.opt = some o := Option.ne_none_iff_exists'.mp (k3 had ho)
  obtain ⟨o, hso⟩ := hsome
  have hsz := k4 o hso
  cases b
  · obtain ⟨hE, hm'⟩ := hf rfl
    dsimp only at hm' hE k1 k2 ⊢
    rw [hp.ends]
    have hpm : padMax e ≤ 471 := by unfold padMax; split <;> omega
    rcases hm' with hm' | ⟨hm', _, hm2⟩
    · exact (err_has k1 (by omega) hso (by omega)).1
    · have := padMax_le he hm'
      exact (err_has k1 (by omega) hso (by omega)).1
  · obtain ⟨_, hlim, hm1, hm2, _⟩ := ht rfl
    dsimp only at hlim hm1 hm2 hmid ⊢
    rw [hp.ends]
    have hpm := padMax_le he hlim
    have hb := mid_beginAll hm2 (hmid rfl (by omega)) .produce (e.beginHooks s.qd.zone)
    have hbo := beginAll_opt (fun k hk => hc.begins s.qd.zone k hk) .produce s
    have hbg := beginAll_going (fun k hk => hp.begins s.qd.zone k hk) (.inl rfl) s
    rw [hso] at hbo
    generalize beginAll .produce s (e.beginHooks s.qd.zone) = b at hb hbo hbg
    have hlate := late_middle (e := e) hm2 hb b.1
    obtain ⟨o2, ho2, hs2⟩ := middle_opt (e := e) (q := q) hc (n := b.1) hbo
    have hg := middle_going (e := e) (q := q) hp hbg b.2
    generalize middle e q b.1 b.2 = r at hlate ho2 hg
    obtain ⟨n, t⟩ := r
    dsimp only at hlate ho2 hg ⊢
    show (finish e q n t).2.pkt.opt ≠ none
    have hset : n = .done ∨ n = .produce → (setRcode t).pkt.opt ≠ none := by
      intro hn hx
      have h1 := (shown_setRcode hlate.answers (hlate.lined (by rcases hn with hn | hn <;> rw [hn] <;> simp))).2.mp hx
      exact ho ((hlate.has hn).mp h1)
    rcases hg with hg | hg | hg
    · subst hg; exact hset (.inr rfl)
    · subst hg; exact hset (.inl rfl)
    · subst hg
      have hm3 := hlate.max
      exact (err_has hlate.ok (by omega) ho2 (by omega)).1

/-- C50. The code that the client reads is the one that was decided on, or SERVFAIL if that needs an OPT record and there is
none. The exception is a signature that did not fit: see `C50_ext_rcode`. -/
theorem C50_rcode_partial (e : Env) (q : Query) (g : Hdr) (he : Configured e) (hq : Parsed q) (hp : Plain e)
    (h : ∀ m, Limit e q m → 12 + q.question.length + optSize e q ≤ m) :
    (Reply.rcode (produce e q (start g)).2.pkt =
      if 16 ≤ (produce e q (start g)).2.qd.rcode % 4096 ∧ ¬ HasOpt (produce e q (start g)).2.pkt then 2
      else (produce e q (start g)).2.qd.rcode % 4096) ∨
    ((produce e q (start g)).2.qd.rcode = 2 ∧ Reply.rcode (produce e q (start g)).2.pkt % 16 = 2 ∧
      HasOpt (produce e q (start g)).2.pkt ∧ ((produce e q (start g)).2.qd.key ≠ none ∨ q.tsig ≠ none)) := by
  have hql := hq.question
  have hsh : ∀ (r : Nat) (p : Pkt), shown r p = if 16 ≤ r % 4096 ∧ ¬ HasOpt p then 2 else r % 4096 := by
    intro r p
    unfold shown HasOpt
    have h1 : r / 16 % 256 ≠ 0 ↔ 16 ≤ r % 4096 := by omega
    by_cases hx : p.opt = none
    · simp [hx, h1]
    · simp [hx]
  have key : ∀ s : St, OptOk s.qd → s.pkt.maxSize ≤ 65535 → 12 + q.question.length ≤ s.pkt.maxSize →
      (Reply.rcode (err e q s).pkt = shown (err e q s).qd.rcode (err e q s).pkt ∨
      ((err e q s).qd.rcode = 2 ∧ Reply.rcode (err e q s).pkt % 16 = 2 ∧ HasOpt (err e q s).pkt ∧ ((err e q s).qd.key ≠ none ∨ q.tsig ≠ none))) := by
    intro s h1 h2 h3
    obtain ⟨_, h4, _⟩ := err_rcode (e := e) (q := q) h1 h2 h3
    exact h4
  rw [← hsh]
  unfold produce
  split
  · dsimp only
    rw [hp.ends]
    exact key _ ⟨fun _ => rfl, fun o ho => by cases ho⟩ (Nat.le_refl 65535) (by show 12 + _ ≤ 65535; omega)
  · obtain ⟨hf, ht⟩ := prepare_spec (g := g) he hq
    obtain ⟨k1, k2, k3, k4, k5⟩ := prepare_opt (e := e) (g := g) hq
    have hmid := mid_prepare (g := g) he hq
    generalize prepare e q (start g) = r at hf ht k1 k2 k3 k4 k5 hmid
    obtain ⟨b, s⟩ := r
    cases b
    · obtain ⟨hE, hm'⟩ := hf rfl
      dsimp only at hm' hE k1 k2 ⊢
      rw [hp.ends]
      have hm1 : 12 + q.question.length ≤ s.pkt.maxSize := by rcases hm' with hm' | hm' <;> omega
      have hm2 : s.pkt.maxSize ≤ 65535 := by rcases hm' with hm' | hm' <;> omega
      exact key _ k1 hm2 hm1
    · obtain ⟨_, hlim, hm1, hm2, _⟩ := ht rfl
      dsimp only at hlim hm1 hm2 hmid ⊢
      rw [hp.ends]
      have hb := mid_beginAll hm2 (hmid rfl (h _ hlim)) .produce (e.beginHooks s.qd.zone)
      have hbg := beginAll_going (fun k hk => hp.begins s.qd.zone k hk) (.inl rfl) s
      generalize beginAll .produce s (e.beginHooks s.qd.zone) = b at hb hbg
      have hlate := late_middle (e := e) hm2 hb b.1
      have hg := middle_going (e := e) (q := q) hp hbg b.2
      generalize middle e q b.1 b.2 = r at hlate hg
      obtain ⟨n, t⟩ := r
      dsimp only at hlate hg ⊢
      have hset : n ≠ .fail →
          Reply.rcode (setRcode t).pkt = shown (setRcode t).qd.rcode (setRcode t).pkt := by
        intro hn
        obtain ⟨h1, h2⟩ := shown_setRcode hlate.answers (hlate.lined hn)
        rw [h1, setRcode_qd]
        unfold shown
        by_cases hx : t.pkt.opt = none
        · rw [h2.mpr hx, hx]
        · simp [hx, mt h2.mp hx]
      rcases hg with hg | hg | hg
      · subst hg; left; exact hset (by simp)
      · subst hg; left; exact hset (by simp)
      · subst hg
        have hm3 := hlate.max
        exact key t hlate.ok (by omega) (by omega)

/-- C50. Over QUIC and TLS, a response with OPT and without a signature consists of full blocks of 468 bytes, what is still
reserved included. -/
theorem C50_padded (e : Env) (q : Query) (g : Hdr) (he : Configured e) (hq : Parsed q) (hp : Plain e)
    (hpr : e.proto = .quic ∨ e.proto = .tls) (h : 12 + q.question.length + optSize e q ≤ 65535)
    (ho : HasOpt (produce e q (start g)).2.pkt) (hk : (produce e q (start g)).2.qd.key = none)
    (ht : (produce e q (start g)).2.qd.rcodeTsig = 0) :
    ((produce e q (start g)).2.pkt.size + (produce e q (start g)).2.pkt.reserved) % 468 = 0 := by
  have hql := hq.question
  have hu : e.proto ≠ .udp := by rcases hpr with h | h <;> rw [h] <;> simp
  have key : Padded (produce e q (start g)).2 := by
    clear ho hk ht
    unfold produce
    split
    · dsimp only
      rw [hp.ends]
      exact padded_err hpr ⟨fun _ => rfl, fun o ho => by cases ho⟩ (Nat.le_refl 65535) (by show 12 + _ ≤ 65535; omega)
    · obtain ⟨hf, ht⟩ := prepare_spec (g := g) he hq
      obtain ⟨k1, k2, k3, k4, k5⟩ := prepare_opt (e := e) (g := g) hq
      have hmid := mid_prepare (g := g) he hq
      generalize prepare e q (start g) = r at hf ht k1 k2 k3 k4 k5 hmid
      obtain ⟨b, s⟩ := r
      cases b
      · obtain ⟨hE, hm'⟩ := hf rfl
        dsimp only at hm' hE k1 k2 ⊢
        rw [hp.ends]
        have hm1 : 12 + q.question.length ≤ s.pkt.maxSize := by rcases hm' with hm' | hm' <;> omega
        have hm2 : s.pkt.maxSize ≤ 65535 := by rcases hm' with hm' | hm' <;> omega
        exact padded_err hpr k1 hm2 hm1
      · obtain ⟨_, hlim, hm1, hm2, _⟩ := ht rfl
        dsimp only at hlim hm1 hm2 hmid ⊢
        rw [hp.ends]
        have hb := mid_beginAll hm2 (hmid rfl (by rw [limit_stream hlim hu]; exact h)) .produce (e.beginHooks s.qd.zone)
        generalize beginAll .produce s (e.beginHooks s.qd.zone) = b at hb
        have hlate := late_middle (e := e) hm2 hb b.1
        have hpad := padded_middle (e := e) (q := q) (n := b.1) hpr hb.bare
        generalize middle e q b.1 b.2 = r at hlate hpad
        obtain ⟨n, t⟩ := r
        dsimp only at hlate hpad ⊢
        have hset : n ≠ .fail → Padded (setRcode t) := fun hn =>
          padded_setRcode hpad (shown_setRcode hlate.answers (hlate.lined hn)).2
        have hm3 := hlate.max
        cases n with
        | noop => exact hpad
        | final => exact hpad
        | fail => exact padded_err hpr hlate.ok (by omega) (by omega)
        | consume => exact hset (by simp)
        | produce => exact hset (by simp)
        | done => exact hset (by simp)
  exact key ho hk ht

/-! ## Codes -/

/-- C50. A query with something after its end, or that cannot be parsed to the end, gets FORMERR. -/
theorem C50_formerr (e : Env) (q : Query) (g : Hdr) (hq : Parsed q) (hp : e.endHooks none = []) (h : q.parsed < q.size) :
    Reply.rcode (produce e q (start g)).2.pkt = 1 := by
  have hql := hq.question
  unfold produce
  rw [if_pos h]
  dsimp only
  rw [hp]
  exact (err_code (s := { start g with qd := { (start g).qd with rcode := 1 } }) ⟨fun _ => rfl, fun o ho => by cases ho⟩ (Nat.le_refl 65535)
    (by show 12 + _ ≤ 65535; omega) (fun o ho => by cases ho) rfl rfl (by simp) (by simp) (by simp)).1

/-- C50. The client subnet is not asked for, or is correct. -/
def Ecs (e : Env) (q : Query) : Prop := e.ecs = true → ∀ o, q.opt = some o → ∀ n, o.ecs ≠ some (n, false)

private theorem ecsOk {e : Env} {q : Query} (h : Ecs e q) : EcsOk e q := by
  intro o ho n hn
  unfold ecsOf at hn
  split at hn
  · exact h ‹_› o ho n hn
  · cases hn

private theorem room {e : Env} {q : Query} {s : St} (he : Configured e) (hq : Parsed q) (h : optSize e q ≤ 200)
    (hm : s.pkt.maxSize = 65535 ∨ Limit e q s.pkt.maxSize ∧ 512 ≤ s.pkt.maxSize ∧ s.pkt.maxSize ≤ 65535)
    (ho : ∀ o, s.qd.opt = some o → o.wireSize ≤ optSize e q) :
    s.pkt.maxSize ≤ 65535 ∧ 12 + q.question.length ≤ s.pkt.maxSize ∧
    ∀ o, s.qd.opt = some o → 12 + q.question.length + o.wireSize + 14 + padMax e ≤ s.pkt.maxSize := by
  have hql := hq.question
  have hpm : padMax e ≤ 471 := by unfold padMax; split <;> omega
  rcases hm with hm | ⟨hm, h1, h2⟩
  · exact ⟨by omega, by omega, fun o hso => by have := ho o hso; omega⟩
  · have := padMax_le he hm
    exact ⟨h2, by omega, fun o hso => by have := ho o hso; omega⟩

/-- C50. A query with a version of EDNS other than 0 gets BADVERS, with an OPT record. -/
theorem C50_badvers (e : Env) (q : Query) (g : Hdr) (o : QOpt) (he : Configured e) (hq : Parsed q) (hp : e.endHooks none = []) (had : Address e)
    (hw : q.size ≤ q.parsed) (ho : q.opt = some o) (hv : o.version ≠ 0) (hec : Ecs e q) (h : optSize e q ≤ 200) :
    Reply.rcode (produce e q (start g)).2.pkt = 16 ∧ HasOpt (produce e q (start g)).2.pkt := by
  have hql := hq.question
  unfold produce
  rw [if_neg (by omega)]
  obtain ⟨hf, _⟩ := prepare_spec (g := g) he hq
  obtain ⟨k1, k2, k3, k4, k5⟩ := prepare_opt (e := e) (g := g) hq
  obtain ⟨hv1, hv2⟩ := (prepare_eq (g := g) hq had (by omega) (ecsOk hec)).1 o ho hv
  generalize prepare e q (start g) = r at hf k1 k2 k3 k4 k5 hv1 hv2
  obtain ⟨b, s⟩ := r
  dsimp only at hf k1 k2 k3 k4 k5 hv1 hv2
  subst hv1
  obtain ⟨hE, hm'⟩ := hf rfl
  dsimp only
  rw [hp]
  obtain ⟨r1, r2, r3⟩ := room he hq h hm' k4
  have hn : s.qd.opt ≠ none := k3 had (by rw [ho]; simp)
  obtain ⟨c1, c2⟩ := err_code (e := e) (q := q) k1 r1 r2 r3 hE.key hE.tsig (by omega) (by omega) (fun hx => absurd hx hn)
  exact ⟨c1.trans hv2, fun hx => hn (c2.mp hx)⟩

/-- C50. A query without a question gets FORMERR if its operation is known, and NOTIMP otherwise. -/
theorem C50_no_question (e : Env) (q : Query) (g : Hdr) (he : Configured e) (hq : Parsed q) (hp : e.endHooks none = []) (had : Address e)
    (hw : q.size ≤ q.parsed) (hv : ∀ o, q.opt = some o → o.version = 0) (hec : Ecs e q) (h : optSize e q ≤ 200) (hn : q.question = []) :
    Reply.rcode (produce e q (start g)).2.pkt = if q.hdr.opcode = 0 ∨ q.hdr.opcode = 4 ∨ q.hdr.opcode = 5 then 1 else 4 := by
  have hql := hq.question
  unfold produce
  rw [if_neg (by omega)]
  obtain ⟨hf, _⟩ := prepare_spec (g := g) he hq
  obtain ⟨k1, k2, k3, k4, k5⟩ := prepare_opt (e := e) (g := g) hq
  obtain ⟨hv1, hv2⟩ := ((prepare_eq (g := g) hq had (by omega) (ecsOk hec)).2 hv).1 hn
  generalize prepare e q (start g) = r at hf k1 k2 k3 k4 k5 hv1 hv2
  obtain ⟨b, s⟩ := r
  dsimp only at hf k1 k2 k3 k4 k5 hv1 hv2
  subst hv1
  obtain ⟨hE, hm'⟩ := hf rfl
  dsimp only
  rw [hp]
  obtain ⟨r1, r2, r3⟩ := room he hq h hm' k4
  have hb : noQuestion q ≠ 0 ∧ noQuestion q < 16 := by unfold noQuestion; split <;> omega
  obtain ⟨c1, c2⟩ := err_code (e := e) (q := q) k1 r1 r2 r3 hE.key hE.tsig (by omega) (by omega) (fun hx => by omega)
  exact c1.trans hv2

/-- The failure before any handler. -/
private theorem refused {e : Env} {q : Query} {g : Hdr} {c : Nat} (he : Configured e) (hq : Parsed q) (hb : ∀ z, e.beginHooks z = [])
    (hend : ∀ z, e.endHooks z = []) (had : Address e)
    (hw : q.size ≤ q.parsed) (hv : ∀ o, q.opt = some o → o.version = 0) (hec : Ecs e q) (h : optSize e q ≤ 200) (hn : q.question ≠ [])
    (hc : ∀ s, byClass e q s = (.fail, { s with qd := { s.qd with rcode := c } })) (h0 : c ≠ 0) (h16 : c < 16)
    (hcat : zoneFind e.zonedb q = none ∨ queryType q ≠ .normal) :
    Reply.rcode (produce e q (start g)).2.pkt = c := by
  have hql := hq.question
  unfold produce
  rw [if_neg (by omega)]
  obtain ⟨_, ht⟩ := prepare_spec (g := g) he hq
  obtain ⟨k1, k2, k3, k4, k5⟩ := prepare_opt (e := e) (g := g) hq
  obtain ⟨hv1, _, _, hv4, hv5⟩ := ((prepare_eq (g := g) hq had (by omega) (ecsOk hec)).2 hv).2 hn
  generalize prepare e q (start g) = r at ht k1 k2 k3 k4 k5 hv1 hv4 hv5
  obtain ⟨b, s⟩ := r
  dsimp only at ht k1 k2 k3 k4 k5 hv1 hv4 hv5
  subst hv1
  obtain ⟨_, hlim, hm1, hm2, _⟩ := ht rfl
  dsimp only
  rw [hend, hb]
  have hk : s.qd.key = none := by
    rw [hv4]
    unfold catalogCheck
    rcases hcat with hz | hz
    · rw [hz]
    · dsimp only
      split
      · rfl
      · rw [if_neg (by simp [hz])]
  have hmid : middle e q .produce s = (.fail, { s with qd := { s.qd with rcode := c } }) := by
    unfold middle
    rw [if_neg (by simp)]
    dsimp only
    rw [if_pos rfl, hc]
    unfold post
    dsimp only
    rw [if_neg (by simp)]
  show Reply.rcode (finish e q (middle e q .produce s).1 (middle e q .produce s).2).2.pkt = c
  rw [hmid]
  obtain ⟨r1, r2, r3⟩ := room he hq h (.inr ⟨hlim, hm1, hm2⟩) k4
  exact (err_code (e := e) (q := q) (s := { s with qd := { s.qd with rcode := c } }) ⟨k1.pos, k1.ext⟩ r1 r2 r3 hk hv5 h0 (by dsimp only; omega)
    (fun _ => h16)).1

/-- C50. A query in a class other than IN, CH and ANY is refused. -/
theorem C50_class (e : Env) (q : Query) (g : Hdr) (he : Configured e) (hq : Parsed q) (hb : ∀ z, e.beginHooks z = [])
    (hend : ∀ z, e.endHooks z = []) (had : Address e)
    (hw : q.size ≤ q.parsed) (hv : ∀ o, q.opt = some o → o.version = 0) (hec : Ecs e q) (h : optSize e q ≤ 200) (hn : q.question ≠ [])
    (h1 : q.qclass ≠ 1) (h3 : q.qclass ≠ 3) (h255 : q.qclass ≠ 255) : Reply.rcode (produce e q (start g)).2.pkt = 5 := by
  apply refused he hq hb hend had hw hv hec h hn
  · intro s
    unfold byClass
    rw [if_neg h3, if_neg (by omega)]
  · omega
  · omega
  · left
    unfold zoneFind
    rw [if_pos ⟨h1, h255⟩]

/-- C50. A query with an operation other than QUERY, NOTIFY and UPDATE gets NOTIMP. -/
theorem C50_opcode (e : Env) (q : Query) (g : Hdr) (he : Configured e) (hq : Parsed q) (hb : ∀ z, e.beginHooks z = [])
    (hend : ∀ z, e.endHooks z = []) (had : Address e)
    (hw : q.size ≤ q.parsed) (hv : ∀ o, q.opt = some o → o.version = 0) (hec : Ecs e q) (h : optSize e q ≤ 200) (hn : q.question ≠ [])
    (hc : q.qclass = 1 ∨ q.qclass = 3 ∨ q.qclass = 255) (h0 : q.hdr.opcode ≠ 0) (h4 : q.hdr.opcode ≠ 4) (h5 : q.hdr.opcode ≠ 5) :
    Reply.rcode (produce e q (start g)).2.pkt = 4 := by
  have hqt : queryType q = .invalid := by
    unfold queryType; rw [if_neg h0, if_neg h4, if_neg h5]
  apply refused he hq hb hend had hw hv hec h hn
  · intro s
    unfold byClass
    by_cases hch : q.qclass = 3
    · rw [if_pos hch]; unfold chaosAnswer; rw [if_pos (by rw [hqt]; simp)]
    · rw [if_neg hch, if_pos (by omega)]
      unfold internet; rw [if_pos hqt]
  · omega
  · omega
  · right; rw [hqt]; simp

/-! ## The zone -/

/-- C50. The zone that answers a query for other than DS is the one with the longest name that encloses the name. -/
theorem C50_zone (db : List (Dname.Name × Zone)) (q : Query) (hc : q.qclass = 1 ∨ q.qclass = 255) (ho : q.hdr.opcode = 0)
    (h1 : q.qtype ≠ 0) (h2 : q.qtype ≠ 43) (h3 : q.qtype ≠ 251) (h4 : q.qtype ≠ 252) (z : Zone) :
    zoneFind db q = some z ↔ ∃ pre suf, q.qname = pre ++ suf ∧ Zones.find db suf = some z ∧
      ∀ pre' suf', q.qname = pre' ++ suf' → suf.length < suf'.length → Zones.find db suf' = none := by
  unfold zoneFind zoneDirect
  rw [if_neg (by omega), if_neg (by simp [h2]), if_pos (by unfold queryType; rw [if_pos ho, if_neg h1, if_neg h4, if_neg h3])]
  exact C29_deepest db q.qname z

/-- C50. For DS it is the one above the name, if there is any. -/
theorem C50_zone_ds (db : List (Dname.Name × Zone)) (q : Query) (hc : q.qclass = 1 ∨ q.qclass = 255) (h2 : q.qtype = 43)
    (l : List UInt8) (n : Dname.Name) (hn : q.qname = l :: n) (z : Zone)
    (h : ∃ pre suf, n = pre ++ suf ∧ Zones.find db suf = some z ∧
      ∀ pre' suf', n = pre' ++ suf' → suf.length < suf'.length → Zones.find db suf' = none) : zoneFind db q = some z := by
  unfold zoneFind
  rw [if_neg (by omega), if_pos ⟨h2, by rw [hn]; simp⟩, hn, List.tail_cons, (C29_deepest db n z).mpr h]
  rfl

/-- C50. For a transfer, NOTIFY and UPDATE it is the one with exactly this name. -/
theorem C50_zone_exact (db : List (Dname.Name × Zone)) (q : Query) (hc : q.qclass = 1 ∨ q.qclass = 255) (hd : q.qtype ≠ 43)
    (h : (q.hdr.opcode = 0 ∧ (q.qtype = 251 ∨ q.qtype = 252)) ∨ q.hdr.opcode = 4 ∨ q.hdr.opcode = 5) :
    zoneFind db q = Zones.find db q.qname := by
  unfold zoneFind zoneDirect
  rw [if_neg (by omega), if_neg (by simp [hd]), if_neg]
  unfold queryType
  rcases h with ⟨h, h' | h'⟩ | h | h <;> rw [h]
  · rw [h']; decide
  · rw [h']; decide
  · rw [if_neg (by decide), if_pos rfl]; decide
  · rw [if_neg (by decide), if_neg (by decide), if_pos rfl]; decide

/-- C50. The zone and the code with which the handlers begin: of a catalog, to those only who may transfer it; others get
NOTAUTH as if there were no zone. -/
theorem C50_catalog (e : Env) (q : Query) (g : Hdr) (hq : Parsed q) (had : Address e) (hv : ∀ o, q.opt = some o → o.version = 0)
    (hec : Ecs e q) (h : 12 + q.question.length + optSize e q ≤ 65535) (hn : q.question ≠ []) :
    (prepare e q (start g)).1 = true ∧
    (((prepare e q (start g)).2.qd.zone = zoneFind e.zonedb q ∧ (prepare e q (start g)).2.qd.rcode = 0 ∧
        ¬ (queryType q = .normal ∧ e.acl = none ∧ ∃ z, zoneFind e.zonedb q = some z ∧ z.catalog = true)) ∨
     ((prepare e q (start g)).2.qd.zone = none ∧ (prepare e q (start g)).2.qd.rcode = 9 ∧
        queryType q = .normal ∧ e.acl = none ∧ ∃ z, zoneFind e.zonedb q = some z ∧ z.catalog = true)) := by
  obtain ⟨h1, h2, h3, _⟩ := ((prepare_eq (g := g) hq had h (ecsOk hec)).2 hv).2 hn
  refine ⟨h1, ?_⟩
  rw [h2, h3]
  unfold catalogCheck
  dsimp only
  cases hz : zoneFind e.zonedb q with
  | none => left; refine ⟨rfl, rfl, ?_⟩; rintro ⟨_, _, z, hx, _⟩; cases hx
  | some z =>
    dsimp only
    by_cases hc : z.catalog = true ∧ queryType q = .normal
    · rw [if_pos (by simp [hc.1, hc.2])]
      cases ha : e.acl with
      | none => right; exact ⟨rfl, rfl, hc.2, rfl, z, rfl, hc.1⟩
      | some k => left; refine ⟨rfl, rfl, ?_⟩; rintro ⟨_, hx, _⟩; cases hx
    · rw [if_neg (by simp only [Bool.and_eq_true, decide_eq_true_eq]; exact hc)]
      left
      refine ⟨rfl, rfl, ?_⟩
      rintro ⟨hx, _, z', hz', hc'⟩
      injection hz' with hz'; subst hz'
      exact hc ⟨hc', hx⟩

end Knot
