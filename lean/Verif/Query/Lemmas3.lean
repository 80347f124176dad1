import Verif.Query.Lemmas2
/-!
# Lemmas: errors, codes, OPT
-/
namespace Knot.Query
open Reply

/-! ## Failure at the start -/

theorem addEde_none {s : St} (h : s.qd.ede = none) (o : Opt) : addEde s o = o := by unfold addEde; rw [h]

theorem addExpire_none {e : Env} {q : Query} {s : St} (h : s.qd.zone = none) (o : Opt) : addExpire e q s o = o := by
  unfold addExpire; rw [h]; split
  · rename_i h1; cases h1
  · rfl

theorem addPadding_none {e : Env} (h1 : e.proto ≠ .quic) (h2 : e.proto ≠ .tls) (p : Pkt) (o : Opt) : addPadding e p o = o := by
  unfold addPadding; rw [if_neg]; rintro (h | h)
  · exact h1 h
  · exact h2 h

theorem tsigLen_early {q : Query} {d : Qdata} (h1 : d.key = none) (h2 : d.rcodeTsig = 0) : tsigLen q d = none := by
  unfold tsigLen; rw [h1]; dsimp only; rw [if_neg (by omega)]

theorem errSign_early {q : Query} {s : St} (h1 : s.qd.key = none) (h2 : s.qd.rcodeTsig = 0) : errSign q s = s := by
  unfold errSign
  rcases sign_cases q s with ⟨_, h⟩ | ⟨n, h, _⟩
  · rw [h]
  · rw [tsigLen_early h1 h2] at h; cases h

/-- errOpt by cases. -/
theorem errOpt_cases (e : Env) (q : Query) (s : St) (hm : s.pkt.maxSize ≤ 65535) (hs : s.pkt.size ≤ s.pkt.maxSize)
    (hr : s.pkt.reserved = 0) :
    (s.qd.opt = none ∧ errOpt e q s = s) ∨
    ∃ o, s.qd.opt = some o ∧
      ((s.pkt.maxSize < s.pkt.size + o.wireSize ∧ errOpt e q s = { s with qd := { s.qd with rcode := 1 } }) ∨
       (s.pkt.size + o.wireSize ≤ s.pkt.maxSize ∧ ∃ o1 o2 : Opt,
          (∃ t : St, t.qd = s.qd ∧ o1 = addExpire e q t (addEde t o)) ∧ o2 = addPadding e s.pkt o1 ∧
          ((s.pkt.maxSize < s.pkt.size + o2.wireSize ∧
              errOpt e q s = ⟨{ s.pkt with hdr := s.pkt.hdr.setTc }, { s.qd with opt := some o2, rcode := 1 }⟩) ∨
           (s.pkt.size + o2.wireSize ≤ s.pkt.maxSize ∧
              errOpt e q s = ⟨{ s.pkt with hdr := count s.pkt.hdr s.pkt.current 1, size := s.pkt.size + o2.wireSize, opt := some (s.pkt.size, o2) },
                { s.qd with opt := some o2, optPos := some s.pkt.size }⟩)))) := by
  have hrem : remaining s.pkt = s.pkt.maxSize - s.pkt.size := by rw [remaining_of hm (by omega)]; omega
  cases ho : s.qd.opt with
  | none =>
    left
    refine ⟨rfl, ?_⟩
    have h1 : ednsReserve s = some s := by unfold ednsReserve; rw [ho]
    unfold errOpt
    rw [h1]
    have h2 : ednsPut e q s = (true, s) := by unfold ednsPut; rw [ho]
    simp only [h2]
  | some o =>
    right
    refine ⟨o, rfl, ?_⟩
    by_cases hw : s.pkt.size + o.wireSize ≤ s.pkt.maxSize
    · right
      refine ⟨hw, ?_⟩
      have h1 : ednsReserve s = some { s with pkt := { s.pkt with reserved := s.pkt.reserved + o.wireSize } } := by
        unfold ednsReserve; rw [ho]; dsimp only
        have : reserve s.pkt o.wireSize = some { s.pkt with reserved := s.pkt.reserved + o.wireSize } := if_pos (by omega)
        rw [this]; rfl
      unfold errOpt
      rw [h1]
      dsimp only
      rcases ednsPut_cases e q { s with pkt := { s.pkt with reserved := s.pkt.reserved + o.wireSize } } with
        ⟨h2, _⟩ | ⟨o', h2, ⟨h3, _⟩ | ⟨h3, p, o2, hp, hw2, hc⟩⟩
      · rw [ho] at h2; cases h2
      · rw [ho] at h2; injection h2 with h2; subst h2; dsimp only at h3; omega
      · rw [ho] at h2; injection h2 with h2; subst h2
        have hp' : p = s.pkt := by
          rw [hp]; dsimp only
          have : s.pkt.reserved + o.wireSize - o.wireSize = s.pkt.reserved := by omega
          rw [this]
        subst hp'
        refine ⟨_, o2, ⟨{ s with pkt := { s.pkt with reserved := s.pkt.reserved + o.wireSize } }, rfl, rfl⟩, hw2, ?_⟩
        rcases hc with ⟨h4, h5⟩ | ⟨h4, h5⟩
        · left; refine ⟨by omega, ?_⟩; rw [h5]
        · right; refine ⟨by omega, ?_⟩; rw [h5]
    · left
      refine ⟨by omega, ?_⟩
      have h1 : ednsReserve s = none := by
        unfold ednsReserve; rw [ho]; dsimp only
        have : reserve s.pkt o.wireSize = none := if_neg (by omega)
        rw [this]; rfl
      unfold errOpt
      rw [h1]

theorem setRcode_qd (s : St) : (setRcode s).qd = s.qd := (setRcode_cases s).1

theorem errRcode_qd (s : St) : ∃ r, (errRcode s).qd = { s.qd with rcode := r } := by
  unfold errRcode; split
  · exact ⟨2, rfl⟩
  · exact ⟨s.qd.rcode, rfl⟩

theorem early_err {e : Env} {q : Query} {s : St} (h : Early e q s) (hm : s.pkt.maxSize ≤ 65535)
    (hq : 12 + q.question.length ≤ s.pkt.maxSize) (h1 : e.proto ≠ .quic) (h2 : e.proto ≠ .tls) :
    Early e q (err e q s) ∧ (err e q s).pkt.size ≤ 12 + q.question.length + optSize e q := by
  rw [err_eq]
  obtain ⟨_, hs, hr, _, hmx, hqd⟩ := errStart_spec (s := s) hq
  have hc := errOpt_cases e q (errStart q s) (by omega) (by omega) hr
  have key : ∀ t : St, t.qd.ede = none → t.qd.zone = none → t.qd.key = none → t.qd.rcodeTsig = 0 →
      (∀ o, t.qd.opt = some o → o.wireSize ≤ optSize e q) → t.pkt.size ≤ 12 + q.question.length + optSize e q →
      Early e q (errSign q (setRcode (errRcode t))) ∧ (errSign q (setRcode (errRcode t))).pkt.size ≤ 12 + q.question.length + optSize e q := by
    intro t a1 a2 a3 a4 a5 a6
    obtain ⟨r, hr⟩ := errRcode_qd t
    have hq' : (setRcode (errRcode t)).qd = { t.qd with rcode := r } := by rw [setRcode_qd, hr]
    rw [errSign_early (by rw [hq']; exact a3) (by rw [hq']; exact a4)]
    refine ⟨⟨by rw [hq']; exact a1, by rw [hq']; exact a2, by rw [hq']; exact a3, by rw [hq']; exact a4, ?_⟩, ?_⟩
    · intro o ho; rw [hq'] at ho; exact a5 o ho
    · rw [(setRcode_cases _).2.2.1, errRcode_pkt]; exact a6
  rcases hc with ⟨ho, h3⟩ | ⟨o, ho, ⟨_, h3⟩ | ⟨hw, o1, o2, ⟨t, ht, ho1⟩, ho2, h3⟩⟩
  · rw [h3]
    apply key <;> (try rw [hqd])
    · exact h.ede
    · exact h.zone
    · exact h.key
    · exact h.tsig
    · exact h.opt
    · omega
  · rw [h3]
    apply key <;> dsimp only <;> (try rw [hqd])
    · exact h.ede
    · exact h.zone
    · exact h.key
    · exact h.tsig
    · exact h.opt
    · omega
  · have e1 : o1 = o := by
      rw [ho1, addEde_none (by rw [ht, hqd]; exact h.ede), addExpire_none (by rw [ht, hqd]; exact h.zone)]
    have e2 : o2 = o := by rw [ho2, addPadding_none h1 h2, e1]
    subst e2
    have hwo := h.opt o2 (by rw [← hqd]; exact ho)
    rcases h3 with ⟨_, h3⟩ | ⟨_, h3⟩ <;> rw [h3] <;> apply key <;> dsimp only <;> (try rw [hqd]) <;>
      first | exact h.ede | exact h.zone | exact h.key | exact h.tsig | omega | (intro o ho; injection ho with ho; subst ho; exact hwo)

/-! ## The code in the message -/

/-- The OPT record in the message is the one that is known. -/
def Lined (s : St) : Prop :=
  (s.pkt.opt = none ∧ (s.qd.optPos = none ∨ s.qd.rcode / 16 % 256 = 0)) ∨
  ∃ pos o, s.pkt.opt = some (pos, o) ∧ s.qd.optPos = some pos ∧ o.ext = 0

/-- What the client reads if the code is `r`. -/
def shown (r : Nat) (p : Pkt) : Nat := if r / 16 % 256 ≠ 0 ∧ p.opt = none then 2 else r % 4096

theorem shown_setRcode {q : Query} {s : St} (ha : Answers q s.pkt) (h : Lined s) :
    Reply.rcode (setRcode s).pkt = shown s.qd.rcode s.pkt ∧ ((setRcode s).pkt.opt = none ↔ s.pkt.opt = none) := by
  have hlo : ∀ r, r < 16 → ((s.pkt.hdr.setRcode r).f2 &&& 0x0f).toNat = r := fun r hr => (f2_rcode r hr _ ha.cleared).2
  unfold setRcode shown
  by_cases hh : s.qd.rcode / 16 % 256 ≠ 0
  · rw [if_pos hh]
    rcases h with ⟨hn, hp | hp⟩ | ⟨pos, o, hn, hp, he⟩
    · rw [hp]; dsimp only
      rw [if_pos ⟨hh, hn⟩]
      unfold Reply.rcode
      dsimp only
      rw [hn, hlo 2 (by omega)]
      exact ⟨rfl, Iff.rfl⟩
    · exact absurd hp hh
    · rw [hp]; dsimp only
      rw [if_neg (by rw [hn]; simp)]
      have hx : setExt s.pkt pos (s.qd.rcode / 16 % 256) = { s.pkt with opt := some (pos, { o with ext := s.qd.rcode / 16 % 256 }) } := by
        unfold setExt; rw [hn]; dsimp only; rw [if_pos rfl]
      rw [hx]
      unfold Reply.rcode
      dsimp only
      rw [hlo _ (by omega)]
      exact ⟨by omega, by rw [hn]; simp⟩
  · rw [if_neg hh, if_neg (fun h => hh h.1)]
    unfold Reply.rcode
    dsimp only
    rw [hlo _ (by omega)]
    refine ⟨?_, Iff.rfl⟩
    rcases h with ⟨hn, _⟩ | ⟨pos, o, hn, _, he⟩
    · rw [hn]; dsimp only; omega
    · rw [hn]; dsimp only; rw [he]; omega

/-- The OPT record to be sent and its place. -/
structure OptOk (d : Qdata) : Prop where
  pos : d.opt = none → d.optPos = none
  ext : ∀ o, d.opt = some o → o.ext = 0

theorem add_ext (o : Opt) (i : Item) : (o.add i).ext = o.ext := rfl

theorem addEde_ext (s : St) (o : Opt) : (addEde s o).ext = o.ext := by
  unfold addEde; split
  · rfl
  · split <;> rfl

theorem addExpire_ext (e : Env) (q : Query) (s : St) (o : Opt) : (addExpire e q s o).ext = o.ext := by
  unfold addExpire; split
  · split <;> rfl
  · rfl

theorem addPadding_ext (e : Env) (p : Pkt) (o : Opt) : (addPadding e p o).ext = o.ext := by
  unfold addPadding; split
  · split <;> rfl
  · rfl

theorem optOk_act {s : St} (h : OptOk s.qd) (a : Act) : OptOk (act s a).qd := by
  cases a with
  | cookie len =>
    constructor
    · intro hn
      apply h.pos
      revert hn
      show Option.map _ s.qd.opt = none → _
      intro hn
      exact Option.map_eq_none_iff.mp hn
    · intro o ho
      have ho' : Option.map (fun o => o.add ⟨10, len, 0⟩) s.qd.opt = some o := ho
      cases hs : s.qd.opt with
      | none => rw [hs] at ho'; cases ho'
      | some o1 => rw [hs] at ho'; simp only [Option.map_some] at ho'; injection ho' with ho'; subst ho'; exact h.ext o1 hs
  | _ => exact ⟨h.pos, h.ext⟩

theorem optOk_run {s : St} (h : OptOk s.qd) (l : List Act) : OptOk (run s l).qd :=
  run_induct (P := fun t => OptOk t.qd) (fun _ a _ ht => optOk_act ht a) h

theorem opt_act (s : St) (a : Act) : (act s a).pkt.opt = s.pkt.opt := by
  cases a with
  | begin sec => exact (begin_rest s.pkt sec).2.2.1
  | put n len t =>
    show (putRr s.pkt n len t).opt = _
    unfold putRr; split
    · rfl
    · split <;> rfl
  | reserve n => show ((reserve s.pkt n).getD s.pkt).opt = _; rcases reserveD s.pkt n with h1 | ⟨_, h1⟩ <;> rw [h1]
  | cookie len => show ((reserve s.pkt (4 + len)).getD s.pkt).opt = _; rcases reserveD s.pkt (4 + len) with h1 | ⟨_, h1⟩ <;> rw [h1]
  | _ => rfl

theorem opt_run (s : St) (l : List Act) : (run s l).pkt.opt = s.pkt.opt :=
  run_induct (P := fun t => t.pkt.opt = s.pkt.opt) (fun t a _ ht => (opt_act t a).trans ht) rfl

theorem ednsPut_lined {e : Env} {q : Query} {s : St} (h : OptOk s.qd) (hn : s.pkt.opt = none) :
    OptOk (ednsPut e q s).2.qd ∧ ((ednsPut e q s).1 = true → Lined (ednsPut e q s).2 ∧ ((ednsPut e q s).2.pkt.opt = none ↔ s.qd.opt = none)) ∧
    ((ednsPut e q s).1 = false → s.qd.opt ≠ none ∧ (ednsPut e q s).2.pkt.opt = none ∧ (ednsPut e q s).2.qd.opt ≠ none) := by
  rcases ednsPut_cases e q s with ⟨ho, h1⟩ | ⟨o, ho, ⟨_, h1⟩ | ⟨_, p, o'', hp, ho'', ⟨_, h1⟩ | ⟨_, h1⟩⟩⟩ <;> rw [h1] <;> dsimp only
  · exact ⟨h, fun _ => ⟨.inl ⟨hn, .inl (h.pos ho)⟩, by simp [hn, ho]⟩, fun h => by cases h⟩
  · refine ⟨⟨(fun h => by cases h), ?_⟩, (fun h => by cases h), fun _ => ⟨by rw [ho]; simp, hn, by simp⟩⟩
    intro o' ho'; injection ho' with ho'; subst ho'
    rw [addExpire_ext, addEde_ext]; exact h.ext o ho
  · refine ⟨⟨(fun h => by cases h), ?_⟩, (fun h => by cases h), fun _ => ⟨by rw [ho]; simp, by rw [hp]; exact hn, by simp⟩⟩
    intro o' ho'; injection ho' with ho'; subst ho'
    rw [ho'', addPadding_ext, addExpire_ext, addEde_ext]; exact h.ext o ho
  · have he : o''.ext = 0 := by rw [ho'', addPadding_ext, addExpire_ext, addEde_ext]; exact h.ext o ho
    refine ⟨⟨(fun h => by cases h), ?_⟩, fun _ => ⟨.inr ⟨p.size, o'', rfl, rfl, he⟩, by rw [ho]; simp⟩, (fun h => by cases h)⟩
    intro o' ho'; injection ho' with ho'; subst ho'; exact he

theorem errOpt_lined {e : Env} {q : Query} {s : St} (h : OptOk s.qd) (hm : s.pkt.maxSize ≤ 65535) (hs : s.pkt.size ≤ s.pkt.maxSize)
    (hr : s.pkt.reserved = 0) (hn : s.pkt.opt = none) :
    OptOk (errOpt e q s).qd ∧ Lined (errOpt e q s) ∧ ((errOpt e q s).pkt.opt = none → s.qd.opt = none ∨ (errOpt e q s).qd.rcode = 1) ∧
    (s.qd.opt = none → (errOpt e q s).pkt.opt = none ∧ (errOpt e q s).qd = s.qd) := by
  rcases errOpt_cases e q s hm hs hr with ⟨ho, h3⟩ | ⟨o, ho, ⟨_, h3⟩ | ⟨hw, o1, o2, ⟨t, ht, ho1⟩, ho2, h3⟩⟩
  · rw [h3]; exact ⟨h, .inl ⟨hn, .inl (h.pos ho)⟩, fun _ => .inl ho, fun _ => ⟨hn, rfl⟩⟩
  · rw [h3]; exact ⟨⟨h.pos, h.ext⟩, .inl ⟨hn, .inr (show 1 / 16 % 256 = 0 by decide)⟩, fun _ => .inr rfl, fun h => by rw [ho] at h; cases h⟩
  · have he : o2.ext = 0 := by rw [ho2, addPadding_ext, ho1, addExpire_ext, addEde_ext]; exact h.ext o ho
    rcases h3 with ⟨_, h3⟩ | ⟨_, h3⟩ <;> rw [h3]
    · refine ⟨⟨(fun h => by cases h), ?_⟩, .inl ⟨hn, .inr (show 1 / 16 % 256 = 0 by decide)⟩, fun _ => .inr rfl, fun h => by rw [ho] at h; cases h⟩
      intro o' ho'; injection ho' with ho'; subst ho'; exact he
    · refine ⟨⟨(fun h => by cases h), ?_⟩, .inr ⟨_, o2, rfl, rfl, he⟩, (fun h => by cases h), fun h => by rw [ho] at h; cases h⟩
      intro o' ho'; injection ho' with ho'; subst ho'; exact he

/-- The code after an error. -/
theorem err_rcode {e : Env} {q : Query} {s : St} (h : OptOk s.qd) (hm : s.pkt.maxSize ≤ 65535) (hq : 12 + q.question.length ≤ s.pkt.maxSize) :
    OptOk (err e q s).qd ∧
    (Reply.rcode (err e q s).pkt = shown (err e q s).qd.rcode (err e q s).pkt ∨
      ((err e q s).qd.rcode = 2 ∧ Reply.rcode (err e q s).pkt % 16 = 2 ∧ (err e q s).pkt.opt ≠ none ∧
        ((err e q s).qd.key ≠ none ∨ q.tsig ≠ none))) ∧
    (s.qd.opt = none → (err e q s).pkt.opt = none) ∧ (s.qd.opt ≠ none → (err e q s).pkt.opt = none → (err e q s).qd.rcode = 1 ∨ (err e q s).qd.rcode = 2) := by
  rw [err_eq]
  obtain ⟨ha, hs, hr, hn, hmx, hqd⟩ := errStart_spec (s := s) hq
  obtain ⟨l1, l2, l3, l4⟩ := errOpt_lined (e := e) (q := q) (s := errStart q s) (by rw [hqd]; exact h) (by omega) (by omega) hr hn
  have ha2 := answers_errOpt ha e
  generalize errOpt e q (errStart q s) = t at l1 l2 l3 l4 ha2
  rw [hqd] at l3 l4
  -- errRcode
  have hl : Lined (errRcode t) ∧ OptOk (errRcode t).qd ∧ (t.qd.rcode = 1 → (errRcode t).qd.rcode = 1) := by
    unfold errRcode
    split
    · rename_i hc
      refine ⟨?_, ⟨l1.pos, l1.ext⟩, fun h => by omega⟩
      rcases l2 with ⟨a, _⟩ | ⟨pos, o, a, b, c⟩
      · exact .inl ⟨a, .inr (show 2 / 16 % 256 = 0 by decide)⟩
      · exact .inr ⟨pos, o, a, b, c⟩
    · exact ⟨l2, l1, id⟩
  have hp : (errRcode t).pkt = t.pkt := errRcode_pkt t
  obtain ⟨l5, l6, l7⟩ := hl
  generalize errRcode t = u at l5 l6 l7 hp
  have ha3 : Answers q u.pkt := by rw [hp]; exact ha2
  obtain ⟨s1, s2⟩ := shown_setRcode ha3 l5
  have hqd2 := setRcode_qd u
  have ha4 := answers_setRcode ha3
  generalize setRcode u = v at s1 s2 hqd2 ha4
  have hv : Reply.rcode v.pkt = shown v.qd.rcode v.pkt := by
    rw [s1, hqd2]; unfold shown
    by_cases hx : u.pkt.opt = none
    · rw [s2.mpr hx, hx]
    · have hx' : v.pkt.opt ≠ none := fun h => hx (s2.mp h)
      simp [hx, hx']
  have hnone : v.pkt.opt = none ↔ t.pkt.opt = none := by rw [s2, hp]
  -- errSign
  unfold errSign
  rcases sign_cases q v with ⟨_, h1⟩ | ⟨n, hn', ⟨_, h1⟩ | ⟨_, h1⟩⟩ <;> rw [h1] <;> dsimp only
  · refine ⟨by rw [hqd2]; exact l6, .inl hv, fun ho => hnone.mpr (l4 ho).1, fun ho hx => .inl ?_⟩
    rw [hqd2]
    exact l7 ((l3 (hnone.mp hx)).resolve_left ho)
  · refine ⟨by rw [hqd2]; exact l6, .inl hv, fun ho => hnone.mpr (l4 ho).1, fun ho hx => .inl ?_⟩
    rw [hqd2]
    exact l7 ((l3 (hnone.mp hx)).resolve_left ho)
  · have hlo : Reply.rcode (setRcode { v with qd := { v.qd with rcode := 2, rcodeTsig := 0 } }).pkt =
        16 * (match v.pkt.opt with | some (_, o) => o.ext | none => 0) + 2 := by
      unfold setRcode
      rw [if_neg (show ¬ 2 / 16 % 256 ≠ 0 by decide)]
      unfold Reply.rcode
      dsimp only
      rw [show (2 : Nat) % 16 = 2 from rfl]
      have := (f2_rcode 2 (by omega) _ ha4.cleared).2
      unfold Hdr.setRcode
      dsimp only
      rw [this]
      rfl
    have hopt : (setRcode { v with qd := { v.qd with rcode := 2, rcodeTsig := 0 } }).pkt.opt = v.pkt.opt := by
      unfold setRcode
      rw [if_neg (show ¬ 2 / 16 % 256 ≠ 0 by decide)]
    rw [setRcode_qd, hlo, hopt]
    refine ⟨by rw [hqd2]; exact ⟨l6.pos, l6.ext⟩, ?_, fun ho => hnone.mpr (l4 ho).1, fun _ _ => .inr rfl⟩
    cases hx : v.pkt.opt with
    | none =>
      left; dsimp only; unfold shown; rw [if_neg (fun h => absurd h.1 (by decide))]
    | some po =>
      right
      refine ⟨rfl, by omega, by simp, ?_⟩
      dsimp only
      unfold tsigLen at hn'
      cases hk : v.qd.key with
      | some k => left; simp
      | none =>
        right
        rw [hk] at hn'
        dsimp only at hn'
        split at hn'
        · rw [hn']; simp
        · cases hn'

end Knot.Query
