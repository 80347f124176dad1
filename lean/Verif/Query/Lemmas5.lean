import Verif.Query.Lemmas4
/-!
# Lemmas: presence of OPT, codes, padding
-/
namespace Knot.Query
open Reply

/-- The most that padding takes. -/
def padMax (e : Env) : Nat := if e.proto = .quic ∨ e.proto = .tls then 471 else 0

theorem addEde_size (s : St) (o : Opt) : (addEde s o).wireSize ≤ o.wireSize + 6 := by
  unfold addEde; split
  · omega
  · split
    · rw [wireSize_add]; dsimp only; omega
    · omega

theorem addExpire_size (e : Env) (q : Query) (s : St) (o : Opt) : (addExpire e q s o).wireSize ≤ o.wireSize + 8 := by
  unfold addExpire; split
  · split
    · rw [wireSize_add]; dsimp only; omega
    · omega
  · omega

theorem alignment_lt {p o n : Nat} (h : alignment p o 468 = some n) : n ≤ 467 ∧ (p + o + 4 + n) % 468 = 0 := by
  unfold alignment at h
  split at h
  · cases h
  · split at h
    · cases h
    · injection h with h
      split at h
      · omega
      · omega

theorem alignment_none {p o : Nat} (h : alignment p o 468 = none) (ho : 0 < o) : (p + o) % 468 = 0 := by
  unfold alignment at h
  split at h
  · omega
  · split at h
    · assumption
    · cases h

theorem addPadding_size (e : Env) (p : Pkt) (o : Opt) : (addPadding e p o).wireSize ≤ o.wireSize + padMax e := by
  unfold addPadding padMax
  split
  · split
    · omega
    · rename_i n hn
      have := (alignment_lt hn).1
      rw [wireSize_add]; dsimp only; omega
  · omega

theorem wireSize_pos (o : Opt) : 0 < o.wireSize := by unfold Opt.wireSize; omega

theorem addPadding_aligned {e : Env} (h : e.proto = .quic ∨ e.proto = .tls) (p : Pkt) (o : Opt) :
    (p.size + p.reserved + (addPadding e p o).wireSize) % 468 = 0 := by
  unfold addPadding
  rw [if_pos h]
  split
  · rename_i hn; exact alignment_none hn (wireSize_pos o)
  · rename_i n hn
    have := (alignment_lt hn).2
    rw [wireSize_add]; dsimp only
    have e1 : p.size + p.reserved + (o.wireSize + (4 + n)) = p.size + p.reserved + o.wireSize + 4 + n := by omega
    rw [e1]; exact this

/-- All of OPT together. -/
theorem opt_size (e : Env) (q : Query) (t : St) (p : Pkt) (o : Opt) :
    (addPadding e p (addExpire e q t (addEde t o))).wireSize ≤ o.wireSize + 14 + padMax e := by
  have h1 := addEde_size t o
  have h2 := addExpire_size e q t (addEde t o)
  have h3 := addPadding_size e p (addExpire e q t (addEde t o))
  omega

theorem errSign_opt (q : Query) (s : St) (h : Lined s) (ha : Answers q s.pkt) :
    (errSign q (setRcode s)).pkt.opt = none ↔ s.pkt.opt = none := by
  have hx := (shown_setRcode ha h).2
  unfold errSign
  rcases sign_cases q (setRcode s) with ⟨_, h1⟩ | ⟨k, _, ⟨h2, h1⟩ | ⟨_, h1⟩⟩ <;> rw [h1] <;> dsimp only
  · exact hx
  · exact hx
  · rw [← hx]
    unfold setRcode
    rw [if_neg (show ¬ 2 / 16 % 256 ≠ 0 by decide)]

theorem lined_errRcode {s : St} (h : Lined s) : Lined (errRcode s) := by
  unfold errRcode
  split
  · rcases h with ⟨a, _⟩ | ⟨pos, o, a, b, c⟩
    · exact .inl ⟨a, .inr (show 2 / 16 % 256 = 0 by decide)⟩
    · exact .inr ⟨pos, o, a, b, c⟩
  · exact h

theorem err_has {e : Env} {q : Query} {s : St} (h : OptOk s.qd) (hm : s.pkt.maxSize ≤ 65535) {o : Opt} (ho : s.qd.opt = some o)
    (hr : 12 + q.question.length + o.wireSize + 14 + padMax e ≤ s.pkt.maxSize) :
    (err e q s).pkt.opt ≠ none ∧ (errOpt e q (errStart q s)).qd.rcode = s.qd.rcode ∧ (errOpt e q (errStart q s)).pkt.opt ≠ none := by
  rw [err_eq]
  obtain ⟨ha, hs, hr0, hn, hmx, hqd⟩ := errStart_spec (q := q) (s := s) (by omega)
  obtain ⟨l1, l2, l3, l4⟩ := errOpt_lined (e := e) (q := q) (s := errStart q s) (by rw [hqd]; exact h) (by omega) (by omega) hr0 hn
  have ha2 := answers_errOpt ha e
  have hiff := errSign_opt q _ (lined_errRcode l2) (by rw [errRcode_pkt]; exact ha2)
  rw [errRcode_pkt] at hiff
  rw [Ne, hiff]
  rcases errOpt_cases e q (errStart q s) (by omega) (by omega) hr0 with ⟨ho', _⟩ | ⟨o', ho', ⟨hb, _⟩ | ⟨_, o1, o2, ⟨t, ht, ho1⟩, ho2, ⟨hb, _⟩ | ⟨_, h3⟩⟩⟩
  · rw [hqd, ho] at ho'; cases ho'
  · rw [hqd, ho] at ho'; injection ho' with ho'; subst ho'; omega
  · rw [hqd, ho] at ho'; injection ho' with ho'; subst ho'
    have := opt_size e q t (errStart q s).pkt o
    rw [← ho1, ← ho2] at this; omega
  · rw [h3]; dsimp only
    exact ⟨by simp, by rw [hqd], by simp⟩

/-- The code that a client reads after an error that is not signed. -/
theorem err_code {e : Env} {q : Query} {s : St} (h : OptOk s.qd) (hm : s.pkt.maxSize ≤ 65535) (hq : 12 + q.question.length ≤ s.pkt.maxSize)
    (hr : ∀ o, s.qd.opt = some o → 12 + q.question.length + o.wireSize + 14 + padMax e ≤ s.pkt.maxSize)
    (hk : s.qd.key = none) (ht : s.qd.rcodeTsig = 0) (h0 : s.qd.rcode ≠ 0) (h1 : s.qd.rcode < 4096) (h2 : s.qd.opt = none → s.qd.rcode < 16) :
    Reply.rcode (err e q s).pkt = s.qd.rcode ∧ ((err e q s).pkt.opt = none ↔ s.qd.opt = none) := by
  obtain ⟨ha, hs, hr0, hn, hmx, hqd⟩ := errStart_spec (q := q) (s := s) hq
  obtain ⟨l1, l2, l3, l4⟩ := errOpt_lined (e := e) (q := q) (s := errStart q s) (by rw [hqd]; exact h) (by omega) (by omega) hr0 hn
  have ha2 := answers_errOpt ha e
  have key : (errOpt e q (errStart q s)).qd.rcode = s.qd.rcode ∧ ((errOpt e q (errStart q s)).pkt.opt = none ↔ s.qd.opt = none) ∧
      (errOpt e q (errStart q s)).qd.key = none ∧ (errOpt e q (errStart q s)).qd.rcodeTsig = 0 := by
    cases ho : s.qd.opt with
    | none =>
      obtain ⟨a, b⟩ := l4 (by rw [hqd]; exact ho)
      rw [b, hqd]
      exact ⟨rfl, by simp [a], hk, ht⟩
    | some o =>
      obtain ⟨_, a, b⟩ := err_has h hm ho (hr o ho)
      refine ⟨a, by simp [b], ?_⟩
      rcases errOpt_cases e q (errStart q s) (by omega) (by omega) hr0 with ⟨ho', h3⟩ | ⟨o', ho', ⟨hb, h3⟩ | ⟨_, o1, o2, ⟨t, ht, ho1⟩, ho2, ⟨hb, h3⟩ | ⟨_, h3⟩⟩⟩ <;>
        rw [h3] <;> (try dsimp only) <;> rw [hqd] <;> exact ⟨hk, ‹_›⟩
  obtain ⟨k1, k2, k3, k4⟩ := key
  have e1 : errRcode (errOpt e q (errStart q s)) = errOpt e q (errStart q s) := by
    unfold errRcode; rw [if_neg (fun h => h0 (k1 ▸ h.1))]
  rw [err_eq, e1]
  have hsg := shown_setRcode ha2 l2
  rw [errSign_early (by rw [setRcode_qd]; exact k3) (by rw [setRcode_qd]; exact k4)]
  refine ⟨?_, hsg.2.trans k2⟩
  rw [hsg.1, k1]
  unfold shown
  rw [if_neg, Nat.mod_eq_of_lt h1]
  intro hc
  have := h2 (k2.mp hc.2)
  omega

/-! ## prepare: more -/

theorem maxPayload_some {e : Env} (h : Address e) : ∃ m, maxPayload e = some m := by
  unfold maxPayload; rcases h with h | h <;> rw [h] <;> exact ⟨_, rfl⟩

theorem limit_some {e : Env} (h : Address e) (q : Query) : ∃ m, limit e q = some m := by
  unfold limit
  split
  · split
    · exact ⟨_, rfl⟩
    · rcases h with h | h <;> rw [h] <;> exact ⟨_, rfl⟩
  · exact ⟨_, rfl⟩

/-- The option client subnet of the query can be parsed, if it counts. -/
def EcsOk (e : Env) (q : Query) : Prop := ∀ o, q.opt = some o → ∀ n, ecsOf e o ≠ some (n, false)

/-- ednsInit if nothing is wrong. -/
theorem ednsInit_ok {e : Env} {q : Query} {s : St} (hm : s.pkt.maxSize = 65535) (hs : s.pkt.size = 12 + q.question.length) (hr : s.pkt.reserved = 0)
    (hq : Parsed q) (ha : Address e) (h : 12 + q.question.length + optSize e q ≤ 65535) (hec : EcsOk e q) :
    (ednsInit e q s).1 = true ∧ (ednsInit e q s).2.qd.rcode = (match q.opt with | some o => if o.version ≠ 0 then 16 else s.qd.rcode | none => s.qd.rcode) := by
  obtain ⟨m, hmp⟩ := maxPayload_some ha
  have hrem : remaining s.pkt = 65535 - s.pkt.size := by rw [remaining_of (by omega) (by omega)]; omega
  unfold ednsInit
  split
  · rename_i hqo; rw [hqo]; exact ⟨rfl, rfl⟩
  · rename_i o hqo
    rw [hqo, hmp]
    dsimp only
    obtain ⟨hs1, hs2⟩ := optSize_pos (e := e) hqo m o.dnssec
    have hres : ∀ (r : Opt) (c : Nat), r.wireSize = optSize e q →
        ∃ p, ednsReserve { s with qd := { s.qd with opt := some r, rcode := c } } = some ⟨p, { s.qd with opt := some r, rcode := c }⟩ := by
      intro r c hw
      refine ⟨{ s.pkt with reserved := s.pkt.reserved + r.wireSize }, ?_⟩
      unfold ednsReserve
      dsimp only
      have : reserve s.pkt r.wireSize = some { s.pkt with reserved := s.pkt.reserved + r.wireSize } := if_pos (by omega)
      rw [this]; rfl
    split
    · rename_i n hn; exact absurd hn (hec o hqo n)
    · rename_i n hn
      obtain ⟨p, hp⟩ := hres ((addNsid e o ⟨m, 0, 0, o.dnssec, []⟩).add ⟨8, n, 0⟩) (if o.version ≠ 0 then 16 else s.qd.rcode) (hs1 n hn)
      rw [hp]; exact ⟨rfl, rfl⟩
    · rename_i hn
      obtain ⟨p, hp⟩ := hres (addNsid e o ⟨m, 0, 0, o.dnssec, []⟩) (if o.version ≠ 0 then 16 else s.qd.rcode)
        (hs2 (fun n hn' => by rw [hn] at hn'; cases hn'))
      rw [hp]; exact ⟨rfl, rfl⟩

/-- OPT after prepare(), whether it succeeded or not. -/
theorem prepare_opt {e : Env} {q : Query} {g : Hdr} (hq : Parsed q) :
    OptOk (prepare e q (start g)).2.qd ∧ (q.opt = none → (prepare e q (start g)).2.qd.opt = none) ∧
    (Address e → q.opt ≠ none → (prepare e q (start g)).2.qd.opt ≠ none) ∧
    (∀ o, (prepare e q (start g)).2.qd.opt = some o → o.wireSize ≤ optSize e q) ∧ (prepare e q (start g)).2.qd.optPos = none := by
  have hqs := hq.question
  obtain ⟨p, hp, ha, h1, h2, h3, h4, h5⟩ := answers_init (start g).pkt q (by show 12 + _ ≤ 65535; omega)
  have h1' : p.maxSize = 65535 := h1
  have hi := ednsInit_spec (e := e) (q := q) (s := { start g with pkt := p }) (by show p.maxSize ≤ 65535; omega)
    (by show p.size + p.reserved ≤ p.maxSize; omega) rfl
  have hii : Address e → q.opt ≠ none → (ednsInit e q { start g with pkt := p }).2.qd.opt ≠ none := by
    intro had hqn
    obtain ⟨m, hmp⟩ := maxPayload_some had
    unfold ednsInit
    split
    · rename_i hqo; exact absurd hqo hqn
    · rw [hmp]
      dsimp only
      split
      · simp
      · split
        · simp
        · rename_i hn
          obtain ⟨hqd, _⟩ := ednsReserve_some hn
          dsimp only; rw [hqd]; simp
      · split
        · simp
        · rename_i hn
          obtain ⟨hqd, _⟩ := ednsReserve_some hn
          dsimp only; rw [hqd]; simp
  unfold prepare
  rw [hp]
  dsimp only
  generalize ednsInit e q { start g with pkt := p } = r at hi hii ⊢
  obtain ⟨b, s⟩ := r
  obtain ⟨i1, i2, i3, i4, i5, i6, i7, i8, i9, i10, i11, i12, i13, i14⟩ := hi
  dsimp only at i1 i2 i3 i4 i5 i6 i7 i8 i9 i10 i11 i12 i13 i14 hii
  have key : ∀ d : Qdata, d.opt = s.qd.opt → d.optPos = s.qd.optPos → OptOk d ∧ (q.opt = none → d.opt = none) ∧ (Address e → q.opt ≠ none → d.opt ≠ none) ∧
      (∀ o, d.opt = some o → o.wireSize ≤ optSize e q) ∧ d.optPos = none := by
    intro d hd hd2
    have hpos : d.optPos = none := hd2.trans i12
    refine ⟨⟨fun _ => hpos, fun o ho => (i7 o (hd ▸ ho)).2.2.1⟩, ?_, by rw [hd]; exact hii, fun o ho => (i7 o (hd ▸ ho)).1, hpos⟩
    intro hqn
    cases hx : d.opt with
    | none => rfl
    | some o => exact absurd hqn (i7 o (hd ▸ hx)).2.1
  cases b
  · exact key _ rfl rfl
  · dsimp only
    split
    · exact key _ rfl rfl
    · split
      · exact key _ rfl rfl
      · split
        · exact key _ rfl rfl
        · rename_i m _ _
          obtain ⟨c1, c2, c3, c4, c5⟩ := catalogCheck_pkt e q ⟨{ s.pkt with maxSize := m }, { s.qd with zone := zoneFind e.zonedb q }⟩
          exact key _ c2 c4

/-- What prepare() comes to if nothing is wrong with EDNS. -/
theorem prepare_eq {e : Env} {q : Query} {g : Hdr} (hq : Parsed q) (had : Address e) (h : 12 + q.question.length + optSize e q ≤ 65535)
    (hec : EcsOk e q) :
    (∀ o, q.opt = some o → o.version ≠ 0 → (prepare e q (start g)).1 = false ∧ (prepare e q (start g)).2.qd.rcode = 16) ∧
    ((∀ o, q.opt = some o → o.version = 0) →
      (q.question = [] → (prepare e q (start g)).1 = false ∧ (prepare e q (start g)).2.qd.rcode = noQuestion q) ∧
      (q.question ≠ [] → (prepare e q (start g)).1 = true ∧
        (prepare e q (start g)).2.qd.zone = (catalogCheck e q ⟨(prepare e q (start g)).2.pkt, { zone := zoneFind e.zonedb q }⟩).qd.zone ∧
        (prepare e q (start g)).2.qd.rcode = (catalogCheck e q ⟨(prepare e q (start g)).2.pkt, { zone := zoneFind e.zonedb q }⟩).qd.rcode ∧
        (prepare e q (start g)).2.qd.key = (catalogCheck e q ⟨(prepare e q (start g)).2.pkt, { zone := zoneFind e.zonedb q }⟩).qd.key ∧
        (prepare e q (start g)).2.qd.rcodeTsig = 0)) := by
  have hqs := hq.question
  obtain ⟨p, hp, ha, h1, h2, h3, h4, h5⟩ := answers_init (start g).pkt q (by show 12 + _ ≤ 65535; omega)
  have h1' : p.maxSize = 65535 := h1
  have hi := ednsInit_spec (e := e) (q := q) (s := { start g with pkt := p }) (by show p.maxSize ≤ 65535; omega)
    (by show p.size + p.reserved ≤ p.maxSize; omega) rfl
  have ho := ednsInit_ok (e := e) (q := q) (s := { start g with pkt := p }) h1' h2 h3 hq had h hec
  unfold prepare
  rw [hp]
  dsimp only
  generalize ednsInit e q { start g with pkt := p } = r at hi ho ⊢
  obtain ⟨b, s⟩ := r
  obtain ⟨i1, i2, i3, i4, i5, i6, i7, i8, i9, i10, i11, i12, i13, i14⟩ := hi
  dsimp only at i1 i2 i3 i4 i5 i6 i7 i8 i9 i10 i11 i12 i13 i14 ho
  obtain ⟨hb, hrc⟩ := ho
  subst hb
  dsimp only
  constructor
  · intro o hqo hv
    rw [hqo] at hrc
    dsimp only at hrc
    rw [if_pos hv] at hrc
    rw [if_pos (by omega)]
    exact ⟨rfl, hrc⟩
  · intro hv
    have hr0 : s.qd.rcode = 0 := by
      rw [hrc]
      split
      · rename_i o hqo; rw [if_neg (fun h => h (hv o hqo))]; rfl
      · rfl
    rw [if_neg (by omega)]
    obtain ⟨m, hl⟩ := limit_some had q
    rw [hl]
    dsimp only
    constructor
    · intro hqn
      rw [if_pos hqn]; exact ⟨rfl, rfl⟩
    · intro hqn
      rw [if_neg hqn]
      refine ⟨rfl, ?_⟩
      dsimp only
      have i10' : s.qd.key = none := i10
      have i11' : s.qd.rcodeTsig = 0 := i11
      unfold catalogCheck
      dsimp only
      cases hz : zoneFind e.zonedb q with
      | none => exact ⟨rfl, hr0, i10', i11'⟩
      | some z =>
        dsimp only
        by_cases hc : (z.catalog && decide (queryType q = .normal)) = true
        · rw [if_pos hc, if_pos hc]
          cases e.acl with
          | none => exact ⟨rfl, rfl, rfl, rfl⟩
          | some k => exact ⟨rfl, hr0, rfl, i11'⟩
        · rw [if_neg hc, if_neg hc]
          exact ⟨rfl, hr0, i10', i11'⟩

end Knot.Query
