import Verif.Query.Lemmas3
/-!
# Lemmas: the whole
-/
namespace Knot.Query
open Reply

/-- The state between prepare() and the OPT record. -/
structure Mid (q : Query) (m : Nat) (s : St) : Prop where
  answers : Answers q s.pkt
  max : s.pkt.maxSize = m
  fit : s.pkt.size + s.pkt.reserved ≤ m
  bare : s.pkt.opt = none
  ok : OptOk s.qd
  pos : s.qd.optPos = none
  opt : s.qd.opt = none ↔ q.opt = none

theorem act_pos (s : St) (a : Act) : (act s a).qd.optPos = s.qd.optPos := by cases a <;> rfl

theorem act_opt (s : St) (a : Act) : (act s a).qd.opt = none ↔ s.qd.opt = none := by
  cases a with
  | cookie len => show Option.map _ s.qd.opt = none ↔ _; exact Option.map_eq_none_iff
  | _ => exact Iff.rfl

theorem mid_act {q : Query} {m : Nat} (hm : m ≤ 65535) {s : St} (h : Mid q m s) (a : Act) : Mid q m (act s a) := by
  have h1 := max_act s a
  have h2 := fit_act (s := s) (by rw [h.max]; exact hm) (by rw [h.max]; exact h.fit) a
  rw [h1, h.max] at h2
  exact ⟨answers_act h.answers a, h1.trans h.max, h2, (opt_act s a).trans h.bare, optOk_act h.ok a, (act_pos s a).trans h.pos, (act_opt s a).trans h.opt⟩

theorem mid_run {q : Query} {m : Nat} (hm : m ≤ 65535) {s : St} (h : Mid q m s) (l : List Act) : Mid q m (run s l) :=
  run_induct (P := Mid q m) (fun _ a _ ht => mid_act hm ht a) h

theorem mid_rcode {q : Query} {m : Nat} {s : St} (h : Mid q m s) (r : Nat) : Mid q m { s with qd := { s.qd with rcode := r } } :=
  ⟨h.answers, h.max, h.fit, h.bare, ⟨h.ok.pos, h.ok.ext⟩, h.pos, h.opt⟩

theorem mid_beginAll {q : Query} {m : Nat} (hm : m ≤ 65535) {s : St} (h : Mid q m s) (n : LState) (l : List Hook) :
    Mid q m (beginAll n s l).2 :=
  beginAll_induct (P := Mid q m) l (fun _ _ _ ht => mid_run hm ht _) n s h

theorem mid_byClass {e : Env} {q : Query} {m : Nat} (hm : m ≤ 65535) {s : St} (h : Mid q m s) : Mid q m (byClass e q s).2 := by
  unfold byClass chaosAnswer internet
  split
  · split
    · exact mid_rcode h 4
    · exact mid_rcode (mid_run hm h _) _
  · split
    · split
      · exact mid_rcode h 4
      · exact mid_run hm h _
    · exact mid_rcode h 5

/-- The state after all but the code. -/
structure Late (q : Query) (m : Nat) (n : LState) (s : St) : Prop where
  answers : Answers q s.pkt
  max : s.pkt.maxSize = m
  fit : s.pkt.size ≤ m
  ok : OptOk s.qd
  opt : s.qd.opt = none ↔ q.opt = none
  lined : n ≠ .fail → Lined s
  has : n = .done ∨ n = .produce → (s.pkt.opt = none ↔ q.opt = none)
  hasNot : q.opt = none → s.pkt.opt = none

theorem late_of_mid {q : Query} {m : Nat} {s : St} (h : Mid q m s) {n : LState} (hn : ¬ (n = .done ∨ n = .produce)) : Late q m n s :=
  ⟨h.answers, h.max, Nat.le_trans (Nat.le_add_right _ _) h.fit, h.ok, h.opt, fun _ => .inl ⟨h.bare, .inl h.pos⟩, fun h => absurd h hn,
    fun _ => h.bare⟩

theorem mid_begin {q : Query} {m : Nat} {s : St} (h : Mid q m s) (k : Nat) : Mid q m { s with pkt := begin s.pkt k } := by
  obtain ⟨b1, b2, b3, b4, b5⟩ := begin_rest s.pkt k
  exact ⟨answers_begin h.answers k, b4.trans h.max, by show (begin s.pkt k).size + (begin s.pkt k).reserved ≤ m; rw [b1, b2]; exact h.fit,
    b3.trans h.bare, h.ok, h.pos, h.opt⟩

theorem late_post {e : Env} {q : Query} {m : Nat} (hm : m ≤ 65535) {s : St} (h : Mid q m s) (n : LState) :
    Late q m (post e q n s).1 (post e q n s).2 := by
  unfold post
  by_cases hn : n = .done ∨ n = .produce
  · rw [if_pos hn]
    have hb := mid_begin h 2
    generalize ({ s with pkt := begin s.pkt 2 } : St) = t at hb
    obtain ⟨l1, l2, l3⟩ := ednsPut_lined (e := e) (q := q) hb.ok hb.bare
    have ha := answers_ednsPut hb.answers e
    have hmx := max_ednsPut e q t
    have hsz := ednsPut_size (e := e) (q := q) (s := t) (by rw [hb.max]; exact hm) (by rw [hb.max]; exact hb.fit)
    rw [hb.max] at hmx hsz
    have hopt : (ednsPut e q t).2.qd.opt = none ↔ q.opt = none := by
      rw [← hb.opt]
      rcases ednsPut_cases e q t with ⟨ho, h1⟩ | ⟨o, ho, ⟨_, h1⟩ | ⟨_, p, o'', hp, ho'', ⟨_, h1⟩ | ⟨_, h1⟩⟩⟩ <;> rw [h1, ho] <;> simp
    generalize ednsPut e q t = r at l1 l2 l3 ha hmx hsz hopt
    obtain ⟨b, u⟩ := r
    cases b
    · obtain ⟨k1, k2, k3⟩ := l3 rfl
      exact ⟨ha, hmx, Nat.le_trans (Nat.le_add_right _ _) hsz, ⟨l1.pos, l1.ext⟩, hopt, (fun h => absurd rfl h), (fun h => by rcases h with h | h <;> cases h),
        fun _ => k2⟩
    · obtain ⟨k1, k2⟩ := l2 rfl
      dsimp only at ha hmx hsz l1 hopt k1 k2 ⊢
      have k2' : u.pkt.opt = none ↔ q.opt = none := k2.trans hb.opt
      have hsu : u.pkt.size ≤ m := Nat.le_trans (Nat.le_add_right _ _) hsz
      rcases sign_cases q u with ⟨_, h1⟩ | ⟨k, _, ⟨h2, h1⟩ | ⟨_, h1⟩⟩ <;> rw [h1] <;> dsimp only
      · exact ⟨ha, hmx, hsu, l1, hopt, fun _ => k1, fun _ => k2', k2'.mpr⟩
      · exact ⟨answers_hdr ha _ rfl rfl rfl rfl rfl ha.cleared, hmx, by dsimp only; omega, l1, hopt, fun _ => k1, fun _ => k2', k2'.mpr⟩
      · exact ⟨ha, hmx, hsu, ⟨l1.pos, l1.ext⟩, hopt, (fun h => absurd rfl h), (fun h => by rcases h with h | h <;> cases h), k2'.mpr⟩
  · rw [if_neg hn]
    exact late_of_mid h hn

theorem late_middle {e : Env} {q : Query} {m : Nat} (hm : m ≤ 65535) {s : St} (h : Mid q m s) (n : LState) :
    Late q m (middle e q n s).1 (middle e q n s).2 := by
  unfold middle
  by_cases hn : n = .fail
  · rw [if_pos hn]; exact late_of_mid h (by subst hn; simp)
  · rw [if_neg hn]
    dsimp only
    by_cases hp : n = .produce
    · rw [if_pos hp]; exact late_post hm (mid_byClass hm h) _
    · rw [if_neg hp]; exact late_post hm h _

/-- What holds of the response after finish(). -/
structure Reply1 (e : Env) (q : Query) (m : Nat) (s : St) : Prop where
  answers : Answers q s.pkt
  max : s.pkt.maxSize = m
  fit : s.pkt.size ≤ m
  ok : OptOk s.qd
  opt : s.qd.opt = none → s.pkt.opt = none
  same : q.opt = none → s.qd.opt = none

theorem err_opt (e : Env) (q : Query) (s : St) : (err e q s).qd.opt = none ↔ s.qd.opt = none := by
  rw [err_eq]
  have h1 : ∀ t, (errSign q t).qd.opt = t.qd.opt := by
    intro t; unfold errSign
    rcases sign_cases q t with ⟨_, h1⟩ | ⟨k, _, ⟨h2, h1⟩ | ⟨_, h1⟩⟩ <;> rw [h1] <;> dsimp only
    rw [setRcode_qd]
  have h2 : ∀ t, (errRcode t).qd.opt = t.qd.opt := by intro t; unfold errRcode; split <;> rfl
  have h4 : (errStart q s).qd = s.qd := (errTrunc_rest _).2.2.2.2
  have h3 : ∀ t, (errOpt e q t).qd.opt = none ↔ t.qd.opt = none := by
    intro t
    unfold errOpt
    split
    · exact Iff.rfl
    · rename_i s' hs
      obtain ⟨hqd, _⟩ := ednsReserve_some hs
      rw [← hqd]
      rcases ednsPut_cases e q s' with ⟨ho, h1⟩ | ⟨o, ho, ⟨_, h1⟩ | ⟨_, p, o'', hp, ho'', ⟨_, h1⟩ | ⟨_, h1⟩⟩⟩ <;> rw [h1, ho] <;> simp
  rw [h1, setRcode_qd, h2, h3, h4]

theorem reply_err {e : Env} {q : Query} {s : St} (hm : s.pkt.maxSize ≤ 65535) (hq : 12 + q.question.length ≤ s.pkt.maxSize) (h : OptOk s.qd)
    (hs : q.opt = none → s.qd.opt = none) : Reply1 e q s.pkt.maxSize (err e q s) := by
  refine ⟨answers_err hq e, max_err e q s, err_size hm hq, (err_rcode h hm hq).1, ?_, fun h => (err_opt e q s).mpr (hs h)⟩
  intro ho
  exact (err_rcode h hm hq).2.2.1 ((err_opt e q s).mp ho)

theorem reply_finish {e : Env} {q : Query} {m : Nat} (hm : m ≤ 65535) (hq : 12 + q.question.length ≤ m) {n : LState} {s : St} (h : Late q m n s) :
    Reply1 e q m (finish e q n s).2 := by
  have hb : Reply1 e q m s := ⟨h.answers, h.max, h.fit, h.ok, fun ho => h.hasNot (h.opt.mp ho), h.opt.mpr⟩
  have hr : n ≠ .fail → Reply1 e q m (setRcode s) := by
    intro hn
    refine ⟨answers_setRcode h.answers, (max_setRcode s).trans h.max, by rw [(setRcode_cases s).2.2.1]; exact h.fit, by rw [setRcode_qd]; exact h.ok,
      ?_, by rw [setRcode_qd]; exact h.opt.mpr⟩
    rw [setRcode_qd]; intro ho
    exact (shown_setRcode h.answers (h.lined hn)).2.mpr (hb.opt ho)
  cases n with
  | noop => exact hb
  | final => exact hb
  | fail =>
    show Reply1 e q m (err e q s)
    have := reply_err (e := e) (q := q) (s := s) (by rw [h.max]; exact hm) (by rw [h.max]; exact hq) h.ok h.opt.mpr
    rw [h.max] at this; exact this
  | consume => exact hr (by simp)
  | produce => exact hr (by simp)
  | done => exact hr (by simp)

/-- The state that prepare() leaves. -/
theorem mid_prepare {e : Env} {q : Query} {g : Hdr} (he : Configured e) (hq : Parsed q) (h : (prepare e q (start g)).1 = true)
    (ho : 12 + q.question.length + optSize e q ≤ (prepare e q (start g)).2.pkt.maxSize) :
    Mid q (prepare e q (start g)).2.pkt.maxSize (prepare e q (start g)).2 := by
  obtain ⟨a1, a2, a3, a4, a5, a6, a7, a8, a9, a10, a11, a12⟩ := (prepare_spec he hq).2 h
  refine ⟨a1, rfl, by omega, a7, ⟨fun _ => a12, fun o ho => (a10 o ho).2.1⟩, a12, a9⟩

/-- An end hook that does small steps only. -/
theorem reply_run {e : Env} {q : Query} {m : Nat} {s : St} (h : Reply1 e q m s) {l : List Act} (hl : ∀ a ∈ l, Small a) : Reply1 e q m (run s l) :=
  run_induct (P := Reply1 e q m) (fun t a ha ht => by
    obtain ⟨h1, h2, h3, _⟩ := small_act (s := t) (hl a ha)
    exact ⟨answers_act ht.answers a, (max_act t a).trans ht.max, by rw [h1]; exact ht.fit, optOk_act ht.ok a, by rw [h2, h3]; exact ht.opt, by rw [h3]; exact ht.same⟩) h

theorem reply_endAll {e : Env} {q : Query} {m : Nat} (hm : m ≤ 65535) (hq : 12 + q.question.length ≤ m) {s : St} (h : Reply1 e q m s) (hl : Quiet e)
    (n : LState) (z : Option Zone) : Reply1 e q m (endAll e q n s (e.endHooks z)).2 := by
  apply endAll_induct (e := e) (q := q) (P := Reply1 e q m)
  · intro t k hk ht
    exact reply_run ht (hl z k hk t)
  · intro t ht
    have := reply_err (e := e) (q := q) (s := t) (by rw [ht.max]; exact hm) (by rw [ht.max]; exact hq) ht.ok ht.same
    rw [ht.max] at this; exact this
  · exact h

theorem early_run {e : Env} {q : Query} {s : St} (h : Early e q s) {l : List Act} (hl : ∀ a ∈ l, Small a) : Early e q (run s l) := by
  obtain ⟨h1, h2, h3, h4, h5, h6⟩ := small_run (s := s) hl
  exact ⟨h3.trans h.ede, h4.trans h.zone, h5.trans h.key, h6.trans h.tsig, by rw [h2]; exact h.opt⟩

/-- After an error at the beginning. -/
theorem early_endAll {e : Env} {q : Query} {m : Nat} (hm : m ≤ 65535) (hq : 12 + q.question.length ≤ m) {s : St} (h : Early e q s) (hl : Quiet e)
    (h1 : e.proto ≠ .quic) (h2 : e.proto ≠ .tls) (hmx : s.pkt.maxSize = m) (hs : s.pkt.size ≤ 12 + q.question.length + optSize e q)
    (n : LState) (z : Option Zone) : (endAll e q n s (e.endHooks z)).2.pkt.size ≤ 12 + q.question.length + optSize e q := by
  have := endAll_induct (e := e) (q := q)
    (P := fun t => Early e q t ∧ t.pkt.maxSize = m ∧ t.pkt.size ≤ 12 + q.question.length + optSize e q) (e.endHooks z)
    (fun t k hk ht => by
      have hk' := hl z k hk t
      exact ⟨early_run ht.1 hk', (max_run _ _).trans ht.2.1, by rw [(small_run hk').1]; exact ht.2.2⟩)
    (fun t ht => by
      obtain ⟨a, b⟩ := early_err ht.1 (by rw [ht.2.1]; exact hm) (by rw [ht.2.1]; exact hq) h1 h2
      exact ⟨a, (max_err e q t).trans ht.2.1, b⟩) n s ⟨h, hmx, hs⟩
  exact this.2.2

/-- The header, whatever the hooks do. -/
theorem answers_endAll {e : Env} {q : Query} {s : St} (h : Answers q s.pkt) (hq : 12 + q.question.length ≤ s.pkt.maxSize) (n : LState) (l : List Hook) :
    Answers q (endAll e q n s l).2.pkt := by
  have := endAll_induct (e := e) (q := q) (P := fun t => Answers q t.pkt ∧ 12 + q.question.length ≤ t.pkt.maxSize) l
    (fun t k _ ht => ⟨answers_run ht.1 _, by rw [max_run]; exact ht.2⟩)
    (fun t ht => ⟨answers_err ht.2 e, by rw [max_err]; exact ht.2⟩) n s ⟨h, hq⟩
  exact this.1

/-- Header and limit, without regard to space. -/
theorem answers_middle {e : Env} {q : Query} {s : St} (h : Answers q s.pkt) (n : LState) :
    Answers q (middle e q n s).2.pkt ∧ (middle e q n s).2.pkt.maxSize = s.pkt.maxSize := by
  have hp : ∀ n (t : St), Answers q t.pkt → t.pkt.maxSize = s.pkt.maxSize →
      Answers q (post e q n t).2.pkt ∧ (post e q n t).2.pkt.maxSize = s.pkt.maxSize := by
    intro n t ha hm
    unfold post
    split
    · have h1 := answers_ednsPut (s := { t with pkt := begin t.pkt 2 }) (answers_begin ha 2) e
      have h2 : (ednsPut e q { t with pkt := begin t.pkt 2 }).2.pkt.maxSize = s.pkt.maxSize := by
        rw [max_ednsPut]; dsimp only; rw [max_begin]; exact hm
      generalize ednsPut e q { t with pkt := begin t.pkt 2 } = r at h1 h2
      obtain ⟨b, u⟩ := r
      cases b
      · exact ⟨h1, h2⟩
      · dsimp only at h1 h2 ⊢
        have h3 := answers_sign h1
        have h4 := max_sign q u
        rw [h2] at h4
        generalize sign q u = r at h3 h4
        obtain ⟨b, v⟩ := r
        cases b <;> exact ⟨h3, h4⟩
    · exact ⟨ha, hm⟩
  unfold middle
  split
  · exact ⟨h, rfl⟩
  · dsimp only
    split
    · apply hp
      · unfold byClass chaosAnswer internet
        split
        · split
          · exact h
          · exact answers_run h _
        · split
          · split
            · exact h
            · exact answers_run h _
          · exact h
      · unfold byClass chaosAnswer internet
        split
        · split
          · rfl
          · exact max_run s _
        · split
          · split
            · rfl
            · exact max_run s _
          · rfl
    · exact hp _ _ h rfl

theorem answers_finish {e : Env} {q : Query} {s : St} (h : Answers q s.pkt) (hq : 12 + q.question.length ≤ s.pkt.maxSize) (n : LState) :
    Answers q (finish e q n s).2.pkt ∧ (finish e q n s).2.pkt.maxSize = s.pkt.maxSize := by
  cases n with
  | noop => exact ⟨h, rfl⟩
  | final => exact ⟨h, rfl⟩
  | fail => exact ⟨answers_err hq e, max_err e q s⟩
  | consume => exact ⟨answers_setRcode h, max_setRcode s⟩
  | produce => exact ⟨answers_setRcode h, max_setRcode s⟩
  | done => exact ⟨answers_setRcode h, max_setRcode s⟩

end Knot.Query
