import Verif.Query.Lemmas5
/-!
# Lemmas: what follows for a whole query
-/
namespace Knot.Query
open Reply

theorem limit_unique {e : Env} {q : Query} {m m' : Nat} (h : Limit e q m) (h' : Limit e q m') : m = m' := by
  unfold Limit at h h'
  split at h
  · split at h
    · rw [‹q.opt = none›] at h'; dsimp only at h'; rw [if_pos ‹_›] at h'; omega
    · rename_i hu _ o ho
      rw [if_pos hu, ho] at h'
      dsimp only at h'
      rcases h with ⟨a, b⟩ | ⟨a, b⟩ | ⟨a, b, c⟩ <;> rcases h' with ⟨a', b'⟩ | ⟨a', b'⟩ | ⟨a', b', c'⟩ <;>
        first | omega | (rw [a] at a'; cases a') | (exact absurd a a') | (exact absurd a b') | (exact absurd a' a) | (exact absurd a' b)
  · rename_i hu
    rw [if_neg hu] at h'; omega

theorem limit_bound {e : Env} {q : Query} {m : Nat} (he : Configured e) (h : Limit e q m) : 512 ≤ m ∧ m ≤ 65535 := by
  unfold Limit at h
  have h4 := he.max4
  have h6 := he.max6
  split at h
  · split at h
    · omega
    · omega
  · omega

/-- Where the limit is not that of UDP. -/
theorem limit_stream {e : Env} {q : Query} {m : Nat} (h : Limit e q m) (hu : e.proto ≠ .udp) : m = 65535 := by
  unfold Limit at h; rw [if_neg hu] at h; exact h

/-! ## No cookies -/

theorem notCookie_act {s : St} {a : Act} (h : NotCookie a) : (act s a).qd.opt = s.qd.opt := by
  cases a <;> first | exact absurd h (fun h => h) | rfl

theorem notCookie_run {s : St} {l : List Act} (h : ∀ a ∈ l, NotCookie a) : (run s l).qd.opt = s.qd.opt :=
  run_induct (P := fun t => t.qd.opt = s.qd.opt) (fun _ a ha ht => (notCookie_act (h a ha)).trans ht) rfl

/-- The state of the layer between the hooks. -/
def Going (n : LState) : Prop := n = .produce ∨ n = .done ∨ n = .fail

theorem beginAll_opt {l : List Hook} (h : ∀ k ∈ l, ∀ s, ∀ a ∈ (k s).1, NotCookie a) (n : LState) (s : St) :
    (beginAll n s l).2.qd.opt = s.qd.opt :=
  beginAll_induct (P := fun t => t.qd.opt = s.qd.opt) l (fun t k hk ht => (notCookie_run (h k hk t)).trans ht) n s rfl

theorem beginAll_going {l : List Hook} (h : ∀ k ∈ l, ∀ s, Going (k s).2) {n : LState} (hn : Going n) (s : St) : Going (beginAll n s l).1 := by
  induction l generalizing n s with
  | nil => exact hn
  | cons k l ih =>
    unfold beginAll
    split
    · exact .inr (.inr rfl)
    · exact ih (fun k' hk' => h k' (List.mem_cons_of_mem _ hk')) (h k List.mem_cons_self s) _

theorem byClass_opt {e : Env} {q : Query} (h : NoCookies e) (s : St) : (byClass e q s).2.qd.opt = s.qd.opt := by
  unfold byClass chaosAnswer internet
  split
  · split
    · rfl
    · exact notCookie_run (h.chaos s)
  · split
    · split
      · rfl
      · exact notCookie_run (h.handler s)
    · rfl

theorem byClass_going {e : Env} {q : Query} (h : Plain e) (s : St) : Going (byClass e q s).1 := by
  unfold byClass chaosAnswer internet
  split
  · split
    · exact .inr (.inr rfl)
    · dsimp only; split
      · exact .inr (.inl rfl)
      · exact .inr (.inr rfl)
  · split
    · split
      · exact .inr (.inr rfl)
      · exact h.handler s
    · exact .inr (.inr rfl)

theorem post_going {e : Env} {q : Query} {n : LState} (h : Going n) (s : St) : Going (post e q n s).1 := by
  unfold post
  split
  · split
    · exact .inr (.inr rfl)
    · split
      · exact .inr (.inr rfl)
      · exact h
  · exact h

theorem middle_going {e : Env} {q : Query} (h : Plain e) {n : LState} (hn : Going n) (s : St) : Going (middle e q n s).1 := by
  unfold middle
  split
  · exact hn
  · dsimp only
    apply post_going
    split
    · exact byClass_going h s
    · exact hn

theorem ednsPut_opt (e : Env) (q : Query) {s : St} {o : Opt} (ho : s.qd.opt = some o) :
    ∃ o2, (ednsPut e q s).2.qd.opt = some o2 ∧ o2.wireSize ≤ o.wireSize + 14 + padMax e := by
  rcases ednsPut_cases e q s with ⟨ho', _⟩ | ⟨o', ho', ⟨_, h1⟩ | ⟨_, p, o2, hp, ho2, ⟨_, h1⟩ | ⟨_, h1⟩⟩⟩
  · rw [ho] at ho'; cases ho'
  · rw [ho] at ho'; injection ho' with ho'; subst ho'
    refine ⟨_, by rw [h1], ?_⟩
    have h1 := addEde_size s o
    have h2 := addExpire_size e q s (addEde s o)
    omega
  · rw [ho] at ho'; injection ho' with ho'; subst ho'
    exact ⟨o2, by rw [h1], by rw [ho2]; exact opt_size e q s p o⟩
  · rw [ho] at ho'; injection ho' with ho'; subst ho'
    exact ⟨o2, by rw [h1], by rw [ho2]; exact opt_size e q s p o⟩

theorem post_opt {e : Env} {q : Query} {n : LState} {s : St} {o : Opt} (ho : s.qd.opt = some o) :
    ∃ o2, (post e q n s).2.qd.opt = some o2 ∧ o2.wireSize ≤ o.wireSize + 14 + padMax e := by
  unfold post
  split
  · obtain ⟨o2, h1, h2⟩ := ednsPut_opt e q (s := { s with pkt := begin s.pkt 2 }) ho
    generalize ednsPut e q { s with pkt := begin s.pkt 2 } = r at h1
    obtain ⟨b, u⟩ := r
    cases b
    · exact ⟨o2, h1, h2⟩
    · dsimp only at h1 ⊢
      refine ⟨o2, ?_, h2⟩
      rcases sign_cases q u with ⟨_, h3⟩ | ⟨k, _, ⟨_, h3⟩ | ⟨_, h3⟩⟩ <;> rw [h3] <;> exact h1
  · exact ⟨o, ho, by omega⟩

theorem middle_opt {e : Env} {q : Query} (h : NoCookies e) {n : LState} {s : St} {o : Opt} (ho : s.qd.opt = some o) :
    ∃ o2, (middle e q n s).2.qd.opt = some o2 ∧ o2.wireSize ≤ o.wireSize + 14 + padMax e := by
  unfold middle
  split
  · exact ⟨o, ho, by omega⟩
  · dsimp only
    apply post_opt
    split
    · rw [byClass_opt h]; exact ho
    · exact ho

/-! ## Padding -/

/-- A message with OPT and without a signature has the length of full blocks. -/
def Padded (s : St) : Prop :=
  s.pkt.opt ≠ none → s.qd.key = none → s.qd.rcodeTsig = 0 → (s.pkt.size + s.pkt.reserved) % 468 = 0

theorem padded_bare {s : St} (h : s.pkt.opt = none) : Padded s := fun h' => absurd h h'

theorem padded_setRcode {s : St} (h : Padded s) (ho : (setRcode s).pkt.opt = none ↔ s.pkt.opt = none) : Padded (setRcode s) := by
  intro h1 h2 h3
  rw [setRcode_qd] at h2 h3
  rw [(setRcode_cases s).2.2.1, (setRcode_cases s).2.2.2.1]
  exact h (fun hx => h1 (ho.mpr hx)) h2 h3

theorem padded_sign {q : Query} {s : St} (h : s.pkt.opt ≠ none → (s.pkt.size + s.pkt.reserved) % 468 = 0) : Padded (sign q s).2 := by
  rcases sign_cases q s with ⟨_, h3⟩ | ⟨k, hk, ⟨_, h3⟩ | ⟨_, h3⟩⟩ <;> rw [h3]
  · exact fun h1 _ _ => h h1
  · intro _ h1 h2
    dsimp only at h1 h2
    rw [tsigLen_early h1 h2] at hk; cases hk
  · exact fun h1 _ _ => h h1

theorem aligned_ednsPut {e : Env} {q : Query} {s : St} (hp : e.proto = .quic ∨ e.proto = .tls) (h : s.pkt.opt = none) :
    (ednsPut e q s).2.pkt.opt ≠ none → ((ednsPut e q s).2.pkt.size + (ednsPut e q s).2.pkt.reserved) % 468 = 0 := by
  rcases ednsPut_cases e q s with ⟨ho', h1⟩ | ⟨o', ho', ⟨_, h1⟩ | ⟨_, p, o2, hpp, ho2, ⟨_, h1⟩ | ⟨_, h1⟩⟩⟩ <;> rw [h1] <;> dsimp only
  · exact fun h' => absurd h h'
  · exact fun h' => absurd h h'
  · intro h'; rw [hpp] at h'; exact absurd h h'
  · intro _
    have := addPadding_aligned hp p (addExpire e q s (addEde s o'))
    rw [← ho2] at this
    omega

theorem padded_post {e : Env} {q : Query} {n : LState} {s : St} (hp : e.proto = .quic ∨ e.proto = .tls) (h : s.pkt.opt = none) :
    Padded (post e q n s).2 := by
  unfold post
  split
  · have h1 := aligned_ednsPut (e := e) (q := q) (s := { s with pkt := begin s.pkt 2 }) hp ((begin_rest s.pkt 2).2.2.1.trans h)
    generalize ednsPut e q { s with pkt := begin s.pkt 2 } = r at h1
    obtain ⟨b, u⟩ := r
    cases b
    · exact fun h2 _ _ => h1 h2
    · dsimp only at h1 ⊢
      have h2 := padded_sign (q := q) h1
      generalize sign q u = r at h2
      obtain ⟨b, v⟩ := r
      cases b <;> exact h2
  · exact padded_bare h

theorem padded_err {e : Env} {q : Query} {s : St} (hp : e.proto = .quic ∨ e.proto = .tls) (h : OptOk s.qd) (hm : s.pkt.maxSize ≤ 65535)
    (hq : 12 + q.question.length ≤ s.pkt.maxSize) : Padded (err e q s) := by
  rw [err_eq]
  obtain ⟨ha, hs, hr0, hn, hmx, hqd⟩ := errStart_spec (q := q) (s := s) hq
  obtain ⟨l1, l2, l3, l4⟩ := errOpt_lined (e := e) (q := q) (s := errStart q s) (by rw [hqd]; exact h) (by omega) (by omega) hr0 hn
  have ha2 := answers_errOpt ha e
  have hal : (errOpt e q (errStart q s)).pkt.opt ≠ none →
      ((errOpt e q (errStart q s)).pkt.size + (errOpt e q (errStart q s)).pkt.reserved) % 468 = 0 := by
    rcases errOpt_cases e q (errStart q s) (by omega) (by omega) hr0 with ⟨ho', h3⟩ | ⟨o', ho', ⟨hb, h3⟩ | ⟨_, o1, o2, ⟨t, ht, ho1⟩, ho2, ⟨hb, h3⟩ | ⟨_, h3⟩⟩⟩ <;>
      rw [h3] <;> (try dsimp only)
    · exact fun h' => absurd hn h'
    · exact fun h' => absurd hn h'
    · exact fun h' => absurd hn h'
    · intro _
      have := addPadding_aligned hp (errStart q s).pkt o1
      rw [← ho2] at this
      omega
  generalize errOpt e q (errStart q s) = t at l2 ha2 hal
  have hl := lined_errRcode l2
  have hpk := errRcode_pkt t
  generalize errRcode t = u at hl hpk
  have hx := (shown_setRcode (by rw [hpk]; exact ha2) hl).2
  have h5 : (setRcode u).pkt.opt ≠ none → ((setRcode u).pkt.size + (setRcode u).pkt.reserved) % 468 = 0 := by
    rw [Ne, hx, (setRcode_cases u).2.2.1, (setRcode_cases u).2.2.2.1, hpk]; exact hal
  unfold errSign
  have h6 := padded_sign (q := q) h5
  have h7 : (sign q (setRcode u)).1 = false → (setRcode (sign q (setRcode u)).2).pkt.opt = (sign q (setRcode u)).2.pkt.opt := by
    intro hf
    rcases sign_cases q (setRcode u) with ⟨_, h3⟩ | ⟨k, hk, ⟨_, h3⟩ | ⟨_, h3⟩⟩ <;> rw [h3] at hf ⊢
    · cases hf
    · cases hf
    · conv => lhs; unfold setRcode
      rw [if_neg (show ¬ 2 / 16 % 256 ≠ 0 by decide)]
      rfl
  generalize sign q (setRcode u) = r at h6 h7
  obtain ⟨b, v⟩ := r
  cases b
  · exact padded_setRcode h6 (by rw [h7 rfl])
  · exact h6

theorem byClass_bare {e : Env} {q : Query} {s : St} (h : s.pkt.opt = none) : (byClass e q s).2.pkt.opt = none := by
  unfold byClass chaosAnswer internet
  split
  · split
    · exact h
    · exact (opt_run _ _).trans h
  · split
    · split
      · exact h
      · exact (opt_run _ _).trans h
    · exact h

theorem padded_middle {e : Env} {q : Query} {n : LState} {s : St} (hp : e.proto = .quic ∨ e.proto = .tls) (h : s.pkt.opt = none) :
    Padded (middle e q n s).2 := by
  unfold middle
  split
  · exact padded_bare h
  · dsimp only
    split
    · exact padded_post hp (byClass_bare h)
    · exact padded_post hp h

end Knot.Query
