import Verif.Query.Props2
/-!
# C50 — what OPT says, modules that refuse
-/
namespace Knot
open Knot.Query Knot.Reply

namespace Query

/-- OPT, prepared or put, is as `P` says of size, version and DO. -/
structure OptIs (m : Nat) (d : Bool) (s : St) : Prop where
  qd : ∀ o, s.qd.opt = some o → o.payload = m ∧ o.version = 0 ∧ o.dnssec = d
  pkt : ∀ a o, s.pkt.opt = some (a, o) → o.payload = m ∧ o.version = 0 ∧ o.dnssec = d

theorem optIs_act {m : Nat} {d : Bool} {s : St} (h : OptIs m d s) (a : Act) : OptIs m d (act s a) := by
  obtain ⟨h1, h2⟩ := h
  have hr : ∀ n, ((reserve s.pkt n).getD s.pkt).opt = s.pkt.opt := by
    intro n; unfold reserve; split <;> rfl
  cases a with
  | begin sec =>
    refine ⟨h1, ?_⟩
    have hb : (Query.begin s.pkt sec).opt = s.pkt.opt := by unfold Query.begin; split <;> rfl
    show ∀ a o, (Query.begin s.pkt sec).opt = some (a, o) → _
    rw [hb]; exact h2
  | put n len t =>
    refine ⟨h1, ?_⟩
    have hb : (putRr s.pkt n len t).opt = s.pkt.opt := by
      unfold putRr; split
      · rfl
      · split <;> rfl
    show ∀ a o, (putRr s.pkt n len t).opt = some (a, o) → _
    rw [hb]; exact h2
  | reserve n =>
    refine ⟨h1, ?_⟩
    show ∀ a o, ((reserve s.pkt n).getD s.pkt).opt = some (a, o) → _
    rw [hr]; exact h2
  | cookie len =>
    refine ⟨?_, ?_⟩
    · intro o ho
      have ho' : s.qd.opt.map (fun o => o.add ⟨10, len, 0⟩) = some o := ho
      rw [Option.map_eq_some_iff] at ho'
      obtain ⟨o1, ho1, rfl⟩ := ho'
      exact h1 o1 ho1
    · show ∀ a o, ((reserve s.pkt (4 + len)).getD s.pkt).opt = some (a, o) → _
      rw [hr]; exact h2
  | aa => exact ⟨h1, h2⟩
  | tc => exact ⟨h1, h2⟩
  | rcode r => exact ⟨h1, h2⟩
  | ede e => exact ⟨h1, h2⟩
  | truncated => exact ⟨h1, h2⟩
  | tsig k r => exact ⟨h1, h2⟩

theorem optIs_run {m : Nat} {d : Bool} : ∀ (l : List Act) {s : St}, OptIs m d s → OptIs m d (run s l)
  | [], _, h => h
  | a :: l, _, h => optIs_run l (optIs_act h a)

theorem optIs_ednsPut {m : Nat} {d : Bool} {s : St} (h : OptIs m d s) (e : Env) (q : Query) :
    OptIs m d (ednsPut e q s).2 := by
  unfold ednsPut
  cases ho : s.qd.opt with
  | none => exact h
  | some o =>
    have hb := h.qd o ho
    have h1 : (addExpire e q s (addEde s o)).payload = m ∧ (addExpire e q s (addEde s o)).version = 0 ∧
        (addExpire e q s (addEde s o)).dnssec = d := by
      have h2 : (addEde s o).payload = m ∧ (addEde s o).version = 0 ∧ (addEde s o).dnssec = d := by
        unfold addEde
        split
        · exact hb
        · split <;> exact hb
      unfold addExpire
      split
      · split <;> exact h2
      · exact h2
    dsimp only
    cases hp : reclaim s.pkt o.wireSize with
    | none => exact ⟨fun x hx => by injection hx with hx; subst hx; exact h1, h.pkt⟩
    | some p =>
      have hpo : p.opt = s.pkt.opt := by
        unfold reclaim at hp
        split at hp
        · injection hp with hp; rw [← hp]
        · cases hp
      have h3 : ∀ o', o'.payload = m ∧ o'.version = 0 ∧ o'.dnssec = d →
          (addPadding e p o').payload = m ∧ (addPadding e p o').version = 0 ∧ (addPadding e p o').dnssec = d := by
        intro o' ho'
        unfold addPadding
        split
        · split <;> exact ho'
        · exact ho'
      have h4 := h3 _ h1
      dsimp only
      unfold putOpt
      split
      · rename_i hw
        split at hw
        · cases hw
        · exact ⟨fun x hx => by injection hx with hx; subst hx; exact h4, fun a x hx => h.pkt a x (hpo ▸ hx)⟩
      · rename_i p' hw
        split at hw
        · injection hw with hw; subst hw
          refine ⟨fun x hx => by injection hx with hx; subst hx; exact h4, fun a x hx => ?_⟩
          injection hx with hx; injection hx with _ hx; subst hx; exact h4
        · cases hw

theorem optIs_setRcode {m : Nat} {d : Bool} {s : St} (h : OptIs m d s) : OptIs m d (setRcode s) := by
  unfold setRcode
  split
  · split
    · exact ⟨h.qd, h.pkt⟩
    · refine ⟨h.qd, ?_⟩
      dsimp only
      unfold setExt
      split
      · exact h.pkt
      · rename_i a o ho
        split
        · intro a' o' ho'
          injection ho' with ho'; injection ho' with _ ho'; subst ho'
          exact h.pkt a o ho
        · exact h.pkt
  · exact ⟨h.qd, h.pkt⟩

theorem optIs_sign {m : Nat} {d : Bool} {s : St} (h : OptIs m d s) (q : Query) : OptIs m d (sign q s).2 := by
  unfold sign
  split
  · exact h
  · split
    · rename_i p hp
      refine ⟨h.qd, ?_⟩
      unfold appendTsig at hp
      split at hp
      · injection hp with hp; subst hp; exact h.pkt
      · cases hp
    · exact ⟨h.qd, h.pkt⟩

theorem optIs_err {m : Nat} {d : Bool} {s : St} (h : OptIs m d s) (e : Env) (q : Query) : OptIs m d (err e q s) := by
  have h0 : OptIs m d { s with pkt := (initResponse s.pkt q).getD s.pkt } := by
    refine ⟨h.qd, ?_⟩
    dsimp only
    unfold initResponse
    split
    · exact h.pkt
    · intro a o ho; cases ho
  have h1 : ∀ t, OptIs m d t → OptIs m d (errTrunc t) := by
    intro t ht; unfold errTrunc; split
    · exact ⟨ht.qd, ht.pkt⟩
    · exact ht
  have h2 : ∀ t : St, OptIs m d t → OptIs m d { t with pkt := begin t.pkt 2 } := by
    intro t ht; exact optIs_act ht (.begin 2)
  have h3 : ∀ t, OptIs m d t → OptIs m d (errOpt e q t) := by
    intro t ht
    unfold errOpt
    split
    · exact ⟨ht.qd, ht.pkt⟩
    · rename_i s' hs
      have hs' : OptIs m d s' := by
        unfold ednsReserve at hs
        split at hs
        · injection hs with hs; rw [← hs]; exact ht
        · rw [Option.map_eq_some_iff] at hs
          obtain ⟨p, hp, rfl⟩ := hs
          unfold reserve at hp
          split at hp
          · injection hp with hp; subst hp; exact ⟨ht.qd, ht.pkt⟩
          · cases hp
      have hput := optIs_ednsPut hs' e q
      split
      · rename_i u hu; rw [hu] at hput; exact hput
      · rename_i u hu; rw [hu] at hput; exact ⟨hput.qd, hput.pkt⟩
  have h4 : ∀ t, OptIs m d t → OptIs m d (errRcode t) := by
    intro t ht; unfold errRcode; split
    · exact ⟨ht.qd, ht.pkt⟩
    · exact ht
  have h5 : ∀ t, OptIs m d t → OptIs m d (errSign q t) := by
    intro t ht
    have hs := optIs_sign ht q
    unfold errSign
    split
    · rename_i u hu; rw [hu] at hs; exact hs
    · rename_i u hu; rw [hu] at hs; exact optIs_setRcode hs
  exact h5 _ (optIs_setRcode (h4 _ (h3 _ (h2 _ (h1 _ h0)))))

theorem optIs_endAll {m : Nat} {d : Bool} {s : St} (h : OptIs m d s) (e : Env) (q : Query) (n : LState) (l : List Hook) :
    OptIs m d (endAll e q n s l).2 :=
  endAll_induct (e := e) (q := q) (P := OptIs m d) l (fun _ _ _ ht => optIs_run _ ht) (fun _ ht => optIs_err ht e q) n s h

theorem optIs_finish {m : Nat} {d : Bool} {s : St} (h : OptIs m d s) (e : Env) (q : Query) (n : LState) :
    OptIs m d (finish e q n s).2 := by
  cases n with
  | noop => exact h
  | fail => exact optIs_err h e q
  | final => exact h
  | consume => exact optIs_setRcode h
  | produce => exact optIs_setRcode h
  | done => exact optIs_setRcode h

theorem optIs_middle {m : Nat} {d : Bool} {s : St} (h : OptIs m d s) (e : Env) (q : Query) (n : LState) :
    OptIs m d (middle e q n s).2 := by
  have hp : ∀ n (t : St), OptIs m d t → OptIs m d (post e q n t).2 := by
    intro n t ht
    unfold post
    split
    · have h1 := optIs_ednsPut (s := { t with pkt := begin t.pkt 2 }) (optIs_act ht (.begin 2)) e q
      generalize ednsPut e q { t with pkt := begin t.pkt 2 } = r at h1
      obtain ⟨b, u⟩ := r
      cases b
      · exact ⟨h1.qd, h1.pkt⟩
      · dsimp only at h1 ⊢
        have h3 := optIs_sign h1 q
        generalize sign q u = r at h3
        obtain ⟨b, w⟩ := r
        cases b <;> exact h3
    · exact ht
  unfold middle
  split
  · exact h
  · apply hp
    split
    · unfold byClass
      split
      · unfold chaosAnswer
        split
        · exact ⟨h.qd, h.pkt⟩
        · have := optIs_run (e.chaos s).1 h
          exact ⟨this.qd, this.pkt⟩
      · split
        · unfold internet
          split
          · exact ⟨h.qd, h.pkt⟩
          · exact optIs_run _ h
        · exact ⟨h.qd, h.pkt⟩
    · exact h

theorem optIs_ednsInit {m : Nat} {d : Bool} {s : St} (h : OptIs m d s) {e : Env} {q : Query}
    (hm : maxPayload e = some m) (hd : ∀ o, q.opt = some o → o.dnssec = d) : OptIs m d (ednsInit e q s).2 := by
  unfold ednsInit
  split
  · exact h
  · rename_i o ho
    rw [hm]
    dsimp only
    have hn : (addNsid e o ⟨m, 0, 0, o.dnssec, []⟩).payload = m ∧ (addNsid e o ⟨m, 0, 0, o.dnssec, []⟩).version = 0 ∧
        (addNsid e o ⟨m, 0, 0, o.dnssec, []⟩).dnssec = d := by
      unfold addNsid
      split <;> exact ⟨rfl, rfl, hd o ho⟩
    have hw : ∀ (x : Opt) (r : Nat), x.payload = m ∧ x.version = 0 ∧ x.dnssec = d →
        OptIs m d { s with qd := { s.qd with opt := some x, rcode := r } } := by
      intro x r hx
      exact ⟨fun o' ho' => by injection ho' with ho'; subst ho'; exact hx, h.pkt⟩
    have hv : ∀ (t t' : St), OptIs m d t → ednsReserve t = some t' → OptIs m d t' := by
      intro t t' ht hs
      unfold ednsReserve at hs
      split at hs
      · injection hs with hs; rw [← hs]; exact ht
      · rw [Option.map_eq_some_iff] at hs
        obtain ⟨p, hp, rfl⟩ := hs
        unfold reserve at hp
        split at hp
        · injection hp with hp; subst hp; exact ⟨ht.qd, ht.pkt⟩
        · cases hp
    split
    · exact hw _ _ hn
    · rename_i n _
      split
      · exact hw _ _ (by exact hn)
      · rename_i t ht; exact hv _ _ (hw _ _ (by exact hn)) ht
    · split
      · exact hw _ _ hn
      · rename_i t ht; exact hv _ _ (hw _ _ hn) ht

theorem optIs_prepare {m : Nat} {d : Bool} {s : St} (h : OptIs m d s) {e : Env} {q : Query}
    (hm : maxPayload e = some m) (hd : ∀ o, q.opt = some o → o.dnssec = d) : OptIs m d (prepare e q s).2 := by
  unfold prepare
  split
  · exact h
  · rename_i p hp
    have h0 : OptIs m d { s with pkt := p } := by
      refine ⟨h.qd, ?_⟩
      unfold initResponse at hp
      split at hp
      · cases hp
      · injection hp with hp; subst hp
        intro a o ho; cases ho
    have h1 := optIs_ednsInit h0 hm hd
    generalize ednsInit e q { s with pkt := p } = r at h1
    obtain ⟨b, t⟩ := r
    cases b
    · exact h1
    · dsimp only at h1 ⊢
      split
      · exact h1
      · split
        · exact ⟨h1.qd, h1.pkt⟩
        · split
          · exact ⟨h1.qd, h1.pkt⟩
          · dsimp only
            unfold catalogCheck
            split
            · exact ⟨h1.qd, h1.pkt⟩
            · split
              · split <;> exact ⟨h1.qd, h1.pkt⟩
              · exact ⟨h1.qd, h1.pkt⟩

theorem optIs_produce {m : Nat} {d : Bool} {s : St} (h : OptIs m d s) {e : Env} {q : Query}
    (hm : maxPayload e = some m) (hd : ∀ o, q.opt = some o → o.dnssec = d) : OptIs m d (produce e q s).2 := by
  unfold produce
  split
  · have h1 : OptIs m d { s with qd := { s.qd with rcode := 1 } } := ⟨h.qd, h.pkt⟩
    exact optIs_endAll (optIs_finish h1 e q _) e q _ _
  · have h1 := optIs_prepare h hm hd
    generalize prepare e q s = r at h1
    obtain ⟨b, t⟩ := r
    cases b
    · exact optIs_endAll (optIs_finish h1 e q _) e q _ _
    · dsimp only at h1 ⊢
      have hb := beginAll_induct (P := OptIs m d) (e.beginHooks t.qd.zone) (fun _ _ _ ht => optIs_run _ ht) .produce t h1
      exact optIs_endAll (optIs_finish (optIs_middle hb e q _) e q _) e q _ _

end Query

/-- C50. OPT in the response says version 0, repeats DO, and gives the size configured for the address family of the client,
whatever handlers and modules do. -/
theorem C50_opt_says (e : Env) (q : Query) (g : Hdr) (qo : QOpt) (hq : q.opt = some qo) (he : Address e) (a : Nat) (o : Opt)
    (h : (produce e q (start g)).2.pkt.opt = some (a, o)) :
    o.version = 0 ∧ o.dnssec = qo.dnssec ∧ (e.family = .inet → o.payload = e.max4) ∧ (e.family = .inet6 → o.payload = e.max6) := by
  have h0 : ∀ m d, OptIs m d (start g) := fun m d => ⟨fun _ ho => (by cases ho), fun _ _ ho => (by cases ho)⟩
  have hd : ∀ o, q.opt = some o → o.dnssec = qo.dnssec := by
    intro o ho; rw [hq] at ho; injection ho with ho; rw [ho]
  rcases he with hf | hf
  · have := (optIs_produce (h0 e.max4 qo.dnssec) (by unfold maxPayload; rw [hf]) hd).pkt a o h
    refine ⟨this.2.1, this.2.2, fun _ => this.1, fun e => ?_⟩
    rw [hf] at e; cases e
  · have := (optIs_produce (h0 e.max6 qo.dnssec) (by unfold maxPayload; rw [hf]) hd).pkt a o h
    refine ⟨this.2.1, this.2.2, fun e => ?_, fun _ => this.1⟩
    rw [hf] at e; cases e

/-- C50. A query that a module refuses is answered neither from a zone nor by the later modules of that stage: what comes back
does not depend on them. -/
theorem C50_refused_by_module (e e' : Env) (q : Query) (g : Hdr) (k : Hook) (l l' : Option Zone → List Hook)
    (h : ∀ z, e.beginHooks z = k :: l z) (hk : ∀ s, (k s).2 = .fail) (hd : Hook) (ch : St → List Act × Nat)
    (he : e' = { e with handler := hd, chaos := ch, beginHooks := fun z => k :: l' z }) :
    produce e' q (start g) = produce e q (start g) := by
  subst he
  have hend : ∀ (l'' : List Hook) (n : LState) (s : St),
      endAll { e with handler := hd, chaos := ch, beginHooks := fun z => k :: l' z } q n s l'' = endAll e q n s l'' := by
    intro l''
    induction l'' with
    | nil => intro n s; rfl
    | cons x l'' ih =>
      intro n s
      simp only [endAll]
      rw [ih, ih]
      rfl
  unfold produce
  split
  · exact hend _ _ _
  · have hp : prepare { e with handler := hd, chaos := ch, beginHooks := fun z => k :: l' z } q (start g) =
        prepare e q (start g) := rfl
    rw [hp]
    generalize prepare e q (start g) = r
    obtain ⟨b, s⟩ := r
    cases b
    · exact hend _ _ _
    · dsimp only
      rw [hend, h]
      simp only [beginAll, hk, if_true, middle]
      rfl

private def h50 : Hdr := ⟨0, 0, 0, 0, 0, 0, 0⟩
private theorem given50 : Parsed q50 := ⟨by decide, by decide⟩

/-- The hypotheses are met: OPT is put, with its size; a module that refuses. -/
example (g : Hdr) : ∃ a o qo, q50.opt = some qo ∧ Address e50 ∧ (produce e50 q50 (start g)).2.pkt.opt = some (a, o) ∧ o.payload = 1232 := by
  rw [C50_clean _ _ g h50 given50]
  exact ⟨_, _, _, rfl, .inl rfl, rfl, rfl⟩

example (g : Hdr) : Reply.rcode (produce { e50 with beginHooks := fun _ => [fun _ => ([.rcode 5], .fail), fun _ => ([.aa], .done)] }
    q50 (start g)).2.pkt = 5 := by
  rw [C50_clean _ _ g h50 given50]; decide +kernel

end Knot
