import Verif.Query.Lemmas
/-!
# Lemmas: the header and the size of the response
-/
namespace Knot.Query
open Reply

theorem wireSize_add (o : Opt) (i : Item) : (o.add i).wireSize = o.wireSize + (4 + i.len) := by
  simp [Opt.add, Opt.wireSize]; omega

theorem remaining_of {p : Pkt} (hm : p.maxSize ≤ 65535) (h : p.size + p.reserved ≤ p.maxSize) :
    remaining p = p.maxSize - p.size - p.reserved := by
  unfold remaining
  omega

theorem ednsPut_size {e : Env} {q : Query} {s : St} (hm : s.pkt.maxSize ≤ 65535) (h : s.pkt.size + s.pkt.reserved ≤ s.pkt.maxSize) :
    (ednsPut e q s).2.pkt.size + (ednsPut e q s).2.pkt.reserved ≤ s.pkt.maxSize := by
  rcases ednsPut_cases e q s with ⟨_, h1⟩ | ⟨o, _, ⟨_, h1⟩ | ⟨hr, p, o'', hp, _, ⟨_, h1⟩ | ⟨h2, h1⟩⟩⟩ <;> rw [h1] <;> dsimp only
  · exact h
  · exact h
  · subst hp; dsimp only; omega
  · have hm' : p.maxSize = s.pkt.maxSize := by rw [hp]
    have hs' : p.size = s.pkt.size := by rw [hp]
    have hr' : p.reserved = s.pkt.reserved - o.wireSize := by rw [hp]
    rw [remaining_of (by omega) (by omega)] at h2
    omega

theorem sign_size (q : Query) (s : St) (h : s.pkt.size ≤ s.pkt.maxSize) : (sign q s).2.pkt.size ≤ s.pkt.maxSize := by
  rcases sign_cases q s with ⟨_, h1⟩ | ⟨n, _, ⟨h2, h1⟩ | ⟨_, h1⟩⟩ <;> rw [h1]
  · exact h
  · exact h2
  · exact h

theorem errSign_size (q : Query) (s : St) (h : s.pkt.size ≤ s.pkt.maxSize) : (errSign q s).pkt.size ≤ s.pkt.maxSize := by
  unfold errSign
  have h1 := sign_size q s h
  generalize sign q s = r at h1 ⊢
  obtain ⟨b, s'⟩ := r
  cases b
  · rw [(setRcode_cases s').2.2.1]; exact h1
  · exact h1

theorem ednsReserve_size {s s' : St} (h : ednsReserve s = some s') (hm : s.pkt.maxSize ≤ 65535)
    (hf : s.pkt.size + s.pkt.reserved ≤ s.pkt.maxSize) :
    s'.pkt.size + s'.pkt.reserved ≤ s'.pkt.maxSize ∧ s'.pkt.maxSize = s.pkt.maxSize := by
  rcases ednsReserve_some h with ⟨_, ⟨_, h2⟩ | ⟨o, _, h3, h2⟩⟩
  · rw [h2]; exact ⟨hf, rfl⟩
  · rw [remaining_of hm hf] at h3
    rw [h2]; dsimp only; exact ⟨by omega, rfl⟩

theorem errOpt_size {e : Env} {q : Query} {s : St} (hm : s.pkt.maxSize ≤ 65535) (h : s.pkt.size + s.pkt.reserved ≤ s.pkt.maxSize) :
    (errOpt e q s).pkt.size + (errOpt e q s).pkt.reserved ≤ s.pkt.maxSize := by
  unfold errOpt
  split
  · exact h
  · rename_i s' hs
    obtain ⟨h1, h2⟩ := ednsReserve_size hs hm h
    have h3 := ednsPut_size (e := e) (q := q) (s := s') (by omega) h1
    rw [h2] at h3
    generalize ednsPut e q s' = r at h3 ⊢
    obtain ⟨b, s''⟩ := r
    cases b <;> exact h3

/-- The packet at the point in err() before OPT is put. -/
def errStart (q : Query) (s : St) : St :=
  { errTrunc { s with pkt := (initResponse s.pkt q).getD s.pkt } with
    pkt := begin (errTrunc { s with pkt := (initResponse s.pkt q).getD s.pkt }).pkt 2 }

theorem err_eq (e : Env) (q : Query) (s : St) : err e q s = errSign q (setRcode (errRcode (errOpt e q (errStart q s)))) := rfl

theorem begin_rest (p : Pkt) (n : Nat) : (begin p n).size = p.size ∧ (begin p n).reserved = p.reserved ∧ (begin p n).opt = p.opt ∧
    (begin p n).maxSize = p.maxSize ∧ (begin p n).hdr = p.hdr := by
  rcases begin_same p n with h1 | h1 <;> rw [h1] <;> exact ⟨rfl, rfl, rfl, rfl, rfl⟩

theorem errTrunc_rest (s : St) : (errTrunc s).pkt.size = s.pkt.size ∧ (errTrunc s).pkt.reserved = s.pkt.reserved ∧
    (errTrunc s).pkt.opt = s.pkt.opt ∧ (errTrunc s).pkt.maxSize = s.pkt.maxSize ∧ (errTrunc s).qd = s.qd := by
  unfold errTrunc; split <;> exact ⟨rfl, rfl, rfl, rfl, rfl⟩

theorem errStart_spec {q : Query} {s : St} (hm : 12 + q.question.length ≤ s.pkt.maxSize) :
    Answers q (errStart q s).pkt ∧ (errStart q s).pkt.size = 12 + q.question.length ∧ (errStart q s).pkt.reserved = 0 ∧
    (errStart q s).pkt.opt = none ∧ (errStart q s).pkt.maxSize = s.pkt.maxSize ∧ (errStart q s).qd = s.qd := by
  obtain ⟨p, hp, ha, h1, h2, h3, h4, _⟩ := answers_init s.pkt q hm
  unfold errStart
  rw [hp]
  dsimp only [Option.getD_some]
  have ht := errTrunc_rest { s with pkt := p }
  have hb := begin_rest (errTrunc { s with pkt := p }).pkt 2
  refine ⟨answers_begin (answers_errTrunc (s := { s with pkt := p }) ha) 2, ?_, ?_, ?_, ?_, ht.2.2.2.2⟩
  · rw [hb.1, ht.1, ← h2]
  · rw [hb.2.1, ht.2.1, ← h3]
  · rw [hb.2.2.1, ht.2.2.1, ← h4]
  · rw [hb.2.2.2.1, ht.2.2.2.1, ← h1]

theorem errRcode_rest (s : St) : (errRcode s).pkt = s.pkt := errRcode_pkt s

theorem err_size {e : Env} {q : Query} {s : St} (hm : s.pkt.maxSize ≤ 65535) (h : 12 + q.question.length ≤ s.pkt.maxSize) :
    (err e q s).pkt.size ≤ s.pkt.maxSize := by
  rw [err_eq]
  obtain ⟨_, h1, h2, _, h3, _⟩ := errStart_spec h
  have h4 := errOpt_size (e := e) (q := q) (s := errStart q s) (by omega) (by omega)
  have h5 : (setRcode (errRcode (errOpt e q (errStart q s)))).pkt.maxSize = s.pkt.maxSize := by
    rw [max_setRcode, errRcode_pkt, max_errOpt, h3]
  have h6 : (setRcode (errRcode (errOpt e q (errStart q s)))).pkt.size ≤ s.pkt.maxSize := by
    rw [(setRcode_cases _).2.2.1, errRcode_pkt]; omega
  have h7 := errSign_size q (setRcode (errRcode (errOpt e q (errStart q s)))) (by omega)
  omega

/-! ## Steps keep the message in its limit -/

theorem fit_act {s : St} (hm : s.pkt.maxSize ≤ 65535) (h : s.pkt.size + s.pkt.reserved ≤ s.pkt.maxSize) (a : Act) :
    (act s a).pkt.size + (act s a).pkt.reserved ≤ (act s a).pkt.maxSize := by
  have hr := remaining_of hm h
  cases a with
  | begin sec =>
    obtain ⟨h1, h2, _, h3, _⟩ := begin_rest s.pkt sec
    show (begin s.pkt sec).size + (begin s.pkt sec).reserved ≤ (begin s.pkt sec).maxSize
    omega
  | put n len t =>
    show (putRr s.pkt n len t).size + (putRr s.pkt n len t).reserved ≤ (putRr s.pkt n len t).maxSize
    unfold putRr
    split
    · dsimp only; omega
    · split <;> exact h
  | reserve n =>
    show ((reserve s.pkt n).getD s.pkt).size + ((reserve s.pkt n).getD s.pkt).reserved ≤ ((reserve s.pkt n).getD s.pkt).maxSize
    rcases reserveD s.pkt n with h1 | ⟨h2, h1⟩ <;> rw [h1]
    · exact h
    · dsimp only; omega
  | cookie len =>
    show ((reserve s.pkt (4 + len)).getD s.pkt).size + ((reserve s.pkt (4 + len)).getD s.pkt).reserved ≤
      ((reserve s.pkt (4 + len)).getD s.pkt).maxSize
    rcases reserveD s.pkt (4 + len) with h1 | ⟨h2, h1⟩ <;> rw [h1]
    · exact h
    · dsimp only; omega
  | _ => exact h

theorem fit_run {s : St} (hm : s.pkt.maxSize ≤ 65535) (h : s.pkt.size + s.pkt.reserved ≤ s.pkt.maxSize) (l : List Act) :
    (run s l).pkt.size + (run s l).pkt.reserved ≤ (run s l).pkt.maxSize :=
  (run_induct (P := fun t => t.pkt.maxSize ≤ 65535 ∧ t.pkt.size + t.pkt.reserved ≤ t.pkt.maxSize)
    (fun t a _ ht => ⟨by rw [max_act]; exact ht.1, fit_act ht.1 ht.2 a⟩) ⟨hm, h⟩).2

/-- A step that adds nothing. -/
theorem small_act {s : St} {a : Act} (h : Small a) : (act s a).pkt.size = s.pkt.size ∧ (act s a).pkt.opt = s.pkt.opt ∧
    (act s a).qd.opt = s.qd.opt ∧ (act s a).qd.ede = s.qd.ede ∧ (act s a).qd.zone = s.qd.zone ∧ (act s a).qd.key = s.qd.key ∧
    (act s a).qd.rcodeTsig = s.qd.rcodeTsig := by
  cases a <;> first | exact absurd h (by intro h; exact h) | exact ⟨rfl, rfl, rfl, rfl, rfl, rfl, rfl⟩

theorem small_run {s : St} {l : List Act} (h : ∀ a ∈ l, Small a) : (run s l).pkt.size = s.pkt.size ∧
    (run s l).qd.opt = s.qd.opt ∧ (run s l).qd.ede = s.qd.ede ∧ (run s l).qd.zone = s.qd.zone ∧ (run s l).qd.key = s.qd.key ∧
    (run s l).qd.rcodeTsig = s.qd.rcodeTsig :=
  run_induct (P := fun t => t.pkt.size = s.pkt.size ∧ t.qd.opt = s.qd.opt ∧ t.qd.ede = s.qd.ede ∧ t.qd.zone = s.qd.zone ∧
      t.qd.key = s.qd.key ∧ t.qd.rcodeTsig = s.qd.rcodeTsig)
    (fun t a ha ht => by
      obtain ⟨h1, _, h2, h3, h4, h5, h6⟩ := small_act (s := t) (h a ha)
      rw [h1, h2, h3, h4, h5, h6]; exact ht) ⟨rfl, rfl, rfl, rfl, rfl, rfl⟩

/-! ## The hooks at the end -/

theorem endAll_induct {e : Env} {q : Query} {P : St → Prop} (l : List Hook)
    (hr : ∀ s, ∀ h ∈ l, P s → P (run s (h s).1)) (he : ∀ s, P s → P (err e q s)) (n : LState) (s : St) (hs : P s) :
    P (endAll e q n s l).2 := by
  induction l generalizing n s with
  | nil => exact hs
  | cons h l ih =>
    unfold endAll
    have h1 := hr s h List.mem_cons_self hs
    split
    · exact ih (fun s h' hh => hr s h' (List.mem_cons_of_mem _ hh)) _ _ (he _ h1)
    · exact ih (fun s h' hh => hr s h' (List.mem_cons_of_mem _ hh)) _ _ h1

theorem beginAll_induct {P : St → Prop} (l : List Hook) (hr : ∀ s, ∀ h ∈ l, P s → P (run s (h s).1)) (n : LState) (s : St)
    (hs : P s) : P (beginAll n s l).2 := by
  induction l generalizing n s with
  | nil => exact hs
  | cons h l ih =>
    unfold beginAll
    have h1 := hr s h List.mem_cons_self hs
    split
    · exact h1
    · exact ih (fun s h' hh => hr s h' (List.mem_cons_of_mem _ hh)) _ _ h1

/-! ## prepare -/

theorem limit_spec {e : Env} {q : Query} {m : Nat} (he : Configured e) (h : limit e q = some m) : Limit e q m ∧ 512 ≤ m ∧ m ≤ 65535 := by
  unfold limit at h
  unfold Limit
  have h4 := he.max4
  have h6 := he.max6
  split at h
  · rename_i hu
    rw [if_pos hu]
    split at h
    · rename_i ho; injection h with h; subst h; rw [ho]; exact ⟨rfl, by omega, by omega⟩
    · rename_i o ho
      rw [ho]
      dsimp only
      split at h
      · rename_i hf; injection h with h; subst h
        refine ⟨.inl ⟨hf, rfl⟩, by omega, by omega⟩
      · rename_i hf; injection h with h; subst h
        refine ⟨.inr (.inl ⟨hf, rfl⟩), by omega, by omega⟩
      · cases h
  · rename_i hu
    injection h with h; subst h; rw [if_neg hu]; exact ⟨rfl, by omega, by omega⟩

theorem optSize_pos {e : Env} {q : Query} {o : QOpt} (h : q.opt = some o) (m : Nat) (d : Bool) :
    (∀ n, ecsOf e o = some (n, true) → ((addNsid e o ⟨m, 0, 0, d, []⟩).add ⟨8, n, 0⟩).wireSize = optSize e q) ∧
    ((∀ n, ecsOf e o ≠ some (n, true)) → (addNsid e o ⟨m, 0, 0, d, []⟩).wireSize = optSize e q) := by
  unfold optSize
  rw [h]
  dsimp only
  have h1 : (addNsid e o ⟨m, 0, 0, d, []⟩).wireSize = 11 + (if o.nsid = true ∧ 0 < e.nsid then 4 + e.nsid else 0) := by
    unfold addNsid
    by_cases hn : o.nsid = true ∧ 0 < e.nsid
    · rw [if_pos hn, if_pos (by simp [hn.1, hn.2])]; simp [Opt.add, Opt.wireSize]
    · rw [if_neg hn, if_neg (by simp only [Bool.and_eq_true, decide_eq_true_eq]; exact hn)]; simp [Opt.wireSize]
  constructor
  · intro n hn
    unfold ecsOf at hn
    split at hn
    · rename_i he
      rw [wireSize_add, h1, hn]; dsimp only; rw [if_pos he]
    · cases hn
  · intro hn
    rw [h1]
    unfold ecsOf at hn
    cases hs : o.ecs with
    | none => rfl
    | some v =>
      obtain ⟨n, b⟩ := v
      cases b
      · rfl
      · dsimp only
        have hc : e.ecs ≠ true := by intro he; rw [if_pos he] at hn; exact hn n hs
        rw [if_neg hc]; rfl

/-- What the state is like when something goes wrong early. -/
structure Early (e : Env) (q : Query) (s : St) : Prop where
  ede : s.qd.ede = none
  zone : s.qd.zone = none
  key : s.qd.key = none
  tsig : s.qd.rcodeTsig = 0
  opt : ∀ o, s.qd.opt = some o → o.wireSize ≤ optSize e q

/-- ednsInit: the rest. -/
theorem ednsInit_spec {e : Env} {q : Query} {s : St} (hm : s.pkt.maxSize ≤ 65535) (hs : s.pkt.size + s.pkt.reserved ≤ s.pkt.maxSize)
    (h0 : s.qd.opt = none) :
    (ednsInit e q s).2.pkt.hdr = s.pkt.hdr ∧ (ednsInit e q s).2.pkt.question = s.pkt.question ∧
    (ednsInit e q s).2.pkt.maxSize = s.pkt.maxSize ∧ (ednsInit e q s).2.pkt.size = s.pkt.size ∧
    (ednsInit e q s).2.pkt.opt = s.pkt.opt ∧ (ednsInit e q s).2.pkt.current = s.pkt.current ∧
    (∀ o, (ednsInit e q s).2.qd.opt = some o → o.wireSize ≤ optSize e q ∧ q.opt ≠ none ∧ o.ext = 0 ∧ o.version = 0) ∧
    (ednsInit e q s).2.qd.ede = s.qd.ede ∧ (ednsInit e q s).2.qd.zone = s.qd.zone ∧ (ednsInit e q s).2.qd.key = s.qd.key ∧
    (ednsInit e q s).2.qd.rcodeTsig = s.qd.rcodeTsig ∧ (ednsInit e q s).2.qd.optPos = s.qd.optPos ∧
    (ednsInit e q s).2.qd.truncated = s.qd.truncated ∧
    (s.pkt.reserved = 0 → (ednsInit e q s).1 = true →
      (ednsInit e q s).2.pkt.reserved = optSize e q ∧
      ((ednsInit e q s).2.qd.opt = none ↔ q.opt = none) ∧
      ∀ o, (ednsInit e q s).2.qd.opt = some o → o.wireSize = optSize e q) := by
  have haux : ∀ (o : QOpt) (m : Nat), (addNsid e o ⟨m, 0, 0, o.dnssec, []⟩).ext = 0 ∧ (addNsid e o ⟨m, 0, 0, o.dnssec, []⟩).version = 0 := by
    intro o m; unfold addNsid; split <;> exact ⟨rfl, rfl⟩
  unfold ednsInit
  split
  · rename_i hq
    refine ⟨rfl, rfl, rfl, rfl, rfl, rfl, ?_, rfl, rfl, rfl, rfl, rfl, rfl, ?_⟩
    · intro o ho; rw [h0] at ho; cases ho
    · intro hr _
      refine ⟨by unfold optSize; rw [hq]; exact hr, by simp [h0, hq], ?_⟩
      intro o ho; rw [h0] at ho; cases ho
  · rename_i o hq
    split
    · refine ⟨rfl, rfl, rfl, rfl, rfl, rfl, ?_, rfl, rfl, rfl, rfl, rfl, rfl, fun _ h => by cases h⟩
      intro o ho; rw [h0] at ho; cases ho
    · rename_i m hm'
      dsimp only
      obtain ⟨hs1, hs2⟩ := optSize_pos (e := e) hq m o.dnssec
      split
      · rename_i n he
        refine ⟨rfl, rfl, rfl, rfl, rfl, rfl, ?_, rfl, rfl, rfl, rfl, rfl, rfl, fun _ h => by cases h⟩
        intro o' ho
        injection ho with ho; subst ho
        refine ⟨Nat.le_of_eq (hs2 (fun n' hn' => by rw [he] at hn'; cases hn')), (by rw [hq]; simp), (haux o m).1, (haux o m).2⟩
      · rename_i n he
        have hw := hs1 n he
        split
        · rename_i hn
          refine ⟨rfl, rfl, rfl, rfl, rfl, rfl, ?_, rfl, rfl, rfl, rfl, rfl, rfl, fun _ h => by cases h⟩
          intro o' ho
          injection ho with ho; subst ho
          exact ⟨Nat.le_of_eq hw, (by rw [hq]; simp), (haux o m).1, (haux o m).2⟩
        · rename_i s' hn
          obtain ⟨hqd, ⟨h2, _⟩ | ⟨o', ho', hle, hp⟩⟩ := ednsReserve_some hn
          · cases h2
          · dsimp only at hp ho'
            injection ho' with ho'; subst ho'
            rw [hqd, hp]
            refine ⟨rfl, rfl, rfl, rfl, rfl, rfl, ?_, rfl, rfl, rfl, rfl, rfl, rfl, ?_⟩
            · intro o' ho
              injection ho with ho; subst ho
              exact ⟨Nat.le_of_eq hw, (by rw [hq]; simp), (haux o m).1, (haux o m).2⟩
            · intro hr _
              refine ⟨by dsimp only; rw [hr, hw]; omega, by simp [hq], ?_⟩
              intro o' ho; injection ho with ho; subst ho; exact hw
      · rename_i he
        have hw := hs2 (fun n' hn' => by rw [he] at hn'; cases hn')
        split
        · rename_i hn
          refine ⟨rfl, rfl, rfl, rfl, rfl, rfl, ?_, rfl, rfl, rfl, rfl, rfl, rfl, fun _ h => by cases h⟩
          intro o' ho
          injection ho with ho; subst ho
          exact ⟨Nat.le_of_eq hw, (by rw [hq]; simp), (haux o m).1, (haux o m).2⟩
        · rename_i s' hn
          obtain ⟨hqd, ⟨h2, _⟩ | ⟨o', ho', hle, hp⟩⟩ := ednsReserve_some hn
          · cases h2
          · dsimp only at hp ho'
            injection ho' with ho'; subst ho'
            rw [hqd, hp]
            refine ⟨rfl, rfl, rfl, rfl, rfl, rfl, ?_, rfl, rfl, rfl, rfl, rfl, rfl, ?_⟩
            · intro o' ho
              injection ho with ho; subst ho
              exact ⟨Nat.le_of_eq hw, (by rw [hq]; simp), (haux o m).1, (haux o m).2⟩
            · intro hr _
              refine ⟨by dsimp only; rw [hr, hw]; omega, by simp [hq], ?_⟩
              intro o' ho; injection ho with ho; subst ho; exact hw

theorem catalogCheck_pkt (e : Env) (q : Query) (s : St) : (catalogCheck e q s).pkt = s.pkt ∧ (catalogCheck e q s).qd.opt = s.qd.opt ∧
    (catalogCheck e q s).qd.ede = s.qd.ede ∧ (catalogCheck e q s).qd.optPos = s.qd.optPos ∧
    (catalogCheck e q s).qd.truncated = s.qd.truncated := by
  unfold catalogCheck
  split
  · exact ⟨rfl, rfl, rfl, rfl, rfl⟩
  · split
    · split <;> exact ⟨rfl, rfl, rfl, rfl, rfl⟩
    · exact ⟨rfl, rfl, rfl, rfl, rfl⟩

/-- prepare() in an empty packet. -/
theorem prepare_spec {e : Env} {q : Query} {g : Hdr} (he : Configured e) (hq : Parsed q) :
    ((prepare e q (start g)).1 = false → Early e q (prepare e q (start g)).2 ∧
      ((prepare e q (start g)).2.pkt.maxSize = 65535 ∨
        Limit e q (prepare e q (start g)).2.pkt.maxSize ∧ 512 ≤ (prepare e q (start g)).2.pkt.maxSize ∧ (prepare e q (start g)).2.pkt.maxSize ≤ 65535)) ∧
    ((prepare e q (start g)).1 = true → Answers q (prepare e q (start g)).2.pkt ∧ Limit e q (prepare e q (start g)).2.pkt.maxSize ∧
      512 ≤ (prepare e q (start g)).2.pkt.maxSize ∧ (prepare e q (start g)).2.pkt.maxSize ≤ 65535 ∧
      (prepare e q (start g)).2.pkt.size = 12 + q.question.length ∧ (prepare e q (start g)).2.pkt.reserved = optSize e q ∧
      (prepare e q (start g)).2.pkt.opt = none ∧ q.question ≠ [] ∧
      ((prepare e q (start g)).2.qd.opt = none ↔ q.opt = none) ∧
      (∀ o, (prepare e q (start g)).2.qd.opt = some o → o.wireSize = optSize e q ∧ o.ext = 0 ∧ o.version = 0) ∧
      (prepare e q (start g)).2.qd.ede = none ∧ (prepare e q (start g)).2.qd.optPos = none) := by
  have hqs := hq.question
  obtain ⟨p, hp, ha, h1, h2, h3, h4, h5⟩ := answers_init (start g).pkt q (by show 12 + _ ≤ 65535; omega)
  have h1' : p.maxSize = 65535 := h1
  have hi := ednsInit_spec (e := e) (q := q) (s := { start g with pkt := p }) (by show p.maxSize ≤ 65535; omega)
    (by show p.size + p.reserved ≤ p.maxSize; omega) rfl
  unfold prepare
  rw [hp]
  dsimp only
  generalize ednsInit e q { start g with pkt := p } = r at hi ⊢
  obtain ⟨b, s⟩ := r
  obtain ⟨i1, i2, i3, i4, i5, i6, i7, i8, i9, i10, i11, i12, i13, i14⟩ := hi
  dsimp only at i1 i2 i3 i4 i5 i6 i7 i8 i9 i10 i11 i12 i13 i14
  have hearly : Early e q s := ⟨i8, i9, i10, i11, fun o ho => (i7 o ho).1⟩
  cases b
  · exact ⟨fun _ => ⟨hearly, .inl (i3.trans h1')⟩, fun h => by cases h⟩
  · dsimp only
    by_cases hr : s.qd.rcode ≠ 0
    · rw [if_pos hr]
      exact ⟨fun _ => ⟨hearly, .inl (i3.trans h1')⟩, fun h => by cases h⟩
    · rw [if_neg hr]
      split
      · rename_i hl
        refine ⟨fun _ => ⟨⟨i8, i9, i10, i11, fun o ho => (i7 o ho).1⟩, .inr ⟨?_, by dsimp only; omega, by dsimp only; omega⟩⟩, fun h => by cases h⟩
        unfold limit at hl
        unfold Limit
        split at hl
        · rename_i hu
          rw [if_pos hu]
          split at hl
          · cases hl
          · rename_i o ho
            rw [ho]
            dsimp only
            split at hl
            · cases hl
            · cases hl
            · rename_i n1 n2; exact .inr (.inr ⟨n1, n2, rfl⟩)
        · cases hl
      · rename_i m hl
        have hlim := limit_spec he hl
        split
        · exact ⟨fun _ => ⟨⟨i8, i9, i10, i11, fun o ho => (i7 o ho).1⟩, .inr hlim⟩, fun h => by cases h⟩
        · rename_i hqn
          refine ⟨(fun h => by cases h), fun _ => ?_⟩
          obtain ⟨c1, c2, c3, c4, c5⟩ := catalogCheck_pkt e q ⟨{ s.pkt with maxSize := m }, { s.qd with zone := zoneFind e.zonedb q }⟩
          obtain ⟨j1, j2, j3⟩ := i14 h3 rfl
          rw [c1, c2, c3, c4]
          refine ⟨answers_same ha i1 i2, hlim.1, hlim.2.1, hlim.2.2, i4.trans h2, j1, i5.trans h4, hqn, j2, ?_, i8, i12⟩
          intro o ho
          exact ⟨j3 o ho, (i7 o ho).2.2⟩

end Knot.Query
