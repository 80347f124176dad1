import Verif.Query.Spec
/-!
# Lemmas: the header
-/
namespace Knot.Query
open Reply

theorem forall_u8 (P : UInt8 → Prop) [DecidablePred P] (h : ∀ i : Fin 256, P (UInt8.ofNat i.val)) : ∀ x, P x := by
  intro x
  have h1 := h ⟨x.toNat, x.toNat_lt⟩
  simpa using h1

theorem f1_tc : ∀ x : UInt8, (x ||| 0x02) &&& 0x80 = x &&& 0x80 ∧ (x ||| 0x02) &&& 0x79 = x &&& 0x79 :=
  forall_u8 _ (by decide +kernel)

theorem f1_aa : ∀ x : UInt8, (x ||| 0x04) &&& 0x80 = x &&& 0x80 ∧ (x ||| 0x04) &&& 0x79 = x &&& 0x79 :=
  forall_u8 _ (by decide +kernel)

theorem f1_init : ∀ x : UInt8, (((x ||| 0x80) &&& 0xfd) &&& 0xfb) &&& 0x80 = 0x80 ∧
    (((x ||| 0x80) &&& 0xfd) &&& 0xfb) &&& 0x79 = x &&& 0x79 :=
  forall_u8 _ (by decide +kernel)

theorem f2_init : ∀ x : UInt8, ((((x &&& 0xdf) &&& 0x7f) &&& 0xbf) &&& 0xef) &&& 0xf0 = 0 :=
  forall_u8 _ (by decide +kernel)

theorem f2_rcode : ∀ r : Nat, r < 16 → ∀ x : UInt8, x &&& 0xf0 = 0 →
    ((x &&& 0xf0) ||| UInt8.ofNat r) &&& 0xf0 = 0 ∧ (((x &&& 0xf0) ||| UInt8.ofNat r) &&& 0x0f).toNat = r := by
  intro r hr x hx
  rw [hx]
  have h : ∀ i : Fin 16, ((0 : UInt8) ||| UInt8.ofNat i.val) &&& 0xf0 = 0 ∧ (((0 : UInt8) ||| UInt8.ofNat i.val) &&& 0x0f).toNat = i.val := by
    decide +kernel
  exact h ⟨r, hr⟩

theorem answers_hdr {q : Query} {p : Pkt} (h : Answers q p) (p' : Pkt) (hq : p'.question = p.question)
    (hid : p'.hdr.id = p.hdr.id) (hqd : p'.hdr.qd = p.hdr.qd) (h1 : p'.hdr.f1 &&& 0x80 = p.hdr.f1 &&& 0x80)
    (h2 : p'.hdr.f1 &&& 0x79 = p.hdr.f1 &&& 0x79) (h3 : p'.hdr.f2 &&& 0xf0 = 0) : Answers q p' :=
  ⟨hid.trans h.id, h1.trans h.response, h2.trans h.kind, h3, hq.trans h.question, hqd.trans h.qd⟩

theorem count_f1 (h : Hdr) (s n : Nat) : (count h s n).f1 = h.f1 := by unfold count; split <;> (try split) <;> rfl
theorem count_f2 (h : Hdr) (s n : Nat) : (count h s n).f2 = h.f2 := by unfold count; split <;> (try split) <;> rfl
theorem count_id (h : Hdr) (s n : Nat) : (count h s n).id = h.id := by unfold count; split <;> (try split) <;> rfl
theorem count_qd (h : Hdr) (s n : Nat) : (count h s n).qd = h.qd := by unfold count; split <;> (try split) <;> rfl

theorem answers_tc {q : Query} {p : Pkt} (h : Answers q p) : Answers q { p with hdr := p.hdr.setTc } :=
  answers_hdr h _ rfl rfl rfl (f1_tc _).1 (f1_tc _).2 h.cleared

theorem answers_aa {q : Query} {p : Pkt} (h : Answers q p) : Answers q { p with hdr := p.hdr.setAa } :=
  answers_hdr h _ rfl rfl rfl (f1_aa _).1 (f1_aa _).2 h.cleared

theorem answers_count {q : Query} {p : Pkt} (h : Answers q p) (p' : Pkt) (n sec : Nat) (hq : p'.question = p.question)
    (hh : p'.hdr = count p.hdr sec n) : Answers q p' :=
  answers_hdr h _ hq (by rw [hh, count_id]) (by rw [hh, count_qd]) (by rw [hh, count_f1]) (by rw [hh, count_f1])
    (by rw [hh, count_f2]; exact h.cleared)

theorem answers_rcode {q : Query} {p : Pkt} (h : Answers q p) (p' : Pkt) (r : Nat) (hr : r < 16) (hq : p'.question = p.question)
    (hh : p'.hdr = p.hdr.setRcode r) : Answers q p' :=
  answers_hdr h _ hq (by rw [hh]; rfl) (by rw [hh]; rfl) (by rw [hh]; rfl) (by rw [hh]; rfl)
    (by rw [hh]; exact (f2_rcode r hr _ h.cleared).1)

theorem answers_init (p : Pkt) (q : Query) (h : 12 + q.question.length ≤ p.maxSize) :
    ∃ p', initResponse p q = some p' ∧ Answers q p' ∧ p'.maxSize = p.maxSize ∧ p'.size = 12 + q.question.length ∧
      p'.reserved = 0 ∧ p'.opt = none ∧ p'.current = 0 := by
  refine ⟨_, if_neg (by omega), ⟨rfl, (f1_init _).1, (f1_init _).2, f2_init _, rfl, rfl⟩, rfl, rfl, rfl, rfl, rfl⟩

/-- Nothing but the packet's header matters. -/
theorem answers_same {q : Query} {p p' : Pkt} (h : Answers q p) (hh : p'.hdr = p.hdr) (hq : p'.question = p.question) :
    Answers q p' :=
  answers_hdr h _ hq (by rw [hh]) (by rw [hh]) (by rw [hh]) (by rw [hh]) (by rw [hh]; exact h.cleared)

theorem reserve_some {p p' : Pkt} {n : Nat} (h : reserve p n = some p') :
    n ≤ remaining p ∧ p' = { p with reserved := p.reserved + n } := by
  unfold reserve at h
  split at h
  · injection h with h; exact ⟨by assumption, h.symm⟩
  · cases h

theorem reclaim_some {p p' : Pkt} {n : Nat} (h : reclaim p n = some p') :
    n ≤ p.reserved ∧ p' = { p with reserved := p.reserved - n } := by
  unfold reclaim at h
  split at h
  · injection h with h; exact ⟨by assumption, h.symm⟩
  · cases h

theorem putOpt_some {p p' : Pkt} {o : Opt} (h : putOpt p o = some p') :
    o.wireSize ≤ remaining p ∧
      p' = { p with hdr := count p.hdr p.current 1, size := p.size + o.wireSize, opt := some (p.size, o) } := by
  unfold putOpt at h
  split at h
  · injection h with h; exact ⟨by assumption, h.symm⟩
  · cases h

theorem appendTsig_some {p p' : Pkt} {n : Nat} (h : appendTsig p n = some p') :
    p.size + n ≤ p.maxSize ∧ p' = { p with hdr := { p.hdr with ar := p.hdr.ar + 1 }, size := p.size + n } := by
  unfold appendTsig at h
  split at h
  · injection h with h; exact ⟨by assumption, h.symm⟩
  · cases h

theorem reserveD (p : Pkt) (n : Nat) :
    (reserve p n).getD p = p ∨ (n ≤ remaining p ∧ (reserve p n).getD p = { p with reserved := p.reserved + n }) := by
  unfold reserve
  split
  · right; exact ⟨by assumption, rfl⟩
  · left; rfl

theorem begin_same (p : Pkt) (s : Nat) : begin p s = p ∨ begin p s = { p with current := s } := by
  unfold begin; split
  · exact .inl rfl
  · exact .inr rfl

theorem answers_begin {q : Query} {p : Pkt} (h : Answers q p) (s : Nat) : Answers q (begin p s) := by
  rcases begin_same p s with h1 | h1 <;> rw [h1]
  · exact h
  · exact answers_same h rfl rfl

theorem answers_act {q : Query} {s : St} (h : Answers q s.pkt) (a : Act) : Answers q (act s a).pkt := by
  cases a with
  | begin sec => exact answers_begin h sec
  | put n len t =>
    show Answers q (putRr s.pkt n len t)
    unfold putRr
    split
    · exact answers_count h _ n s.pkt.current rfl rfl
    · split
      · exact h
      · exact answers_tc h
  | reserve n =>
    show Answers q ((reserve s.pkt n).getD s.pkt)
    rcases reserveD s.pkt n with h1 | ⟨_, h1⟩ <;> rw [h1]
    · exact h
    · exact answers_same h rfl rfl
  | cookie len =>
    show Answers q ((reserve s.pkt (4 + len)).getD s.pkt)
    rcases reserveD s.pkt (4 + len) with h1 | ⟨_, h1⟩ <;> rw [h1]
    · exact h
    · exact answers_same h rfl rfl
  | aa => exact answers_aa h
  | tc => exact answers_tc h
  | rcode r => exact h
  | ede e => exact h
  | truncated => exact h
  | tsig k r => exact h

theorem run_induct {P : St → Prop} {l : List Act} (h : ∀ s, ∀ a ∈ l, P s → P (act s a)) {s : St} (hs : P s) : P (run s l) := by
  induction l generalizing s with
  | nil => exact hs
  | cons a l ih =>
    exact ih (fun s b hb => h s b (List.mem_cons_of_mem _ hb)) (h s a List.mem_cons_self hs)

theorem answers_run {q : Query} {s : St} (h : Answers q s.pkt) (l : List Act) : Answers q (run s l).pkt :=
  run_induct (P := fun s => Answers q s.pkt) (fun _ a _ hs => answers_act hs a) h

/-! ## The functions, one by one: what they leave -/

/-- What ednsReserve does. -/
theorem ednsReserve_some {s s' : St} (h : ednsReserve s = some s') :
    s'.qd = s.qd ∧ ((s.qd.opt = none ∧ s' = s) ∨ ∃ o, s.qd.opt = some o ∧ o.wireSize ≤ remaining s.pkt ∧
      s'.pkt = { s.pkt with reserved := s.pkt.reserved + o.wireSize }) := by
  unfold ednsReserve at h
  cases ho : s.qd.opt with
  | none => rw [ho] at h; dsimp only at h; injection h with h; subst h; exact ⟨rfl, .inl ⟨rfl, rfl⟩⟩
  | some o =>
    rw [ho] at h; dsimp only at h
    cases hr : reserve s.pkt o.wireSize with
    | none => rw [hr] at h; cases h
    | some p =>
      rw [hr] at h
      simp only [Option.map_some] at h
      injection h with h; subst h
      obtain ⟨h1, h2⟩ := reserve_some hr
      exact ⟨rfl, .inr ⟨o, rfl, h1, h2⟩⟩

/-- ednsPut by cases. -/
theorem ednsPut_cases (e : Env) (q : Query) (s : St) :
    (s.qd.opt = none ∧ ednsPut e q s = (true, s)) ∨
    ∃ o, s.qd.opt = some o ∧
      ((s.pkt.reserved < o.wireSize ∧ ednsPut e q s = (false, { s with qd := { s.qd with opt := some (addExpire e q s (addEde s o)) } })) ∨
       (o.wireSize ≤ s.pkt.reserved ∧ ∃ p o'', p = { s.pkt with reserved := s.pkt.reserved - o.wireSize } ∧
          o'' = addPadding e p (addExpire e q s (addEde s o)) ∧
          ((remaining p < o''.wireSize ∧ ednsPut e q s = (false, ⟨{ p with hdr := p.hdr.setTc }, { s.qd with opt := some o'' }⟩)) ∨
           (o''.wireSize ≤ remaining p ∧ ednsPut e q s =
              (true, ⟨{ p with hdr := count p.hdr p.current 1, size := p.size + o''.wireSize, opt := some (p.size, o'') },
                { s.qd with opt := some o'', optPos := some p.size }⟩))))) := by
  cases ho : s.qd.opt with
  | none => left; exact ⟨rfl, by unfold ednsPut; rw [ho]⟩
  | some o =>
    right
    refine ⟨o, rfl, ?_⟩
    unfold ednsPut
    rw [ho]
    dsimp only
    by_cases hr : o.wireSize ≤ s.pkt.reserved
    · right
      refine ⟨hr, _, _, rfl, rfl, ?_⟩
      have h1 : reclaim s.pkt o.wireSize = some { s.pkt with reserved := s.pkt.reserved - o.wireSize } := if_pos hr
      rw [h1]
      dsimp only
      by_cases hp : (addPadding e { s.pkt with reserved := s.pkt.reserved - o.wireSize } (addExpire e q s (addEde s o))).wireSize
          ≤ remaining { s.pkt with reserved := s.pkt.reserved - o.wireSize }
      · right
        refine ⟨hp, ?_⟩
        unfold putOpt
        rw [if_pos hp]
      · left
        refine ⟨Nat.lt_of_not_le hp, ?_⟩
        unfold putOpt
        rw [if_neg hp]
    · left
      refine ⟨by omega, ?_⟩
      have h1 : reclaim s.pkt o.wireSize = none := if_neg hr
      rw [h1]

theorem answers_ednsPut {q : Query} {s : St} (h : Answers q s.pkt) (e : Env) : Answers q (ednsPut e q s).2.pkt := by
  rcases ednsPut_cases e q s with ⟨_, h1⟩ | ⟨o, _, ⟨_, h1⟩ | ⟨_, p, o'', hp, _, ⟨_, h1⟩ | ⟨_, h1⟩⟩⟩ <;> rw [h1]
  · exact h
  · exact h
  · exact answers_tc (answers_same h (by rw [hp]) (by rw [hp]))
  · refine answers_count (p := p) (answers_same h (by rw [hp]) (by rw [hp])) _ 1 p.current rfl rfl

/-- sign by cases. -/
theorem sign_cases (q : Query) (s : St) :
    (tsigLen q s.qd = none ∧ sign q s = (true, s)) ∨
    ∃ n, tsigLen q s.qd = some n ∧
      ((s.pkt.size + n ≤ s.pkt.maxSize ∧
          sign q s = (true, { s with pkt := { s.pkt with hdr := { s.pkt.hdr with ar := s.pkt.hdr.ar + 1 }, size := s.pkt.size + n } })) ∨
       (s.pkt.maxSize < s.pkt.size + n ∧ sign q s = (false, { s with qd := { s.qd with rcode := 2, rcodeTsig := 0 } }))) := by
  cases ht : tsigLen q s.qd with
  | none => left; exact ⟨rfl, by unfold sign; rw [ht]⟩
  | some n =>
    right
    refine ⟨n, rfl, ?_⟩
    unfold sign
    rw [ht]
    dsimp only
    by_cases hn : s.pkt.size + n ≤ s.pkt.maxSize
    · left; refine ⟨hn, ?_⟩; unfold appendTsig; rw [if_pos hn]
    · right; refine ⟨by omega, ?_⟩; unfold appendTsig; rw [if_neg hn]

theorem answers_sign {q : Query} {s : St} (h : Answers q s.pkt) : Answers q (sign q s).2.pkt := by
  rcases sign_cases q s with ⟨_, h1⟩ | ⟨n, _, ⟨_, h1⟩ | ⟨_, h1⟩⟩ <;> rw [h1]
  · exact h
  · exact answers_hdr h _ rfl rfl rfl rfl rfl h.cleared
  · exact h

theorem setExt_hdr (p : Pkt) (a b : Nat) : (setExt p a b).hdr = p.hdr ∧ (setExt p a b).question = p.question ∧
    (setExt p a b).size = p.size ∧ (setExt p a b).reserved = p.reserved ∧ (setExt p a b).maxSize = p.maxSize := by
  unfold setExt
  split
  · exact ⟨rfl, rfl, rfl, rfl, rfl⟩
  · split <;> exact ⟨rfl, rfl, rfl, rfl, rfl⟩

/-- setRcode leaves everything but the code. -/
theorem setRcode_cases (s : St) : (setRcode s).qd = s.qd ∧ (setRcode s).pkt.question = s.pkt.question ∧
    (setRcode s).pkt.size = s.pkt.size ∧ (setRcode s).pkt.reserved = s.pkt.reserved ∧
    (setRcode s).pkt.maxSize = s.pkt.maxSize ∧ ∃ r, r < 16 ∧ (setRcode s).pkt.hdr = s.pkt.hdr.setRcode r := by
  unfold setRcode
  split
  · split
    · exact ⟨rfl, rfl, rfl, rfl, rfl, 2, by omega, rfl⟩
    · rename_i pos _
      obtain ⟨_, h2, h3, h4, h5⟩ := setExt_hdr s.pkt pos (s.qd.rcode / 16 % 256)
      exact ⟨rfl, h2, h3, h4, h5, s.qd.rcode % 16, by omega, rfl⟩
  · exact ⟨rfl, rfl, rfl, rfl, rfl, s.qd.rcode % 16, by omega, rfl⟩

theorem answers_setRcode {q : Query} {s : St} (h : Answers q s.pkt) : Answers q (setRcode s).pkt := by
  obtain ⟨_, hq, _, _, _, r, hr, hh⟩ := setRcode_cases s
  exact answers_rcode h _ r hr hq hh

/-- errSign by cases. -/
theorem answers_errSign {q : Query} {s : St} (h : Answers q s.pkt) : Answers q (errSign q s).pkt := by
  unfold errSign
  have h1 := answers_sign h
  generalize sign q s = r at h1 ⊢
  obtain ⟨b, s'⟩ := r
  cases b
  · exact answers_setRcode h1
  · exact h1

theorem answers_errOpt {q : Query} {s : St} (h : Answers q s.pkt) (e : Env) : Answers q (errOpt e q s).pkt := by
  unfold errOpt
  split
  · exact h
  · rename_i s' hs
    have h0 : Answers q s'.pkt := by
      rcases ednsReserve_some hs with ⟨_, ⟨_, h2⟩ | ⟨o, _, _, h2⟩⟩
      · rw [h2]; exact h
      · rw [h2]; exact answers_same h rfl rfl
    have h1 := answers_ednsPut h0 e
    generalize ednsPut e q s' = r at h1 ⊢
    obtain ⟨b, s''⟩ := r
    cases b <;> exact h1

theorem errRcode_pkt (s : St) : (errRcode s).pkt = s.pkt := by unfold errRcode; split <;> rfl

theorem answers_errTrunc {q : Query} {s : St} (h : Answers q s.pkt) : Answers q (errTrunc s).pkt := by
  unfold errTrunc
  split
  · exact answers_tc (p := { s.pkt with hdr := s.pkt.hdr.setAa }) (answers_aa h)
  · exact h

theorem answers_err {q : Query} {s : St} (hm : 12 + q.question.length ≤ s.pkt.maxSize) (e : Env) : Answers q (err e q s).pkt := by
  obtain ⟨p, hp, ha, _⟩ := answers_init s.pkt q hm
  unfold err
  rw [hp]
  dsimp only [Option.getD_some]
  apply answers_errSign
  apply answers_setRcode
  rw [errRcode_pkt]
  apply answers_errOpt
  exact answers_begin (answers_errTrunc (s := { s with pkt := p }) ha) 2

/-! ## The limit of the packet stays -/

theorem max_act (s : St) (a : Act) : (act s a).pkt.maxSize = s.pkt.maxSize := by
  cases a with
  | begin sec => show (begin s.pkt sec).maxSize = _; rcases begin_same s.pkt sec with h1 | h1 <;> rw [h1]
  | put n len t =>
    show (putRr s.pkt n len t).maxSize = _
    unfold putRr
    split
    · rfl
    · split <;> rfl
  | reserve n =>
    show ((reserve s.pkt n).getD s.pkt).maxSize = _
    rcases reserveD s.pkt n with h1 | ⟨_, h1⟩ <;> rw [h1]
  | cookie len =>
    show ((reserve s.pkt (4 + len)).getD s.pkt).maxSize = _
    rcases reserveD s.pkt (4 + len) with h1 | ⟨_, h1⟩ <;> rw [h1]
  | _ => rfl

theorem max_run (s : St) (l : List Act) : (run s l).pkt.maxSize = s.pkt.maxSize :=
  run_induct (P := fun t => t.pkt.maxSize = s.pkt.maxSize) (fun t a _ ht => (max_act t a).trans ht) rfl

theorem max_ednsPut (e : Env) (q : Query) (s : St) : (ednsPut e q s).2.pkt.maxSize = s.pkt.maxSize := by
  rcases ednsPut_cases e q s with ⟨_, h1⟩ | ⟨o, _, ⟨_, h1⟩ | ⟨_, p, o'', hp, _, ⟨_, h1⟩ | ⟨_, h1⟩⟩⟩ <;> rw [h1] <;> (try rw [hp])

theorem max_sign (q : Query) (s : St) : (sign q s).2.pkt.maxSize = s.pkt.maxSize := by
  rcases sign_cases q s with ⟨_, h1⟩ | ⟨n, _, ⟨_, h1⟩ | ⟨_, h1⟩⟩ <;> rw [h1]

theorem max_setRcode (s : St) : (setRcode s).pkt.maxSize = s.pkt.maxSize := (setRcode_cases s).2.2.2.2.1

theorem max_begin (p : Pkt) (n : Nat) : (begin p n).maxSize = p.maxSize := by
  rcases begin_same p n with h1 | h1 <;> rw [h1]

theorem max_errSign (q : Query) (s : St) : (errSign q s).pkt.maxSize = s.pkt.maxSize := by
  unfold errSign
  have h1 := max_sign q s
  generalize sign q s = r at h1 ⊢
  obtain ⟨b, s'⟩ := r
  cases b
  · exact (max_setRcode s').trans h1
  · exact h1

theorem max_errOpt (e : Env) (q : Query) (s : St) : (errOpt e q s).pkt.maxSize = s.pkt.maxSize := by
  unfold errOpt
  split
  · rfl
  · rename_i s' hs
    have h0 : s'.pkt.maxSize = s.pkt.maxSize := by
      rcases ednsReserve_some hs with ⟨_, ⟨_, h2⟩ | ⟨o, _, _, h2⟩⟩ <;> rw [h2]
    have h1 := max_ednsPut e q s'
    generalize ednsPut e q s' = r at h1 ⊢
    obtain ⟨b, s''⟩ := r
    cases b <;> exact h1.trans h0

theorem max_errTrunc (s : St) : (errTrunc s).pkt.maxSize = s.pkt.maxSize := by unfold errTrunc; split <;> rfl

theorem max_err (e : Env) (q : Query) (s : St) : (err e q s).pkt.maxSize = s.pkt.maxSize := by
  unfold err
  dsimp only
  rw [max_errSign, max_setRcode, errRcode_pkt, max_errOpt]
  dsimp only
  rw [max_begin, max_errTrunc]
  dsimp only
  by_cases h : 12 + q.question.length ≤ s.pkt.maxSize
  · obtain ⟨p, hp, _, hm, _⟩ := answers_init s.pkt q h
    rw [hp]; exact hm
  · have h1 : initResponse s.pkt q = none := if_pos (by omega)
    rw [h1]; rfl

end Knot.Query
