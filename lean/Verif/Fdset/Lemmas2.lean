import Verif.Fdset.Lemmas
/-! # A round of events -/
namespace Knot.Fdset

/-- What a client's connection looks like before the commit. -/
def effect (idle : Nat) (evs : List Ev) (x : Conn) : Conn :=
  match eventOf evs x.fd with
  | none => x
  | some e =>
    match e.kind, e.ok with
    | .error, _ => { x with tls := false, mark := true }
    | .pollin, false => { x with tls := false, mark := true }
    | .pollin, true => { x with tls := x.tls || e.tls, timeout := e.now + idle }
    | .other, _ => x

theorem effect_fd (idle : Nat) (evs : List Ev) (x : Conn) : (effect idle evs x).fd = x.fd := by
  unfold effect; split <;> [rfl; (split <;> rfl)]

theorem effect_after {idle : Nat} {evs : List Ev} {x : Conn} (hx : x.mark = false) :
    after idle evs x = if (effect idle evs x).mark then none else some (effect idle evs x) := by
  unfold after effect
  cases eventOf evs x.fd with
  | none => simp [hx]
  | some e =>
    obtain ⟨fd, kind, cl, ok, tls, now⟩ := e
    cases kind <;> cases ok <;> simp [hx]

theorem effect_marked_tls {idle : Nat} {evs : List Ev} {x : Conn} (hx : x.mark = false)
    (h : (effect idle evs x).mark = true) : (effect idle evs x).tls = false := by
  revert h
  unfold effect
  cases eventOf evs x.fd with
  | none => simp [hx]
  | some e =>
    obtain ⟨fd, kind, cl, ok, tls, now⟩ := e
    cases kind <;> cases ok <;> simp [hx]

theorem effect_not {idle : Nat} {evs : List Ev} {x : Conn} (h : ∀ e ∈ evs, e.fd ≠ x.fd) :
    effect idle evs x = x := by
  have : eventOf evs x.fd = none := by
    unfold eventOf; rw [List.find?_eq_none]; intro e he; simpa using h e he
  unfold effect; rw [this]

theorem effect_append_ne {idle : Nat} {evs : List Ev} {e : Ev} {x : Conn} (h : e.fd ≠ x.fd) :
    effect idle (evs ++ [e]) x = effect idle evs x := by
  have : eventOf (evs ++ [e]) x.fd = eventOf evs x.fd := by
    unfold eventOf; rw [List.find?_append]; simp [h]
  unfold effect; rw [this]

theorem eventOf_append_eq {evs : List Ev} {e : Ev} {fd : Nat} (h : e.fd = fd) (hn : ∀ x ∈ evs, x.fd ≠ fd) :
    eventOf (evs ++ [e]) fd = some e := by
  have h0 : evs.find? (fun x => decide (x.fd = fd)) = none := by
    rw [List.find?_eq_none]; intro x hx; simpa using hn x hx
  unfold eventOf; rw [List.find?_append, h0]; simp [h]

theorem modify_map {idle : Nat} {done : List Ev} {e : Ev} {l : List Conn} {j : Nat} {f : Conn → Conn}
    {x : Conn} (hj : l[j]? = some x) (hx : x.fd = e.fd)
    (hinj : ∀ i y, l[i]? = some y → y.fd = e.fd → i = j)
    (hf : f (effect idle done x) = effect idle (done ++ [e]) x) :
    (l.map (effect idle done)).modify j f = l.map (effect idle (done ++ [e])) := by
  apply List.ext_getElem?
  intro i
  rw [List.getElem?_modify, List.getElem?_map, List.getElem?_map]
  cases hi : l[i]? with
  | none => rfl
  | some y =>
    by_cases e1 : j = i
    · subst e1
      rw [hj] at hi; cases hi
      simp [hf]
    · have hne : e.fd ≠ y.fd := fun h => e1 (hinj i y hi h.symm).symm
      simp [e1, effect_append_ne hne]

theorem accepted_append {max idle : Nat} {ms : List Conn} : ∀ (done : List Ev) (n : Nat) (e : Ev),
    accepted max idle ms n (done ++ [e]) =
      accepted max idle ms n done ++ accepted max idle ms (n + (accepted max idle ms n done).length) [e]
  | [], n, e => by
    show accepted max idle ms n [e] = [] ++ accepted max idle ms (n + 0) [e]
    rfl
  | d :: done, n, e => by
    rw [List.cons_append, accepted, accepted]
    cases ms.find? (fun m => decide (m.fd = d.fd)) with
    | none => simp only []; exact accepted_append done n e
    | some m =>
      cases d.client with
      | none => simp only []; exact accepted_append done n e
      | some cl =>
        obtain ⟨fd, ok⟩ := cl
        dsimp only
        by_cases h : d.kind = .pollin ∧ n < max
        · rw [if_pos h, if_pos h, accepted_append done (n + 1) e]
          simp only [List.cons_append, List.length_cons]
          rw [show n + 1 + (accepted max idle ms (n + 1) done).length =
            n + ((accepted max idle ms (n + 1) done).length + 1) from by omega]
        · rw [if_neg h, if_neg h]; exact accepted_append done n e

theorem accepted_fd {max idle : Nat} {ms : List Conn} : ∀ (done : List Ev) (n : Nat) (x : Conn),
    x ∈ accepted max idle ms n done →
      x.fd ∈ done.filterMap (fun e => e.client.map (·.1)) ∧ x.mark = false ∧ x.tls = false
  | [], n, x, h => by simp [accepted] at h
  | d :: done, n, x, h => by
    have key : ∀ m, x ∈ accepted max idle ms m done →
        x.fd ∈ (d :: done).filterMap (fun e => e.client.map (·.1)) ∧ x.mark = false ∧ x.tls = false := by
      intro m hm
      obtain ⟨h1, h2⟩ := accepted_fd done m x hm
      refine ⟨?_, h2⟩
      rw [List.filterMap_cons]
      split
      · exact h1
      · exact List.mem_cons_of_mem _ h1
    rw [accepted] at h
    split at h
    · rename_i m fd ok _ hcl
      split at h
      · rcases List.mem_cons.1 h with rfl | h
        · refine ⟨?_, rfl, rfl⟩
          rw [List.filterMap_cons, hcl]
          simp
        · exact key _ h
      · exact key _ h
    · exact key _ h

theorem accepted_le {max idle : Nat} {ms : List Conn} : ∀ (done : List Ev) (n : Nat), n ≤ max →
    n + (accepted max idle ms n done).length ≤ max
  | [], n, h => by simpa [accepted] using h
  | d :: done, n, h => by
    rw [accepted]
    split
    · split
      · rename_i h2
        have := accepted_le (idle := idle) (ms := ms) done (n + 1) h2.2
        simp only [List.length_cons]; omega
      · exact accepted_le done n h
    · exact accepted_le done n h

/-- The state after the events `done`. -/
structure Inv (c : Conf) (s0 : S) (done : List Ev) (st : S × Nat) : Prop where
  arr : st.1.arr = s0.arr.take c.thr ++ (s0.arr.drop c.thr).map (effect c.idle done) ++
    accepted c.max c.idle (s0.arr.take c.thr) s0.arr.length done
  dirty : st.2 = st.1.arr.countP (·.mark)
  reg : RegOk st.1
  log : st.1.log = s0.log
  opn : ∀ fd, fd ∈ st.1.opn ↔ ∃ x ∈ st.1.arr, x.fd = fd
  nodup : st.1.opn.Nodup

theorem inv_length {c : Conf} {s0 : S} {done : List Ev} {st : S × Nat} (h : Inv c s0 done st) :
    st.1.arr.length = s0.arr.length + (accepted c.max c.idle (s0.arr.take c.thr) s0.arr.length done).length := by
  rw [h.arr]; simp; omega

theorem inv_keep {c : Conf} {s0 : S} {done : List Ev} {st : S × Nat} {e : Ev} (h : Inv c s0 done st)
    (h1 : ∀ x ∈ s0.arr.drop c.thr, effect c.idle (done ++ [e]) x = effect c.idle done x)
    (h2 : accepted c.max c.idle (s0.arr.take c.thr)
      (s0.arr.length + (accepted c.max c.idle (s0.arr.take c.thr) s0.arr.length done).length) [e] = []) :
    Inv c s0 (done ++ [e]) st := by
  refine ⟨?_, h.dirty, h.reg, h.log, h.opn, h.nodup⟩
  rw [accepted_append, h2, List.append_nil, h.arr, List.map_congr_left h1]

theorem countP_modify {l : List Conn} {j : Nat} {x : Conn} {f : Conn → Conn} (hj : l[j]? = some x)
    (hx : x.mark = false) :
    (l.modify j f).countP (·.mark) = l.countP (·.mark) + (if (f x).mark then 1 else 0) := by
  obtain ⟨hlt, hc⟩ := List.getElem?_eq_some_iff.1 hj
  obtain ⟨l1, l2, rfl, hlen⟩ : ∃ l1 l2, l = l1 ++ x :: l2 ∧ l1.length = j :=
    ⟨l.take j, l.drop (j + 1), by rw [← hc]; simp, by simp; omega⟩
  subst hlen
  have : (l1 ++ x :: l2).modify l1.length f = l1 ++ f x :: l2 := by
    rw [List.modify_eq_set_getElem?]; simp
  rw [this]
  simp only [List.countP_append, List.countP_cons, hx]
  simp only [Bool.false_eq_true, if_false]
  omega

theorem modify_mid {A B C : List Conn} {i : Nat} {f : Conn → Conn} (h1 : A.length ≤ i)
    (h2 : i < A.length + B.length) : (A ++ B ++ C).modify i f = A ++ B.modify (i - A.length) f ++ C := by
  apply List.ext_getElem?
  intro j
  simp only [List.getElem?_modify, List.getElem?_append, List.length_append, List.length_modify]
  by_cases e1 : j < A.length
  · have : i ≠ j := by omega
    have e3 : j < A.length + B.length := by omega
    simp [e1, this, e3]
  · by_cases e2 : j < A.length + B.length
    · have : (i = j) ↔ (i - A.length = j - A.length) := by omega
      simp only [e1, e2, if_true, if_false, this]
    · have : i ≠ j := by omega
      simp [e2, this]

theorem inv_modify {c : Conf} {s0 : S} {done : List Ev} {st : S × Nat} {e : Ev} {i : Nat} {x : Conn}
    {f : Conn → Conn} (hg : Good s0) (h : Inv c s0 done st) (hi : s0.arr[i]? = some x) (hx : x.fd = e.fd)
    (hthr : c.thr ≤ i) (hnew : ∀ d ∈ done, d.fd ≠ e.fd) (hfd : ∀ y, (f y).fd = y.fd)
    (hf : f x = effect c.idle (done ++ [e]) x)
    (h2 : accepted c.max c.idle (s0.arr.take c.thr)
      (s0.arr.length + (accepted c.max c.idle (s0.arr.take c.thr) s0.arr.length done).length) [e] = []) :
    Inv c s0 (done ++ [e])
      ({ st.1 with arr := st.1.arr.modify i f }, st.2 + (if (f x).mark then 1 else 0)) := by
  obtain ⟨hlt, _⟩ := List.getElem?_eq_some_iff.1 hi
  have heff : effect c.idle done x = x := effect_not (by rw [hx]; exact hnew)
  have hdrop : (s0.arr.drop c.thr)[i - c.thr]? = some x := by
    rw [List.getElem?_drop, show c.thr + (i - c.thr) = i from by omega]; exact hi
  have hlen : (s0.arr.take c.thr).length = c.thr := by rw [List.length_take]; omega
  have harr : st.1.arr.modify i f = s0.arr.take c.thr ++ (s0.arr.drop c.thr).map (effect c.idle (done ++ [e])) ++
      accepted c.max c.idle (s0.arr.take c.thr) s0.arr.length done := by
    rw [← modify_map (f := f) hdrop hx (by
      intro j y hj hy
      rw [List.getElem?_drop] at hj
      have := regOk_inj hg.reg hj hi (hy.trans hx.symm)
      omega) (by rw [heff]; exact hf), h.arr]
    rw [modify_mid (by omega) (by simp; omega), hlen]
  have hget : st.1.arr[i]? = some x := by
    rw [h.arr, List.getElem?_append_left (by simp; omega), List.getElem?_append_right (by omega), hlen,
      List.getElem?_map, hdrop]
    simp [heff]
  have hmk : x.mark = false := hg.marks x (List.mem_of_getElem? hi)
  refine ⟨?_, ?_, regOk_modify h.reg i f hfd, h.log, ?_, h.nodup⟩
  · dsimp only
    rw [accepted_append, h2, List.append_nil]
    exact harr
  · dsimp only
    rw [countP_modify hget hmk, ← h.dirty]
  · intro fd
    rw [h.opn fd]
    dsimp only
    have key : (st.1.arr.modify i f).map (·.fd) = st.1.arr.map (·.fd) := by
      apply List.ext_getElem?
      intro j
      rw [List.getElem?_map, List.getElem?_map, List.getElem?_modify]
      cases st.1.arr[j]? with
      | none => rfl
      | some y => by_cases e : i = j <;> simp [e, hfd]
    have k2 : ∀ l : List Conn, (∃ x ∈ l, x.fd = fd) ↔ fd ∈ l.map (·.fd) := by intro l; simp
    rw [k2, k2, key]

/-- One event keeps the invariant. -/
theorem inv_step {c : Conf} {s0 : S} {done : List Ev} {st : S × Nat} {e : Ev} {i : Nat} {x : Conn}
    (hg : Good s0) (h : Inv c s0 done st) (hi : s0.arr[i]? = some x) (hx : x.fd = e.fd)
    (hnew : ∀ d ∈ done, d.fd ≠ e.fd)
    (hfresh : ∀ fd ok, e.client = some (fd, ok) → ok = true ∧ fd ∉ s0.opn ∧
      fd ∉ done.filterMap (fun e => e.client.map (·.1))) :
    Inv c s0 (done ++ [e]) (handle c st (i, e)) := by
  obtain ⟨hlt, _⟩ := List.getElem?_eq_some_iff.1 hi
  have hmk : x.mark = false := hg.marks x (List.mem_of_getElem? hi)
  by_cases hthr : i < c.thr
  · -- a listening socket
    have heff : ∀ y ∈ s0.arr.drop c.thr, effect c.idle (done ++ [e]) y = effect c.idle done y := by
      intro y hy
      obtain ⟨j, hj⟩ := List.mem_iff_getElem?.1 hy
      rw [List.getElem?_drop] at hj
      apply effect_append_ne
      intro he
      have := regOk_inj hg.reg hj hi (he.symm.trans hx.symm)
      omega
    have hnone : e.kind ≠ .pollin → accepted c.max c.idle (s0.arr.take c.thr)
      (s0.arr.length + (accepted c.max c.idle (s0.arr.take c.thr) s0.arr.length done).length) [e] = [] := by
      intro hk
      rw [accepted]
      split
      · rw [if_neg (fun h => hk h.1)]; rfl
      · rfl
    unfold handle
    dsimp only
    cases hk : e.kind with
    | error =>
      simp only []
      rw [if_neg (by omega)]
      exact inv_keep h heff (hnone (by rw [hk]; decide))
    | other => exact inv_keep h heff (hnone (by rw [hk]; decide))
    | pollin =>
      simp only []
      rw [if_pos hthr]
      have hl := inv_length h
      by_cases hmax : st.1.arr.length < c.max
      · rw [if_pos hmax]
        have hfind : (s0.arr.take c.thr).find? (fun m => decide (m.fd = e.fd)) = some x := by
          rw [List.find?_eq_some_iff_getElem]
          refine ⟨by simpa using hx, i, by simp; omega, ?_, ?_⟩
          · have := (List.getElem?_eq_some_iff.1 hi).2
            simpa using this
          · intro j hj
            simp only [Bool.not_eq_true', decide_eq_false_iff_not]
            intro he
            have hjj : s0.arr[j]? = some (s0.arr[j]'(by omega)) := List.getElem?_eq_getElem (by omega)
            have := regOk_inj hg.reg hjj hi (by
              rw [hx, ← he]; simp)
            omega
        have hget : st.1.arr[i]? = some x := by
          rw [h.arr, List.append_assoc, List.getElem?_append_left (by simp; omega),
            List.getElem?_take_of_lt hthr]
          exact hi
        unfold accept
        cases hcl : e.client with
        | none =>
          refine inv_keep h heff ?_
          rw [accepted, hfind, hcl]; rfl
        | some cl =>
          obtain ⟨fd, ok⟩ := cl
          obtain ⟨hok, hf1, hf2⟩ := hfresh fd ok hcl
          subst hok
          rw [hget]
          have hacc : accepted c.max c.idle (s0.arr.take c.thr)
              (s0.arr.length + (accepted c.max c.idle (s0.arr.take c.thr) s0.arr.length done).length) [e] =
              [⟨fd, x.ctx, false, e.now + c.idle, false⟩] := by
            rw [accepted, hfind, hcl]
            dsimp only
            rw [if_pos ⟨hk, by omega⟩]; rfl
          have hnot : ∀ y ∈ st.1.arr, y.fd ≠ fd := by
            intro y hy he
            rw [h.arr] at hy
            rcases List.mem_append.1 hy with hy | hy
            · apply hf1
              rw [hg.opn]
              rcases List.mem_append.1 hy with hy | hy
              · exact ⟨y, List.mem_of_mem_take hy, he⟩
              · obtain ⟨z, hz, rfl⟩ := List.mem_map.1 hy
                rw [effect_fd] at he
                exact ⟨z, List.mem_of_mem_drop hz, he⟩
            · rw [← he] at hf2
              exact hf2 (accepted_fd _ _ _ hy).1
          have harr : watchdog (st.1.arr ++ [⟨fd, x.ctx, false, 0, false⟩]) st.1.arr.length (e.now + c.idle) =
              st.1.arr ++ [⟨fd, x.ctx, false, e.now + c.idle, false⟩] := by
            unfold watchdog
            rw [List.modify_eq_set_getElem?]; simp
          simp only [add, if_true, harr]
          refine ⟨?_, ?_, ?_, h.log, ?_, ?_⟩
          · dsimp only
            rw [accepted_append, hacc, h.arr, List.map_congr_left heff]
            simp only [List.append_assoc]
          · dsimp only
            rw [List.countP_append, ← h.dirty]; simp
          · intro f j
            dsimp only
            unfold put
            have hr := h.reg f j
            by_cases ef : f = fd
            · subst ef
              simp only [if_true, Option.some.injEq]
              constructor
              · rintro rfl; simp
              · intro hj
                obtain ⟨y, hy, hyf⟩ := Option.map_eq_some_iff.1 hj
                by_cases e1 : j < st.1.arr.length
                · rw [List.getElem?_append_left e1] at hy
                  exact absurd hyf (hnot y (List.mem_of_getElem? hy))
                · obtain ⟨h5, _⟩ := List.getElem?_eq_some_iff.1 hy
                  simp at h5; omega
            · simp only [ef, if_false]
              rw [hr]
              by_cases e1 : j < st.1.arr.length
              · rw [List.getElem?_append_left e1]
              · rw [List.getElem?_append_right (by omega), List.getElem?_eq_none (by omega)]
                by_cases e2 : j = st.1.arr.length
                · subst e2
                  have : fd ≠ f := fun h => ef h.symm
                  simp [this]
                · rw [List.getElem?_eq_none (by simp; omega)]
          · intro f
            dsimp only
            rw [List.mem_cons, h.opn]
            constructor
            · rintro (rfl | ⟨y, hy, he⟩)
              · exact ⟨_, List.mem_append_right _ (List.mem_singleton.2 rfl), rfl⟩
              · exact ⟨y, List.mem_append_left _ hy, he⟩
            · rintro ⟨y, hy, he⟩
              rcases List.mem_append.1 hy with hy | hy
              · exact Or.inr ⟨y, hy, he⟩
              · rw [List.mem_singleton.1 hy] at he; exact Or.inl he.symm
          · dsimp only
            refine List.nodup_cons.2 ⟨?_, h.nodup⟩
            rw [h.opn]
            rintro ⟨y, hy, he⟩
            exact hnot y hy he
      · rw [if_neg hmax]
        refine inv_keep h heff ?_
        rw [accepted]
        split
        · rw [if_neg (fun h => by omega)]; rfl
        · rfl
  · -- a client
    have hnone : accepted c.max c.idle (s0.arr.take c.thr)
      (s0.arr.length + (accepted c.max c.idle (s0.arr.take c.thr) s0.arr.length done).length) [e] = [] := by
      rw [accepted]
      split
      · rename_i m fd ok hm hcl
        exfalso
        have h1 := List.mem_of_find?_eq_some hm
        have h2 := List.find?_some hm
        obtain ⟨j, hj⟩ := List.mem_iff_getElem?.1 h1
        rw [List.getElem?_take] at hj
        split at hj
        · have := regOk_inj hg.reg hj hi ((of_decide_eq_true h2).trans hx.symm)
          omega
        · cases hj
      · rfl
    have hev : eventOf (done ++ [e]) x.fd = some e := eventOf_append_eq hx.symm (by rw [hx]; exact hnew)
    unfold handle
    dsimp only
    cases hk : e.kind with
    | error =>
      simp only []
      rw [if_pos (by omega)]
      have := inv_modify (f := fun x => { x with tls := false, mark := true }) hg h hi hx (by omega) hnew
        (fun _ => rfl) (by unfold effect; rw [hev]; dsimp only; rw [hk]) hnone
      simpa [markAt] using this
    | other =>
      have := inv_modify (f := fun x => x) hg h hi hx (by omega) hnew
        (fun _ => rfl) (by unfold effect; rw [hev]; dsimp only; rw [hk]) hnone
      have e1 : st.1.arr.modify i (fun x => x) = st.1.arr := by
        apply List.ext_getElem?; intro j; rw [List.getElem?_modify]; cases st.1.arr[j]? <;> simp
      rw [e1] at this
      simpa [hmk] using this
    | pollin =>
      simp only []
      rw [if_neg hthr]
      have comp : ∀ (l : List Conn) (f g : Conn → Conn), (l.modify i f).modify i g = l.modify i (fun x => g (f x)) := by
        intro l f g
        apply List.ext_getElem?; intro j
        simp only [List.getElem?_modify]
        cases l[j]? with
        | none => rfl
        | some y => by_cases e : i = j <;> simp [e]
      cases hok : e.ok with
      | true =>
        simp only [if_true]
        have := inv_modify (f := fun x => { x with tls := x.tls || e.tls, timeout := e.now + c.idle }) hg h hi hx
          (by omega) hnew (fun _ => rfl) (by unfold effect; rw [hev]; dsimp only; rw [hk, hok]) hnone
        simpa [serve, watchdog, hok, comp, hmk] using this
      | false =>
        simp only [Bool.false_eq_true, if_false]
        have := inv_modify (f := fun x => { x with tls := false, mark := true }) hg h hi hx
          (by omega) hnew (fun _ => rfl) (by unfold effect; rw [hev]; dsimp only; rw [hk, hok]) hnone
        simpa [serve, markAt, hok, comp] using this

end Knot.Fdset
