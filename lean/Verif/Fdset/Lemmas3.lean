import Verif.Fdset.Lemmas2
import Mathlib.Data.List.Nodup
/-! # Rounds and sweeps keep the set and the kernel in step -/
namespace Knot.Fdset

theorem handle_full {c : Conf} {st : S × Nat} {x : Nat × Ev} (h : c.max ≤ st.1.arr.length) :
    (handle c st x).1.arr.length = st.1.arr.length ∧ (x.1 < c.thr → handle c st x = st) := by
  obtain ⟨i, e⟩ := x
  unfold handle
  dsimp only
  cases e.kind with
  | error =>
    simp only []
    by_cases h1 : c.thr ≤ i
    · rw [if_pos h1]
      exact ⟨by simp [markAt], fun h2 => absurd h2 (by omega)⟩
    · rw [if_neg h1]; exact ⟨rfl, fun _ => rfl⟩
  | other => exact ⟨rfl, fun _ => rfl⟩
  | pollin =>
    simp only []
    by_cases h1 : i < c.thr
    · rw [if_pos h1, if_neg (by omega)]; exact ⟨rfl, fun _ => rfl⟩
    · rw [if_neg h1]
      refine ⟨?_, fun h2 => absurd h2 h1⟩
      cases e.ok <;> simp [serve, markAt, watchdog] <;> split <;> simp

theorem throttle {c : Conf} : ∀ (L : List (Nat × Ev)) (st : S × Nat), c.max ≤ st.1.arr.length →
    (L.filter (fun x => decide (c.thr ≤ x.1))).foldl (handle c) st = L.foldl (handle c) st
  | [], _, _ => rfl
  | x :: L, st, h => by
    obtain ⟨h1, h2⟩ := handle_full (x := x) h
    rw [List.foldl_cons]
    by_cases hx : c.thr ≤ x.1
    · rw [List.filter_cons_of_pos (by simpa using hx), List.foldl_cons]
      exact throttle L _ (by omega)
    · rw [List.filter_cons_of_neg (by simpa using hx), h2 (by omega)]
      exact throttle L st h

theorem inv_loop {c : Conf} {s0 : S} {evs : List Ev} (hg : Good s0) (hf : Fits s0 evs) :
    ∀ (rest done : List Ev) (st : S × Nat), done ++ rest = evs → Inv c s0 done st →
      Inv c s0 evs ((rest.filterMap (fun e => (s0.reg e.fd).map (fun i => (i, e)))).foldl (handle c) st)
  | [], done, st, he, h => by
    rw [List.append_nil] at he; subst he; exact h
  | e :: rest, done, st, he, h => by
    have hmem : e ∈ evs := by rw [← he]; simp
    obtain ⟨x, hx, hxf⟩ := hf.known e hmem
    obtain ⟨i, hi⟩ := List.mem_iff_getElem?.1 hx
    have hreg : s0.reg e.fd = some i := (hg.reg e.fd i).2 (by simp [hi, hxf])
    rw [List.filterMap_cons, hreg]
    simp only [Option.map_some, List.foldl_cons]
    refine inv_loop hg hf rest (done ++ [e]) _ (by simpa using he) (inv_step hg h hi hxf ?_ ?_)
    · intro d hd heq
      have := hf.nodup
      rw [← he, List.map_append, List.map_cons] at this
      have h2 := List.nodup_append.1 this
      exact h2.2.2 d.fd (List.mem_map_of_mem hd) e.fd (by simp) heq
    · intro fd ok hcl
      obtain ⟨h1, h2⟩ := hf.fresh e hmem fd ok hcl
      refine ⟨h2, h1, ?_⟩
      intro hd
      have := hf.once
      rw [← he, List.filterMap_append, List.filterMap_cons] at this
      simp only [hcl, Option.map_some] at this
      have h3 := List.nodup_append.1 this
      exact h3.2.2 fd hd fd (by simp) rfl

theorem inv_start {c : Conf} {s : S} (hg : Good s) : Inv c s [] (s, 0) := by
  refine ⟨?_, ?_, hg.reg, rfl, hg.opn, hg.nodup⟩
  · have : (s.arr.drop c.thr).map (effect c.idle []) = s.arr.drop c.thr := by
      conv => rhs; rw [← List.map_id (s.arr.drop c.thr)]
      exact List.map_congr_left fun x _ => effect_not (by simp)
    simp [accepted, this]
  · symm
    rw [List.countP_eq_zero]
    intro x hx; simp [hg.marks x hx]

theorem inv_events {c : Conf} {s : S} {evs : List Ev} (hg : Good s) (hf : Fits s evs) :
    Inv c s evs ((events s (if s.arr.length = c.max then c.thr else 0) evs).foldl (handle c) (s, 0)) := by
  have h := inv_loop hg hf evs [] (s, 0) rfl (inv_start (c := c) hg)
  unfold events
  by_cases hm : s.arr.length = c.max
  · rw [if_pos hm, throttle _ _ (by dsimp only; omega)]
    exact h
  · rw [if_neg hm]
    simp only [Nat.zero_le, decide_true, List.filter_true]
    exact h

theorem mem_foldl_erase : ∀ (g o : List Nat), o.Nodup →
    (g.foldl List.erase o).Nodup ∧ ∀ fd, fd ∈ g.foldl List.erase o ↔ fd ∈ o ∧ fd ∉ g
  | [], o, h => ⟨h, by simp⟩
  | x :: g, o, h => by
    obtain ⟨h1, h2⟩ := mem_foldl_erase g (o.erase x) (h.erase x)
    refine ⟨h1, fun fd => ?_⟩
    rw [List.foldl_cons, h2, h.mem_erase_iff, List.mem_cons]
    tauto

theorem regOk_nodup {s : S} (h : RegOk s) : (s.arr.map (·.fd)).Nodup := by
  refine List.nodup_iff_getElem?_ne_getElem?.2 ?_
  intro i j hij hj he
  rw [List.getElem?_map, List.getElem?_map] at he
  rw [List.length_map] at hj
  have hjj : s.arr[j]? = some s.arr[j] := List.getElem?_eq_getElem hj
  have hii : s.arr[i]? = some (s.arr[i]'(by omega)) := List.getElem?_eq_getElem (by omega)
  rw [hii, hjj] at he
  have := regOk_inj h hii hjj (by simpa using he)
  omega

/-- Closing of the items `gone`. -/
theorem good_of {s s' : S} {gone : List Nat} (hreg : RegOk s) (hopn : ∀ fd, fd ∈ s.opn ↔ ∃ c ∈ s.arr, c.fd = fd)
    (hn : s.opn.Nodup) (hreg' : RegOk s') (hp : (s.arr.map (·.fd)).Perm (gone ++ s'.arr.map (·.fd)))
    (ho : s'.opn = gone.foldl List.erase s.opn) (hm : ∀ c ∈ s'.arr, c.mark = false) : Good s' := by
  obtain ⟨h1, h2⟩ := mem_foldl_erase gone s.opn hn
  refine ⟨hreg', ?_, by rw [ho]; exact h1, hm⟩
  intro fd
  have k2 : ∀ l : List Conn, (∃ x ∈ l, x.fd = fd) ↔ fd ∈ l.map (·.fd) := by intro l; simp
  have hnd := hp.nodup_iff.1 (regOk_nodup hreg)
  have h3 := List.nodup_append.1 hnd
  rw [ho, h2, hopn, k2, k2, hp.mem_iff, List.mem_append]
  constructor
  · rintro ⟨h4 | h4, h5⟩
    · exact absurd h4 h5
    · exact h4
  · intro h4
    exact ⟨Or.inr h4, fun h5 => h3.2.2 fd h5 fd h4 rfl⟩

theorem foldl_erase_map (gone : List Conn) (o : List Nat) :
    gone.foldl (fun o c => o.erase c.fd) o = (gone.map (·.fd)).foldl List.erase o := by
  rw [List.foldl_map]

theorem filter_effect {idle : Nat} {evs : List Ev} : ∀ (l : List Conn), (∀ x ∈ l, x.mark = false) →
    (l.map (effect idle evs)).filter (fun x => !x.mark) = l.filterMap (after idle evs) ∧
    ((l.map (effect idle evs)).filter (·.mark)).map (fun x => (x.fd, x.tls)) =
      (l.filter (fun x => (after idle evs x).isNone)).map (fun x => (x.fd, false))
  | [], _ => ⟨rfl, rfl⟩
  | x :: l, h => by
    obtain ⟨h1, h2⟩ := filter_effect (idle := idle) (evs := evs) l fun y hy => h y (List.mem_cons_of_mem _ hy)
    have hx := h x (List.mem_cons_self ..)
    have ha := effect_after (idle := idle) (evs := evs) hx
    have ht := effect_marked_tls (idle := idle) (evs := evs) hx
    rw [List.map_cons, List.filterMap_cons]
    cases hm : (effect idle evs x).mark with
    | true =>
      rw [hm, if_pos rfl] at ha
      rw [ha, List.filter_cons_of_neg (by simp [hm]), List.filter_cons_of_pos (by simp [hm]),
        List.filter_cons_of_pos (by simp [ha])]
      refine ⟨h1, ?_⟩
      rw [List.map_cons, List.map_cons, h2, ht hm, effect_fd]
    | false =>
      rw [hm, if_neg (by simp)] at ha
      rw [ha, List.filter_cons_of_pos (by simp [hm]), List.filter_cons_of_neg (by simp [hm]),
        List.filter_cons_of_neg (by simp [ha])]
      exact ⟨by rw [h1], h2⟩

/-- A round. -/
theorem wait_spec {c : Conf} {s : S} {evs : List Ev} (hg : Good s) (hf : Fits s evs) (hmax : s.arr.length ≤ c.max)
    (hthr : c.thr ≤ s.arr.length) :
    ∃ s', wait c s evs = some s' ∧ Good s' ∧ s'.arr.take c.thr = s.arr.take c.thr ∧ c.thr ≤ s'.arr.length ∧
      (s'.arr.drop c.thr).Perm ((s.arr.drop c.thr).filterMap (after c.idle evs) ++
        accepted c.max c.idle (s.arr.take c.thr) s.arr.length evs) ∧
      s'.arr.length ≤ c.max ∧
      ∃ gone : List Nat,
        gone.Perm (((s.arr.drop c.thr).filter (fun x => (after c.idle evs x).isNone)).map (·.fd)) ∧
        s'.log = s.log ++ gone.map (fun fd => (fd, false)) := by
  have hi := inv_events (c := c) hg hf
  have hw : wait c s evs =
      (let st := (events s (if s.arr.length = c.max then c.thr else 0) evs).foldl (handle c) (s, 0)
       if (commit st.1.arr.length st.1 st.2).2 = 0 then some (commit st.1.arr.length st.1 st.2).1 else none) := by
    unfold wait
    rw [if_neg (by omega)]
  rw [hw]
  generalize (events s (if s.arr.length = c.max then c.thr else 0) evs).foldl (handle c) (s, 0) = st at hi
  dsimp only
  have hlen : (s.arr.take c.thr).length = c.thr := by rw [List.length_take]; omega
  have hms : ∀ x ∈ s.arr.take c.thr, x.mark = false := fun x hx => hg.marks x (List.mem_of_mem_take hx)
  have hds : ∀ x ∈ s.arr.drop c.thr, x.mark = false := fun x hx => hg.marks x (List.mem_of_mem_drop hx)
  have hac : ∀ x ∈ accepted c.max c.idle (s.arr.take c.thr) s.arr.length evs, x.mark = false :=
    fun x hx => (accepted_fd _ _ _ hx).2.1
  obtain ⟨gone, g1, g2, g3, g4⟩ := commit_spec c.thr st.1.arr.length st.1 st.2 hi.reg
    (by intro i x hi2 hx; rw [List.getElem?_eq_none hi2] at hx; cases hx)
    (by
      intro i x hlt hx
      rw [hi.arr, List.append_assoc, List.getElem?_append_left (by omega)] at hx
      exact hms x (List.mem_of_getElem? hx))
    hi.dirty (Nat.le_refl _)
  rw [if_pos g1]
  obtain ⟨f1, f2⟩ := filter_effect (idle := c.idle) (evs := evs) (s.arr.drop c.thr) hds
  have filt1 : ∀ l : List Conn, (∀ x ∈ l, x.mark = false) → l.filter (fun x => !x.mark) = l := by
    intro l hl; rw [List.filter_eq_self]; intro x hx; simp [hl x hx]
  have filt2 : ∀ l : List Conn, (∀ x ∈ l, x.mark = false) → l.filter (·.mark) = [] := by
    intro l hl; rw [List.filter_eq_nil_iff]; intro x hx; simp [hl x hx]
  have hfirst : (commit st.1.arr.length st.1 st.2).1.arr.take c.thr = s.arr.take c.thr := by
    rw [g2.first, hi.arr, List.append_assoc, List.take_left' hlen]
  have hle : c.thr ≤ (commit st.1.arr.length st.1 st.2).1.arr.length := by
    apply g2.len
    rw [inv_length hi]; omega
  have hperm : (commit st.1.arr.length st.1 st.2).1.arr.Perm (s.arr.take c.thr ++
      ((s.arr.drop c.thr).filterMap (after c.idle evs) ++
        accepted c.max c.idle (s.arr.take c.thr) s.arr.length evs)) := by
    have h1 := g2.perm.filter (fun x => !x.mark)
    have e0 : gone.filter (fun x => !x.mark) = [] := List.filter_eq_nil_iff.2 (by intro x hx; simp [g3 x hx])
    rw [List.filter_append, filt1 _ g4, e0,
      List.nil_append, hi.arr, List.filter_append, List.filter_append, filt1 _ hms, f1, filt1 _ hac,
      List.append_assoc] at h1
    rw [hi.arr]
    exact h1.symm
  have hgone : gone.Perm (((s.arr.drop c.thr).map (effect c.idle evs)).filter (·.mark)) := by
    have h1 := g2.perm.filter (·.mark)
    have e0 : gone.filter (·.mark) = gone := List.filter_eq_self.2 (by intro x hx; simp [g3 x hx])
    rw [List.filter_append, filt2 _ g4, e0,
      List.append_nil, hi.arr, List.filter_append, List.filter_append, filt2 _ hms, filt2 _ hac,
      List.append_nil, List.nil_append] at h1
    exact h1.symm
  have hpd : ((commit st.1.arr.length st.1 st.2).1.arr.drop c.thr).Perm
      ((s.arr.drop c.thr).filterMap (after c.idle evs) ++
        accepted c.max c.idle (s.arr.take c.thr) s.arr.length evs) := by
    rw [← List.take_append_drop c.thr (commit st.1.arr.length st.1 st.2).1.arr, hfirst] at hperm
    exact (List.perm_append_left_iff _).1 hperm
  refine ⟨_, rfl, ?_, hfirst, hle, hpd, ?_, ?_⟩
  · refine good_of (gone := gone.map (·.fd)) hi.reg hi.opn hi.nodup g2.reg ?_ ?_ g4
    · rw [← List.map_append]; exact g2.perm.map _
    · rw [g2.opn, foldl_erase_map]
  · have h1 := hperm.length_eq
    have h2 := accepted_le (idle := c.idle) (ms := s.arr.take c.thr) evs s.arr.length hmax
    have h3 := List.length_filterMap_le (after c.idle evs) (s.arr.drop c.thr)
    simp only [List.length_append, List.length_drop, hlen] at h1 h3
    omega
  · have h1 := (hgone.map (fun x => (x.fd, x.tls)))
    rw [f2] at h1
    have h2 : (gone.map (fun x => (x.fd, x.tls))) = (gone.map (fun x => (x.fd, false))) := by
      apply List.map_congr_left
      intro x hx
      have := (hgone.map (fun x => (x.fd, x.tls))).mem_iff.1 (List.mem_map_of_mem hx)
      rw [f2] at this
      obtain ⟨y, _, hy⟩ := List.mem_map.1 this
      simp only [Prod.mk.injEq] at hy
      simp [← hy.2]
    rw [h2] at h1
    have h3 : (gone.map (·.fd)).Perm
        (((s.arr.drop c.thr).filter (fun x => (after c.idle evs x).isNone)).map (·.fd)) := by
      have := h1.map Prod.fst
      simpa [List.map_map, Function.comp_def] using this
    refine ⟨gone.map (·.fd), h3, ?_⟩
    rw [g2.log, hi.log, h2, List.map_map]
    rfl

/-- A sweep. -/
theorem sweep_spec {thr now : Nat} {s : S} (hg : Good s) (ht : ∀ x ∈ s.arr.take thr, ¬ Expired now x) :
    ∃ s', sweep now s = some s' ∧ Good s' ∧ s'.arr.take thr = s.arr.take thr ∧
      (thr ≤ s.arr.length → thr ≤ s'.arr.length) ∧
      s'.arr.Perm (s.arr.filter (fun c => decide (¬ Expired now c))) ∧
      ∃ gone : List Nat, gone.Perm ((s.arr.filter (fun c => decide (Expired now c))).map (·.fd)) ∧
        s'.log = s.log ++ gone.map (fun fd => (fd, false)) := by
  obtain ⟨s', h1, h2, _, h4, h5, h6, gone, h7, h8, h9⟩ := sweepLoop_spec thr now s.arr.length s hg.reg
    (Nat.le_refl _) (by
      intro i x hi hx
      apply ht x
      rw [List.mem_iff_getElem?]
      exact ⟨i, by rw [List.getElem?_take_of_lt hi]; exact hx⟩)
  simp only [Nat.sub_self, List.drop_zero] at h4 h7
  refine ⟨s', h1, ?_, h5, h6, h4, gone, h7, h8⟩
  refine good_of (gone := gone) hg.reg hg.opn hg.nodup h2 ?_ h9 ?_
  · have e1 : s.arr.Perm (s.arr.filter (fun c => decide (Expired now c)) ++
        s.arr.filter (fun c => decide (¬ Expired now c))) := by
      have := (List.filter_append_perm (fun c => decide (Expired now c)) s.arr).symm
      simpa using this
    refine (e1.map (·.fd)).trans ?_
    rw [List.map_append]
    exact List.Perm.append h7.symm (h4.map _).symm
  · intro c hc
    exact hg.marks c (List.mem_of_mem_filter (h4.mem_iff.1 hc))

theorem start_spec : ∀ (rest done : List (Nat × Nat)), ((done ++ rest).map (·.1)).Nodup → ∀ s : S, Good s →
    s.arr = done.map (fun m => ⟨m.1, m.2, false, 0, false⟩) →
    let s' := rest.foldl (fun s m => add { s with opn := m.1 :: s.opn } m.1 m.2 true) s
    Good s' ∧ s'.arr = (done ++ rest).map (fun m => ⟨m.1, m.2, false, 0, false⟩)
  | [], done, _, s, hg, ha => by simpa using ⟨hg, ha⟩
  | m :: rest, done, hn, s, hg, ha => by
    have hnot : ∀ y ∈ s.arr, y.fd ≠ m.1 := by
      intro y hy he
      rw [ha] at hy
      obtain ⟨d, hd, rfl⟩ := List.mem_map.1 hy
      rw [List.map_append, List.map_cons] at hn
      exact (List.nodup_append.1 hn).2.2 d.1 (List.mem_map_of_mem hd) m.1 (by simp) he
    have hg' : Good (add { s with opn := m.1 :: s.opn } m.1 m.2 true) := by
      refine ⟨?_, ?_, ?_, ?_⟩
      · intro f j
        simp only [add, if_true]
        unfold put
        have hr := hg.reg f j
        by_cases ef : f = m.1
        · subst ef
          simp only [if_true, Option.some.injEq]
          constructor
          · rintro rfl; simp
          · intro hj
            obtain ⟨y, hy, hyf⟩ := Option.map_eq_some_iff.1 hj
            by_cases e1 : j < s.arr.length
            · rw [List.getElem?_append_left e1] at hy
              exact absurd hyf (hnot y (List.mem_of_getElem? hy))
            · obtain ⟨h5, _⟩ := List.getElem?_eq_some_iff.1 hy
              simp at h5; omega
        · simp only [ef, if_false]
          rw [hr]
          by_cases e1 : j < s.arr.length
          · rw [List.getElem?_append_left e1]
          · rw [List.getElem?_append_right (by omega), List.getElem?_eq_none (by omega)]
            by_cases e2 : j = s.arr.length
            · subst e2
              have : m.1 ≠ f := fun h => ef h.symm
              simp [this]
            · rw [List.getElem?_eq_none (by simp; omega)]
      · intro f
        simp only [add]
        rw [List.mem_cons, hg.opn]
        constructor
        · rintro (rfl | ⟨y, hy, he⟩)
          · exact ⟨_, List.mem_append_right _ (List.mem_singleton.2 rfl), rfl⟩
          · exact ⟨y, List.mem_append_left _ hy, he⟩
        · rintro ⟨y, hy, he⟩
          rcases List.mem_append.1 hy with hy | hy
          · exact Or.inr ⟨y, hy, he⟩
          · rw [List.mem_singleton.1 hy] at he; exact Or.inl he.symm
      · simp only [add]
        refine List.nodup_cons.2 ⟨?_, hg.nodup⟩
        rw [hg.opn]
        rintro ⟨y, hy, he⟩
        exact hnot y hy he
      · intro c hc
        simp only [add] at hc
        rcases List.mem_append.1 hc with hc | hc
        · exact hg.marks c hc
        · rw [List.mem_singleton.1 hc]
    have := start_spec rest (done ++ [m]) (by simpa using hn) _ hg' (by simp [add, ha])
    rw [List.foldl_cons]
    simpa using this

/-- What holds in every life. -/
structure Ok (masters : List (Nat × Nat)) (c : Conf) (s : S) : Prop where
  thr : c.thr = masters.length
  good : Good s
  first : s.arr.take c.thr = masters.map (fun m => ⟨m.1, m.2, false, 0, false⟩)
  len : c.thr ≤ s.arr.length
  log : ∀ x ∈ s.log, x.2 = false ∧ x.1 ∉ masters.map (·.1)

theorem ok_not_expired {masters : List (Nat × Nat)} {c : Conf} {s : S} (h : Ok masters c s) (now : Nat) :
    ∀ x ∈ s.arr.take c.thr, ¬ Expired now x := by
  intro x hx
  rw [h.first] at hx
  obtain ⟨m, _, rfl⟩ := List.mem_map.1 hx
  intro h; exact absurd h.1 (by simp)

theorem wait_max {c : Conf} {s s' : S} {evs : List Ev} (h : wait c s evs = some s') : s.arr.length ≤ c.max := by
  unfold wait at h
  split at h
  · cases h
  · omega

theorem ok_client {masters : List (Nat × Nat)} {c : Conf} {s : S} (h : Ok masters c s) {x : Conn}
    (hx : x ∈ s.arr.drop c.thr) : x.fd ∉ masters.map (·.1) := by
  intro hm
  obtain ⟨m, hm, he⟩ := List.mem_map.1 hm
  have h1 : (⟨m.1, m.2, false, 0, false⟩ : Conn) ∈ s.arr.take c.thr := by
    rw [h.first]; exact List.mem_map.2 ⟨m, hm, rfl⟩
  obtain ⟨i, hi⟩ := List.mem_iff_getElem?.1 h1
  obtain ⟨j, hj⟩ := List.mem_iff_getElem?.1 hx
  rw [List.getElem?_drop] at hj
  rw [List.getElem?_take] at hi
  split at hi
  · have := regOk_inj h.good.reg hi hj he
    omega
  · cases hi

theorem life_ok {masters : List (Nat × Nat)} {c : Conf} {s : S} (h : Life masters c s) : Ok masters c s := by
  induction h with
  | start h1 h2 h3 =>
    obtain ⟨g1, g2⟩ := start_spec masters [] (by simpa using h3) ⟨[], fun _ => none, [], []⟩
      ⟨by simp, by simp, by simp, by simp⟩ rfl
    rw [List.nil_append] at g2
    have g2' : (start masters).arr = masters.map (fun m => ⟨m.1, m.2, false, 0, false⟩) := g2
    have g3 : ∀ (l : List (Nat × Nat)) (s : S),
        (l.foldl (fun s m => add { s with opn := m.1 :: s.opn } m.1 m.2 true) s).log = s.log := by
      intro l
      induction l with
      | nil => intro s; rfl
      | cons m l ih => intro s; rw [List.foldl_cons, ih]; rfl
    refine ⟨h1, g1, ?_, ?_, ?_⟩
    · rw [g2', h1, List.take_of_length_le (by simp)]
    · rw [g2', h1]; simp
    · intro x hx
      unfold start at hx
      rw [g3] at hx
      simp at hx
  | @wait c s s' evs _ hf hw ih =>
    obtain ⟨s2, h1, h2, h3, h4, _, _, gone, h7, h8⟩ := wait_spec ih.good hf (wait_max hw) ih.len
    rw [hw] at h1
    cases h1
    refine ⟨ih.thr, h2, h3.trans ih.first, h4, ?_⟩
    intro x hx
    rw [h8] at hx
    rcases List.mem_append.1 hx with hx | hx
    · exact ih.log x hx
    · obtain ⟨fd, hfd, rfl⟩ := List.mem_map.1 hx
      refine ⟨rfl, ?_⟩
      obtain ⟨y, hy, rfl⟩ := List.mem_map.1 (h7.mem_iff.1 hfd)
      exact ok_client ih (List.mem_of_mem_filter hy)
  | @sweep c s s' now _ hw ih =>
    obtain ⟨s2, h1, h2, h3, h4, h5, gone, h7, h8⟩ := sweep_spec (thr := c.thr) ih.good (ok_not_expired ih now)
    rw [hw] at h1
    cases h1
    refine ⟨ih.thr, h2, h3.trans ih.first, h4 ih.len, ?_⟩
    intro x hx
    rw [h8] at hx
    rcases List.mem_append.1 hx with hx | hx
    · exact ih.log x hx
    · obtain ⟨fd, hfd, rfl⟩ := List.mem_map.1 hx
      refine ⟨rfl, ?_⟩
      obtain ⟨y, hy, rfl⟩ := List.mem_map.1 (h7.mem_iff.1 hfd)
      obtain ⟨hy1, hy2⟩ := List.mem_filter.1 hy
      refine ok_client ih ?_
      rw [← List.take_append_drop c.thr s.arr] at hy1
      rcases List.mem_append.1 hy1 with hy1 | hy1
      · exact absurd (of_decide_eq_true hy2) (ok_not_expired ih now y hy1)
      · exact hy1
  | conf _ h1 ih => exact ⟨h1.trans ih.thr, ih.good, by rw [h1]; exact ih.first, by rw [h1]; exact ih.len, ih.log⟩

end Knot.Fdset
