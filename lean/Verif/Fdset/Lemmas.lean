import Verif.Fdset.Spec
import Mathlib.Data.List.Basic
/-! # Removal of items, commit and sweep -/
namespace Knot.Fdset

/-- The kernel has the right indices. -/
def RegOk (s : S) : Prop := ∀ fd i, s.reg fd = some i ↔ (s.arr[i]?).map (·.fd) = some fd

theorem regOk_inj {s : S} (h : RegOk s) {i j : Nat} {x y : Conn} (hi : s.arr[i]? = some x)
    (hj : s.arr[j]? = some y) (hxy : x.fd = y.fd) : i = j := by
  have h1 := (h x.fd i).2 (by simp [hi])
  have h2 := (h x.fd j).2 (by simp [hj, hxy])
  rw [h1] at h2
  exact Option.some.inj h2

/-- The list after the removal of the item at `k`. -/
def moved (l : List Conn) (k : Nat) : List Conn :=
  match l.getLast? with
  | some x => (l.set k x).dropLast
  | none => l

theorem moved_get {l : List Conn} {k i : Nat} (hk : k < l.length) :
    (moved l k)[i]? = if i < l.length - 1 then (if i = k then l.getLast? else l[i]?) else none := by
  unfold moved
  have hne : l ≠ [] := by rintro rfl; simp at hk
  rw [List.getLast?_eq_some_getLast hne]
  dsimp only
  rw [List.getElem?_dropLast]
  simp only [List.length_set]
  grind

theorem moved_perm {l : List Conn} {k : Nat} (hk : k < l.length) :
    (moved l k).take k = l.take k ∧ ((moved l k).drop k).Perm (l.drop (k + 1)) := by
  obtain ⟨l1, c, l2, rfl, hlen⟩ : ∃ l1 c l2, l = l1 ++ c :: l2 ∧ l1.length = k :=
    ⟨l.take k, l[k], l.drop (k + 1), by simp, by simp; omega⟩
  subst hlen
  rcases List.eq_nil_or_concat l2 with rfl | ⟨l3, x, rfl⟩
  · have : moved (l1 ++ [c]) l1.length = l1 := by simp [moved]
    rw [this]
    simp
  · have : moved (l1 ++ c :: (l3 ++ [x])) l1.length = l1 ++ x :: l3 := by
      have h1 : (l1 ++ c :: (l3 ++ [x])).getLast? = some x := by
        rw [show l1 ++ c :: (l3 ++ [x]) = (l1 ++ c :: l3) ++ [x] from by simp]
        exact List.getLast?_concat
      simp only [moved, h1]
      rw [List.set_append_right _ _ (Nat.le_refl _)]
      simp only [Nat.sub_self, List.set_cons_zero]
      rw [show l1 ++ x :: (l3 ++ [x]) = (l1 ++ x :: l3) ++ [x] from by simp]
      exact List.dropLast_concat
    rw [List.concat_eq_append, this]
    refine ⟨by simp, ?_⟩
    have e1 : (l1 ++ x :: l3).drop l1.length = x :: l3 := by simp
    have e2 : (l1 ++ c :: (l3 ++ [x])).drop (l1.length + 1) = l3 ++ [x] := by
      rw [← List.drop_drop]; simp
    rw [e1, e2]
    exact (List.perm_append_singleton x l3).symm

theorem moved_length {l : List Conn} {k : Nat} (hk : k < l.length) : (moved l k).length = l.length - 1 := by
  have hne : l ≠ [] := by rintro rfl; simp at hk
  unfold moved
  rw [List.getLast?_eq_some_getLast hne]
  simp

theorem moved_perm_all {l : List Conn} {k : Nat} {c : Conn} (hk : l[k]? = some c) :
    l.Perm (c :: moved l k) := by
  obtain ⟨hlt, hc⟩ := List.getElem?_eq_some_iff.1 hk
  obtain ⟨h1, h2⟩ := moved_perm hlt
  have e : l = l.take k ++ c :: l.drop (k + 1) := by rw [← hc]; simp
  have e2 : moved l k = l.take k ++ (moved l k).drop k := by rw [← h1]; simp
  rw [e2]
  conv => lhs; rw [e]
  refine List.perm_middle.trans ?_
  exact List.Perm.cons _ (List.Perm.append_left _ h2.symm)

theorem remove_spec {s : S} {k : Nat} {c : Conn} (h : RegOk s) (hk : s.arr[k]? = some c) :
    (remove s k).arr = moved s.arr k ∧ RegOk (remove s k) ∧
    (remove s k).log = s.log ++ [(c.fd, c.tls)] ∧ (remove s k).opn = s.opn.erase c.fd := by
  obtain ⟨hlt, _⟩ := List.getElem?_eq_some_iff.1 hk
  have hne : s.arr ≠ [] := by intro h0; rw [h0] at hlt; simp at hlt
  have hreg : s.reg c.fd = some k := (h c.fd k).2 (by simp [hk])
  obtain ⟨l, hl⟩ : ∃ l, s.arr.getLast? = some l := ⟨_, List.getLast?_eq_some_getLast hne⟩
  have hlast : s.arr[s.arr.length - 1]? = some l := by rw [← List.getLast?_eq_getElem?]; exact hl
  have hregl : s.reg l.fd = some (s.arr.length - 1) := (h l.fd _).2 (by simp [hlast])
  have hmv : moved s.arr k = (s.arr.set k l).dropLast := by unfold moved; rw [hl]
  have hget := fun i => moved_get (i := i) hlt
  rw [hmv] at hget ⊢
  unfold remove
  rw [hk, hl]
  dsimp only
  rw [hreg]
  simp only [Option.isNone_some, Bool.false_eq_true, if_false, closeFd]
  by_cases hlt2 : k < s.arr.length - 1
  · simp only [hlt2, if_true]
    have hne2 : l.fd ≠ c.fd := by
      intro he
      have := regOk_inj h hlast hk he
      omega
    have : (put s.reg c.fd none l.fd).isNone = false := by simp [put, hne2, hregl]
    simp only [this, Bool.false_eq_true, if_false, true_and]
    refine ⟨?_, trivial⟩
    intro fd i
    dsimp only
    rw [hget i, hl]
    have hi := h fd i
    have hinj : ∀ j y, s.arr[j]? = some y → y.fd = l.fd → j = s.arr.length - 1 :=
      fun j y hj he => regOk_inj h hj hlast he
    have hinj2 : ∀ j y, s.arr[j]? = some y → y.fd = c.fd → j = k :=
      fun j y hj he => regOk_inj h hj hk he
    simp only [put]
    by_cases e1 : fd = l.fd
    · subst e1
      simp only [if_true, Option.some.injEq]
      by_cases e2 : i = k
      · subst e2; simp [hlt2]
      · constructor
        · intro h0; exact absurd h0.symm e2
        · intro h0
          by_cases e3 : i < s.arr.length - 1
          · rw [if_pos e3, if_neg e2] at h0
            obtain ⟨y, hy, hyf⟩ := Option.map_eq_some_iff.1 h0
            have := hinj i y hy hyf
            omega
          · rw [if_neg e3] at h0; simp at h0
    · rw [if_neg e1]
      by_cases e2 : fd = c.fd
      · subst e2
        simp only [if_true]
        constructor
        · intro h0; cases h0
        · intro h0
          by_cases e3 : i < s.arr.length - 1
          · rw [if_pos e3] at h0
            by_cases e4 : i = k
            · rw [if_pos e4] at h0
              simp only [Option.map_some, Option.some.injEq] at h0
              exact absurd h0.symm e1
            · rw [if_neg e4] at h0
              obtain ⟨y, hy, hyf⟩ := Option.map_eq_some_iff.1 h0
              exact absurd (hinj2 i y hy hyf) e4
          · rw [if_neg e3] at h0; simp at h0
      · rw [if_neg e2, hi]
        by_cases e3 : i < s.arr.length - 1
        · rw [if_pos e3]
          by_cases e4 : i = k
          · rw [if_pos e4]
            subst e4
            rw [hk]
            simp only [Option.map_some, Option.some.injEq]
            constructor
            · intro h0; exact absurd h0.symm e2
            · intro h0; exact absurd h0.symm e1
          · rw [if_neg e4]
        · rw [if_neg e3]
          constructor
          · intro h0
            obtain ⟨y, hy, hyf⟩ := Option.map_eq_some_iff.1 h0
            obtain ⟨hil, _⟩ := List.getElem?_eq_some_iff.1 hy
            have e5 : i = s.arr.length - 1 := by omega
            subst e5
            rw [hlast] at hy
            cases hy
            exact absurd hyf.symm e1
          · intro h0; simp at h0
  · simp only [hlt2, if_false]
    have hk2 : k = s.arr.length - 1 := by omega
    refine ⟨trivial, ?_, trivial, trivial⟩
    intro fd i
    dsimp only
    rw [hget i]
    have hi := h fd i
    have hinj2 : ∀ j y, s.arr[j]? = some y → y.fd = c.fd → j = k :=
      fun j y hj he => regOk_inj h hj hk he
    simp only [put]
    by_cases e2 : fd = c.fd
    · subst e2
      simp only [if_true]
      constructor
      · intro h0; cases h0
      · intro h0
        by_cases e3 : i < s.arr.length - 1
        · rw [if_pos e3] at h0
          rw [if_neg (by omega)] at h0
          obtain ⟨y, hy, hyf⟩ := Option.map_eq_some_iff.1 h0
          have := hinj2 i y hy hyf
          omega
        · rw [if_neg e3] at h0; simp at h0
    · rw [if_neg e2, hi]
      by_cases e3 : i < s.arr.length - 1
      · rw [if_pos e3, if_neg (by omega)]
      · rw [if_neg e3]
        constructor
        · intro h0
          obtain ⟨y, hy, hyf⟩ := Option.map_eq_some_iff.1 h0
          obtain ⟨hil, _⟩ := List.getElem?_eq_some_iff.1 hy
          have e5 : i = k := by omega
          subst e5
          rw [hk] at hy
          cases hy
          exact absurd hyf.symm e2
        · intro h0; simp at h0

theorem remove_length {s : S} {k : Nat} {c : Conn} (h : RegOk s) (hk : s.arr[k]? = some c) :
    (remove s k).arr.length = s.arr.length - 1 := by
  rw [(remove_spec h hk).1]
  exact moved_length (List.getElem?_eq_some_iff.1 hk).1

/-- The relation of the set before and after a number of removals of `gone`: the rest is kept, each removed one closed
once. -/
structure Cut (thr : Nat) (s s' : S) (gone : List Conn) : Prop where
  reg : RegOk s'
  perm : s.arr.Perm (gone ++ s'.arr)
  first : s'.arr.take thr = s.arr.take thr
  len : thr ≤ s.arr.length → thr ≤ s'.arr.length
  log : s'.log = s.log ++ gone.map (fun c => (c.fd, c.tls))
  opn : s'.opn = gone.foldl (fun o c => o.erase c.fd) s.opn

theorem Cut.refl {thr : Nat} {s : S} (h : RegOk s) : Cut thr s s [] :=
  ⟨h, by simp, rfl, id, by simp, rfl⟩

theorem Cut.trans {thr : Nat} {s s' s'' : S} {g g' : List Conn} (h : Cut thr s s' g) (h' : Cut thr s' s'' g') :
    Cut thr s s'' (g ++ g') := by
  refine ⟨h'.reg, ?_, h'.first.trans h.first, fun x => h'.len (h.len x), ?_, ?_⟩
  · rw [List.append_assoc]
    exact h.perm.trans (List.Perm.append_left _ h'.perm)
  · rw [h'.log, h.log]; simp
  · rw [h'.opn, h.opn]; simp

theorem cut_remove {thr : Nat} {s : S} {k : Nat} {c : Conn} (h : RegOk s) (hk : s.arr[k]? = some c) (ht : thr ≤ k) :
    Cut thr s (remove s k) [c] := by
  obtain ⟨h1, h2, h3, h4⟩ := remove_spec h hk
  obtain ⟨hlt, _⟩ := List.getElem?_eq_some_iff.1 hk
  refine ⟨h2, ?_, ?_, ?_, by simpa using h3, by simpa using h4⟩
  · rw [h1]; simpa using moved_perm_all hk
  · rw [h1]
    have := (moved_perm hlt).1
    calc (moved s.arr k).take thr = ((moved s.arr k).take k).take thr := by
          rw [List.take_take, Nat.min_eq_left ht]
      _ = (s.arr.take k).take thr := by rw [this]
      _ = s.arr.take thr := by rw [List.take_take, Nat.min_eq_left ht]
  · intro _
    rw [h1, moved_length hlt]; omega

/-- Commit removes exactly the marked items. -/
theorem commit_spec (thr : Nat) : ∀ (k : Nat) (s : S) (d : Nat), RegOk s →
    (∀ i x, k ≤ i → s.arr[i]? = some x → x.mark = false) →
    (∀ i x, i < thr → s.arr[i]? = some x → x.mark = false) →
    d = s.arr.countP (·.mark) → k ≤ s.arr.length →
    ∃ gone, (commit k s d).2 = 0 ∧ Cut thr s (commit k s d).1 gone ∧ (∀ x ∈ gone, x.mark = true) ∧
      (∀ x ∈ (commit k s d).1.arr, x.mark = false)
  | 0, s, d, h, hm, ht, hd, hl => by
    have hall : ∀ x ∈ s.arr, x.mark = false := by
      intro x hx
      obtain ⟨i, hi⟩ := List.mem_iff_getElem?.1 hx
      exact hm i x (Nat.zero_le _) hi
    refine ⟨[], ?_, Cut.refl h, by simp, hall⟩
    show d = 0
    rw [hd, List.countP_eq_zero]
    intro x hx; rw [hall x hx]; simp
  | k + 1, s, d, h, hm, ht, hd, hl => by
    unfold commit
    by_cases h0 : d = 0
    · rw [if_pos h0]
      refine ⟨[], h0, Cut.refl h, by simp, ?_⟩
      intro x hx
      rw [h0] at hd
      have := List.countP_eq_zero.1 hd.symm x hx
      simpa using this
    · rw [if_neg h0]
      obtain ⟨c, hc⟩ : ∃ c, s.arr[k]? = some c := ⟨s.arr[k], List.getElem?_eq_getElem (by omega)⟩
      rw [hc]
      simp only [Option.any_some]
      by_cases hmk : c.mark = true
      · rw [if_pos hmk]
        have htk : thr ≤ k := by
          apply Nat.le_of_not_lt
          intro hlt
          have := ht k c hlt hc
          rw [hmk] at this; cases this
        have hcut := cut_remove (thr := thr) h hc htk
        obtain ⟨h1, h2, h3, h4⟩ := remove_spec h hc
        obtain ⟨gone, g1, g2, g3, g4⟩ := commit_spec thr k (remove s k) (d - 1) h2
          (by
            intro i x hi hx
            rw [h1, moved_get (by omega)] at hx
            by_cases e : i < s.arr.length - 1
            · rw [if_pos e] at hx
              by_cases e2 : i = k
              · rw [if_pos e2, List.getLast?_eq_getElem?] at hx
                exact hm _ x (by omega) hx
              · rw [if_neg e2] at hx
                exact hm i x (by omega) hx
            · rw [if_neg e] at hx; cases hx)
          (by
            intro i x hi hx
            have : (remove s k).arr.take thr = s.arr.take thr := hcut.first
            have e := congrArg (fun l => l[i]?) this
            try dsimp only at e
            rw [List.getElem?_take_of_lt hi, List.getElem?_take_of_lt hi] at e
            rw [e] at hx
            exact ht i x hi hx)
          (by
            have := hcut.perm.countP_eq (·.mark)
            simp only [List.cons_append, List.nil_append, List.countP_cons, hmk, if_true] at this
            omega)
          (by rw [h1, moved_length (by omega)]; omega)
        refine ⟨[c] ++ gone, g1, hcut.trans g2, ?_, g4⟩
        intro x hx
        rcases List.mem_append.1 hx with hx | hx
        · rw [List.mem_singleton.1 hx]; exact hmk
        · exact g3 x hx
      · rw [if_neg hmk]
        exact commit_spec thr k s d h
          (by
            intro i x hi hx
            by_cases e : i = k
            · subst e; rw [hc] at hx; cases hx; simpa using hmk
            · exact hm i x (by omega) hx)
          ht hd (by omega)

theorem regOk_modify {s : S} (h : RegOk s) (k : Nat) (f : Conn → Conn) (hf : ∀ c, (f c).fd = c.fd) :
    RegOk { s with arr := s.arr.modify k f } := by
  intro fd i
  rw [h fd i]
  dsimp only
  rw [List.getElem?_modify]
  cases s.arr[i]? with
  | none => simp
  | some x =>
    by_cases e : k = i
    · simp [e, hf]
    · simp [e]

/-- The sweep of the last `k` items. -/
theorem sweepLoop_spec (thr now : Nat) : ∀ (k : Nat) (s : S), RegOk s → k ≤ s.arr.length →
    (∀ i x, i < thr → s.arr[i]? = some x → ¬ Expired now x) →
    ∃ s', sweepLoop now k s = some s' ∧ RegOk s' ∧
      s'.arr.take (s.arr.length - k) = s.arr.take (s.arr.length - k) ∧
      (s'.arr.drop (s.arr.length - k)).Perm
        ((s.arr.drop (s.arr.length - k)).filter (fun c => decide (¬ Expired now c))) ∧
      s'.arr.take thr = s.arr.take thr ∧ (thr ≤ s.arr.length → thr ≤ s'.arr.length) ∧
      ∃ gone : List Nat, gone.Perm (((s.arr.drop (s.arr.length - k)).filter (fun c => decide (Expired now c))).map (·.fd)) ∧
        s'.log = s.log ++ gone.map (fun fd => (fd, false)) ∧ s'.opn = gone.foldl List.erase s.opn
  | 0, s, h, _, _ => by
    refine ⟨s, rfl, h, rfl, by simp, rfl, id, [], by simp, by simp, rfl⟩
  | k + 1, s, h, hk, ht => by
    unfold sweepLoop
    dsimp only
    generalize hidx : s.arr.length - (k + 1) = idx
    obtain ⟨c, hc⟩ : ∃ c, s.arr[idx]? = some c := ⟨s.arr[idx]'(by omega), List.getElem?_eq_getElem (by omega)⟩
    obtain ⟨hlt, hcc⟩ := List.getElem?_eq_some_iff.1 hc
    have hdrop : s.arr.drop idx = c :: s.arr.drop (idx + 1) := by rw [List.drop_eq_getElem_cons hlt, hcc]
    rw [hc]
    simp only [Option.any_some]
    by_cases hx : Expired now c
    · have hx' : decide (0 < c.timeout ∧ c.timeout ≤ now) = true := decide_eq_true hx
      rw [if_pos hx']
      have htk : thr ≤ idx := Nat.le_of_not_lt fun hlt2 => ht idx c hlt2 hc hx
      generalize hs1 : ({ s with arr := s.arr.modify idx (fun c => { c with tls := false }) } : S) = s1
      have hr1 : RegOk s1 := by rw [← hs1]; exact regOk_modify h idx _ (fun _ => rfl)
      have ha1 : s1.arr = s.arr.modify idx (fun c => { c with tls := false }) := by rw [← hs1]
      have hl1 : s1.arr.length = s.arr.length := by rw [ha1]; simp
      have ht1 : s1.arr.take idx = s.arr.take idx := by
        rw [ha1]; apply List.ext_getElem?; intro i
        by_cases e : i < idx
        · rw [List.getElem?_take_of_lt e, List.getElem?_take_of_lt e, List.getElem?_modify]
          have e' : idx ≠ i := by omega
          simp [e']
        · simp [List.getElem?_take, e]
      have hd1 : s1.arr.drop (idx + 1) = s.arr.drop (idx + 1) := by
        rw [ha1]; apply List.ext_getElem?; intro i
        rw [List.getElem?_drop, List.getElem?_drop, List.getElem?_modify]
        have e' : idx ≠ idx + 1 + i := by omega
        simp only [e', if_false]
        simp
      have hc1 : s1.arr[idx]? = some { c with tls := false } := by
        rw [ha1, List.getElem?_modify_eq, hc]; rfl
      obtain ⟨h1, h2, h3, h4⟩ := remove_spec hr1 hc1
      have hlen := remove_length hr1 hc1
      rw [if_neg (by omega)]
      obtain ⟨m1, m2⟩ := moved_perm (l := s1.arr) (k := idx) (by omega)
      have htake : (remove s1 idx).arr.take idx = s.arr.take idx := by rw [h1, m1, ht1]
      have htake2 : ∀ j, j ≤ idx → (remove s1 idx).arr.take j = s.arr.take j := by
        intro j hj
        have := congrArg (List.take j) htake
        simpa [List.take_take, Nat.min_eq_left hj] using this
      obtain ⟨s', g1, g2, g3, g4, g5, g6, gone, g7, g8, g9⟩ := sweepLoop_spec thr now k (remove s1 idx) h2
        (by omega)
        (by
          intro i x hi hx2
          have e := congrArg (fun l => l[i]?) (htake2 thr htk)
          try dsimp only at e
          rw [List.getElem?_take_of_lt hi, List.getElem?_take_of_lt hi] at e
          rw [e] at hx2
          exact ht i x hi hx2)
      have e1 : (remove s1 idx).arr.length - k = idx := by omega
      rw [e1] at g3 g4 g7
      have hp : ((remove s1 idx).arr.drop idx).Perm (s.arr.drop (idx + 1)) := by
        rw [h1, ← hd1]; exact m2
      refine ⟨s', g1, g2, g3.trans htake, ?_, g5.trans (htake2 thr htk), ?_, c.fd :: gone, ?_, ?_, ?_⟩
      · rw [hdrop, List.filter_cons_of_neg (by simpa using hx)]
        exact g4.trans (hp.filter _)
      · intro _
        exact g6 (by omega)
      · rw [hdrop, List.filter_cons_of_pos (by simpa using hx)]
        exact List.Perm.cons _ (g7.trans ((hp.filter _).map _))
      · rw [g8, h3, ← hs1]; simp
      · rw [g9, h4, ← hs1]; rfl
    · have hx' : decide (0 < c.timeout ∧ c.timeout ≤ now) = false := decide_eq_false hx
      simp only [hx', Bool.false_eq_true, if_false]
      obtain ⟨s', g1, g2, g3, g4, g5, g6, gone, g7, g8, g9⟩ := sweepLoop_spec thr now k s h (by omega) ht
      have e1 : s.arr.length - k = idx + 1 := by omega
      rw [e1] at g3 g4 g7
      have g3' : s'.arr.take idx = s.arr.take idx := by
        have := congrArg (List.take idx) g3
        simpa [List.take_take] using this
      have hget : s'.arr[idx]? = some c := by
        have e := congrArg (fun l => l[idx]?) g3
        try dsimp only at e
        rw [List.getElem?_take_of_lt (by omega), List.getElem?_take_of_lt (by omega)] at e
        rw [e, hc]
      obtain ⟨hlt', hcc'⟩ := List.getElem?_eq_some_iff.1 hget
      refine ⟨s', g1, g2, g3', ?_, g5, g6, gone, ?_, g8, g9⟩
      · rw [hdrop, List.filter_cons_of_pos (by simpa using hx), List.drop_eq_getElem_cons hlt', hcc']
        exact List.Perm.cons _ g4
      · rw [hdrop, List.filter_cons_of_neg (by simpa using hx)]
        exact g7

end Knot.Fdset
