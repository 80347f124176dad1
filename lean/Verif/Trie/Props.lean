import Verif.Trie.Lemmas6
/-!
# C12: the qp-trie is an ordered map

The specification is `Verif/Trie/Spec.lean`: a list of entries in ascending order of the keys.
-/
namespace Knot
open OrdMap (Op Out Move run step)
variable {V : Type}

namespace Trie

/-- What a caller of trie_get_leq(), src/contrib/qp-trie/trie.c:879-900, learns. -/
def leqOut : Leq V → Res (Option (Bool × OrdMap.Key × V))
  | .exact s => do
    let e ← itEntry s
    .ok (some (true, e))
  | .prev s => do
    let e ← itEntry s
    .ok (some (false, e))
  | .none => .ok none

/-- One movement of an iterator. -/
def itMove (s : Stk V) : Move → Res (Option (Stk V))
  | .next => itNext s
  | .prev => itPrev s
  | .nextLoop => itNextLoop s
  | .prevLoop => itPrevLoop s
  | .parent => itParent s

/-- The entry an iterator shows; a finished iterator (trie_it_finished(), src/contrib/qp-trie/trie.c:1053-1057) shows none. -/
def itShow : Option (Stk V) → Res (Option (Key × V))
  | none => .ok none
  | some s => do
    let e ← itEntry s
    .ok (some e)

/-- A movement of an iterator that may be finished. -/
def itMove? : Option (Stk V) → Move → Res (Option (Stk V))
  | none, _ => .ok none
  | some s, mv => itMove s mv

/-- Several movements. -/
def itMoves (s : Option (Stk V)) : List Move → Res (Option (Stk V))
  | [] => .ok s
  | mv :: mvs => do
    let s' ← itMove? s mv
    itMoves s' mvs

/-- Deletion at an iterator that may be finished. -/
def itDel? (tbl : Trie V) : Option (Stk V) → Res (Trie V × Out V)
  | none => .ok (tbl, .value none)
  | some s => do
    let e ← itEntry s
    let t ← itDel tbl.weight s
    .ok (t, .value (some e.2))

/-- The entries shown while an iterator makes the movements in turn. -/
def itTour (s : Option (Stk V)) : List Move → Res (List (Option (Key × V)))
  | [] => do
    let e ← itShow s
    .ok [e]
  | mv :: mvs => do
    let e ← itShow s
    let s' ← itMove? s mv
    let r ← itTour s' mvs
    .ok (e :: r)

/-- Walk forward from an iterator until it is finished, at most `fuel` steps. -/
def collect : Nat → Option (Stk V) → Res (List (Key × V))
  | _, none => .ok []
  | 0, some _ => .ub
  | fuel + 1, some s => do
    let e ← itEntry s
    let s' ← itNext s
    let r ← collect fuel s'
    .ok (e :: r)

/-- One call of the API. trie_weight() is src/contrib/qp-trie/trie.c:430-433. -/
def exec (tbl : Trie V) : Op V → Res (Trie V × Out V)
  | .put k w => do
    let t ← insWith tbl k w
    .ok (t, .done)
  | .del k => do
    let r ← del tbl k
    .ok (r.1, .value r.2)
  | .clear => .ok (clear tbl, .done)
  | .get k => do
    let v ← getTry tbl k
    .ok (tbl, .value v)
  | .floor k => do
    let l ← getLeq tbl k
    let e ← leqOut l
    .ok (tbl, .entry e)
  | .weight => .ok (tbl, .number tbl.weight)
  | .delAt mvs => do
    let s0 ← itBegin tbl
    let s ← itMoves s0 mvs
    itDel? tbl s

/-- A history of calls. -/
def execs (tbl : Trie V) : List (Op V) → Res (Trie V × List (Out V))
  | [] => .ok (tbl, [])
  | o :: os => do
    let r ← exec tbl o
    let r' ← execs r.1 os
    .ok (r'.1, r.2 :: r'.2)

/-- The keys of an operation are short enough for the 31-bit length. -/
def OpOk : Op V → Prop
  | .put k _ => k.length < 2147483648
  | _ => True

/-- The trie is the result of a history that makes the map `m` of the specification. -/
def Reach (tbl : Trie V) (m : List (Key × V)) : Prop :=
  ∃ ops outs, (∀ o ∈ ops, OpOk o) ∧ execs create ops = .ok (tbl, outs) ∧ m = (run [] ops).1

theorem entry_at {root : Node V} {s : Stk V} {k : Key} {v : V} (h : AtLeaf root s k v) : itEntry s = .ok (k, v) := by
  unfold itEntry; rw [h.1]

theorem entries_sorted {tbl : Trie V} (h : Inv tbl) : (entries tbl).Pairwise (fun a b => KLt a.1 b.1) := by
  rcases h.cases with ⟨_, he⟩ | ⟨_, hw, he, _⟩
  · rw [he]; exact List.Pairwise.nil
  · rw [he]; exact hw.sorted

theorem not_lt_of {a k : Key} (h : KLt a k) : ¬ KLt k a := KLt_asymm h

theorem floor_at {l r : List (Key × V)} {k key : Key} {v : V} (hk : ¬ KLt key k) (hl : ∀ e ∈ l, ¬ KLt key e.1) (hr : ∀ e ∈ r, KLt key e.1) :
    OrdMap.floor (l ++ (k, v) :: r) key = some (k == key, k, v) := by
  unfold OrdMap.floor
  have : l ++ (k, v) :: r = (l ++ [(k, v)]) ++ r := by simp
  rw [this, upTo_split key (l ++ [(k, v)]) r _ hr]
  · simp
  · intro e he
    rcases List.mem_append.mp he with he | he
    · exact hl e he
    · simp only [List.mem_singleton] at he; rw [he]; exact hk

theorem getLeq_spec {tbl : Trie V} (h : Inv tbl) (key : Key) :
    ∃ l, getLeq tbl key = .ok l ∧ leqOut l = .ok (OrdMap.floor (entries tbl) key) := by
  unfold getLeq
  rcases h.cases with ⟨h0, he⟩ | ⟨h0, hw, he, _⟩
  · rw [if_pos h0, he]; exact ⟨_, rfl, rfl⟩
  · rw [if_neg h0, he]
    have hs := hw.sorted
    rcases getLeqNode_spec hw key with ⟨s, v, e1, e2⟩ | ⟨s, k, v, e1, e2, e3, e4, e5⟩ | ⟨e1, e2⟩
    · refine ⟨_, e1, ?_⟩
      unfold leqOut
      simp only [entry_at e2, Res.bind_ok]
      rw [e2.toList] at hs ⊢
      have sd := sorted_sides hs
      rw [floor_at (KLt_irrefl key) (fun e he => KLt_asymm (sd.1 e he)) sd.2]
      simp
    · refine ⟨_, e1, ?_⟩
      unfold leqOut
      simp only [entry_at e2, Res.bind_ok]
      rw [e2.toList, floor_at (KLt_asymm e3) (fun e he => KLt_asymm (e4 e he)) e5]
      have : (k == key) = false := by
        rw [beq_eq_false_iff_ne]; intro hk; rw [hk] at e3; exact KLt_irrefl _ e3
      rw [this]
    · refine ⟨_, e1, ?_⟩
      unfold OrdMap.floor
      have := upTo_split key [] (toList tbl.root) (by simp) e2
      rw [List.nil_append] at this
      rw [this]
      rfl

theorem getTry_spec {tbl : Trie V} (h : Inv tbl) (key : Key) : getTry tbl key = .ok (OrdMap.lookup (entries tbl) key) := by
  unfold getTry
  rcases h.cases with ⟨h0, he⟩ | ⟨h0, hw, he, _⟩
  · rw [if_pos h0, he]; rfl
  · rw [if_neg h0, he]; exact getTryNode_spec hw key

theorem find_parent_none (n : Nat) (p : Nat → Bool) (h : ∀ j, j < n → p j = false) : (List.range n).reverse.find? p = none := by
  rw [List.find?_eq_none]
  intro x hx
  rw [List.mem_reverse, List.mem_range] at hx
  simp [h x hx]

theorem find_parent_some (n m : Nat) (p : Nat → Bool) (hm : m < n) (hp : p m = true) (h : ∀ j, m < j → j < n → p j = false) :
    (List.range n).reverse.find? p = some m := by
  induction n with
  | zero => omega
  | succ n ih =>
    rw [List.range_succ, List.reverse_append]
    simp only [List.reverse_cons, List.reverse_nil, List.nil_append, List.cons_append, List.find?_cons]
    by_cases hmn : m = n
    · subst hmn; rw [hp]
    · rw [h n (by omega) (by omega)]
      exact ih (by omega) (fun j h1 h2 => h j h1 (by omega))

theorem proper_iff (a b : Key) : OrdMap.isProper a b = true ↔ Proper a b := by
  unfold OrdMap.isProper Proper
  simp

theorem itMove_spec {root : Node V} (hw : WF root) (s : Stk V) (n : Nat) (hc : Cur root s n) (mv : Move) :
    (itMove s mv = .ok none ∧ OrdMap.move (toList root) n mv = none) ∨
    ∃ s' n', itMove s mv = .ok (some s') ∧ Cur root s' n' ∧ OrdMap.move (toList root) n mv = some n' := by
  cases mv with
  | next =>
    simp only [itMove, OrdMap.move]
    rcases next_cur hw hc with ⟨h1, h2⟩ | ⟨h1, s', h2, h3⟩
    · left; exact ⟨h2, by rw [if_neg (by omega)]⟩
    · right; exact ⟨s', n + 1, h2, h3, by rw [if_pos h1]⟩
  | prev =>
    simp only [itMove, OrdMap.move]
    rcases prev_cur hw hc with ⟨h1, h2⟩ | ⟨h1, s', h2, h3⟩
    · left; exact ⟨h2, by rw [if_pos h1]⟩
    · right; exact ⟨s', n - 1, h2, h3, by rw [if_neg (by omega)]⟩
  | nextLoop =>
    obtain ⟨s', h2, h3⟩ := nextLoop_cur hw hc
    right; exact ⟨s', _, h2, h3, rfl⟩
  | prevLoop =>
    obtain ⟨s', h2, h3⟩ := prevLoop_cur hw hc
    right; exact ⟨s', _, h2, h3, rfl⟩
  | parent =>
    simp only [itMove, OrdMap.move]
    obtain ⟨⟨k, v⟩, e1, e2⟩ := hc.get
    rcases parent_cur hw hc k v e2 with ⟨h1, h2⟩ | ⟨s', m, e, h1, h2, h3, h4, h5, h6⟩
    · left
      refine ⟨h1, find_parent_none _ _ ?_⟩
      intro j hj
      rw [e2]
      cases hx : (toList root)[j]? with
      | none => rfl
      | some x =>
        simp only
        have := h2 j x hj hx
        rw [← proper_iff] at this
        simpa using this
    · right
      refine ⟨s', m, h1, h2, find_parent_some _ m _ h3 ?_ ?_⟩
      · rw [h4, e2]; exact (proper_iff _ _).mpr h5
      · intro j hj1 hj2
        rw [e2]
        cases hx : (toList root)[j]? with
        | none => rfl
        | some x =>
          simp only
          have := h6 j x hj1 hj2 hx
          rw [← proper_iff] at this
          simpa using this

theorem itTour_spec {root : Node V} (hw : WF root) (mvs : List Move) (s : Option (Stk V)) (n : Option Nat)
    (h : (s = none ∧ n = none) ∨ ∃ s' n', s = some s' ∧ n = some n' ∧ Cur root s' n') :
    itTour s mvs = .ok (OrdMap.tour (toList root) n mvs) := by
  induction mvs generalizing s n with
  | nil =>
    rcases h with ⟨rfl, rfl⟩ | ⟨s', n', rfl, rfl, hc⟩
    · rfl
    · obtain ⟨e, e1, e2⟩ := hc.get
      simp only [itTour, itShow, e1, Res.bind_ok, OrdMap.tour, Option.bind_some, e2]
  | cons mv mvs ih =>
    rcases h with ⟨rfl, rfl⟩ | ⟨s', n', rfl, rfl, hc⟩
    · simp only [itTour, itShow, itMove?, Res.bind_ok, OrdMap.tour, Option.bind_none]
      rw [ih none none (.inl ⟨rfl, rfl⟩)]
      rfl
    · obtain ⟨e, e1, e2⟩ := hc.get
      simp only [itTour, itShow, itMove?, e1, Res.bind_ok, OrdMap.tour, Option.bind_some, e2]
      rcases itMove_spec hw s' n' hc mv with ⟨h1, h2⟩ | ⟨s'', n'', h1, h2, h3⟩
      · rw [h1, h2]
        simp only [Res.bind_ok]
        rw [ih none none (.inl ⟨rfl, rfl⟩)]
        rfl
      · rw [h1, h3]
        simp only [Res.bind_ok]
        rw [ih (some s'') (some n'') (.inr ⟨s'', n'', rfl, rfl, h2⟩)]
        rfl

/-- What itDel at a cursor does. -/
theorem delAt_spec {root : Node V} (hw : WF root) (s : Stk V) (n : Nat) (hc : Cur root s n) :
    ∃ e tbl', itEntry s = .ok e ∧ (toList root)[n]? = some e ∧ itDel (toList root).length s = .ok tbl' ∧ Inv tbl' ∧
      entries tbl' = (toList root).eraseIdx n := by
  obtain ⟨k, v, h1, h2⟩ := hc
  obtain ⟨tbl', d1, d2, d3, d4⟩ := delFound_spec hw s k v h1
  refine ⟨(k, v), tbl', entry_at h1, ?_, ?_, d2, ?_⟩
  · rw [h1.toList, List.getElem?_append_right (by omega), h2]; simp
  · unfold itDel
    rw [h1.1]
    simp only
    rw [d1]
    rfl
  · rw [d3, h1.toList, List.eraseIdx_append_of_length_le (by omega), h2]
    simp

theorem moves_spec {root : Node V} (hw : WF root) (mvs : List Move) (s : Option (Stk V)) (n : Option Nat)
    (h : (s = none ∧ n = none) ∨ ∃ s' n', s = some s' ∧ n = some n' ∧ Cur root s' n') :
    ∃ s1, itMoves s mvs = .ok s1 ∧ ((s1 = none ∧ OrdMap.moves (toList root) n mvs = none) ∨
      ∃ s' n', s1 = some s' ∧ OrdMap.moves (toList root) n mvs = some n' ∧ Cur root s' n') := by
  induction mvs generalizing s n with
  | nil =>
    refine ⟨s, rfl, ?_⟩
    simpa [OrdMap.moves] using h
  | cons mv mvs ih =>
    simp only [itMoves, OrdMap.moves, List.foldl_cons]
    rcases h with ⟨rfl, rfl⟩ | ⟨s', n', rfl, rfl, hc⟩
    · simp only [itMove?, Res.bind_ok, Option.bind_none]
      exact ih none none (.inl ⟨rfl, rfl⟩)
    · simp only [itMove?, Option.bind_some]
      rcases itMove_spec hw s' n' hc mv with ⟨h1, h2⟩ | ⟨s'', n'', h1, h2, h3⟩
      · rw [h1, h2]
        simp only [Res.bind_ok]
        exact ih none none (.inl ⟨rfl, rfl⟩)
      · rw [h1, h3]
        simp only [Res.bind_ok]
        exact ih (some s'') (some n'') (.inr ⟨s'', n'', rfl, rfl, h2⟩)

theorem moves_none (m : List (Key × V)) (mvs : List Move) : OrdMap.moves m none mvs = none := by
  induction mvs with
  | nil => rfl
  | cons mv mvs ih => simp only [OrdMap.moves, List.foldl_cons, Option.bind_none]; exact ih

theorem itMoves_none (mvs : List Move) : itMoves (none : Option (Stk V)) mvs = .ok none := by
  induction mvs with
  | nil => rfl
  | cons mv mvs ih => simp only [itMoves, itMove?, Res.bind_ok]; exact ih

theorem exec_spec {tbl : Trie V} (h : Inv tbl) (o : Op V) (ho : OpOk o) :
    ∃ tbl', exec tbl o = .ok (tbl', (step (entries tbl) o).2) ∧ Inv tbl' ∧ entries tbl' = (step (entries tbl) o).1 := by
  cases o with
  | put k w =>
    obtain ⟨t, t1, t2, t3⟩ := insWith_spec tbl h k ho w
    exact ⟨t, by simp only [exec, t1, Res.bind_ok, step], t2, t3⟩
  | del k =>
    obtain ⟨t, t1, t2, t3⟩ := del_spec tbl h k
    exact ⟨t, by simp only [exec, t1, Res.bind_ok, step], t2, t3⟩
  | clear => exact ⟨clear tbl, rfl, .inl rfl, rfl⟩
  | get k => exact ⟨tbl, by simp only [exec, getTry_spec h, Res.bind_ok, step], h, rfl⟩
  | floor k =>
    obtain ⟨l, l1, l2⟩ := getLeq_spec h k
    exact ⟨tbl, by simp only [exec, l1, l2, Res.bind_ok, step], h, rfl⟩
  | weight =>
    refine ⟨tbl, ?_, h, rfl⟩
    simp only [exec, step]
    rcases h.cases with ⟨h0, he⟩ | ⟨h0, hw, he, hl⟩
    · rw [he, h0]; rfl
    · rw [he, hl]
  | delAt mvs =>
    simp only [exec, step]
    rcases h.cases with ⟨h0, he⟩ | ⟨h0, hw, he, hl⟩
    · have hb : itBegin tbl = .ok none := by unfold itBegin; rw [if_pos h0]
      rw [hb, he]
      simp only [Res.bind_ok, itMoves_none, OrdMap.start, List.length_nil, if_true, moves_none, itDel?]
      exact ⟨tbl, rfl, h, he⟩
    · obtain ⟨s, f1, f2⟩ := first_cur hw
      have hb : itBegin tbl = .ok (some s) := by unfold itBegin; rw [if_neg h0, f1]; rfl
      have hst : OrdMap.start (toList tbl.root) = some 0 := by unfold OrdMap.start; rw [if_neg (by omega)]
      rw [hb, he, hst]
      simp only [Res.bind_ok]
      obtain ⟨s1, m1, m2⟩ := moves_spec hw mvs (some s) (some 0) (.inr ⟨s, 0, rfl, rfl, f2⟩)
      rw [m1]
      simp only [Res.bind_ok]
      rcases m2 with ⟨rfl, m2⟩ | ⟨s', n', rfl, m2, m3⟩
      · rw [m2]; exact ⟨tbl, rfl, h, he⟩
      · rw [m2]
        obtain ⟨e, tbl', d1, d2, d3, d4, d5⟩ := delAt_spec hw s' n' m3
        simp only [itDel?, d1, Res.bind_ok, hl, d3, d2, Option.map_some]
        exact ⟨tbl', rfl, d4, d5⟩

theorem execs_spec {tbl : Trie V} (h : Inv tbl) (os : List (Op V)) (ho : ∀ o ∈ os, OpOk o) :
    ∃ tbl', execs tbl os = .ok (tbl', (run (entries tbl) os).2) ∧ Inv tbl' ∧ entries tbl' = (run (entries tbl) os).1 := by
  induction os generalizing tbl with
  | nil => exact ⟨tbl, rfl, h, rfl⟩
  | cons o os ih =>
    obtain ⟨t, t1, t2, t3⟩ := exec_spec h o (ho o (by simp))
    obtain ⟨t', u1, u2, u3⟩ := ih t2 (fun o' h' => ho o' (by simp [h']))
    refine ⟨t', ?_, u2, by rw [u3, t3]; rfl⟩
    simp only [execs, t1, Res.bind_ok, u1, t3, run]

theorem Reach.inv {tbl : Trie V} {m : List (Key × V)} (h : Reach tbl m) : Inv tbl ∧ entries tbl = m := by
  obtain ⟨ops, outs, h1, h2, rfl⟩ := h
  obtain ⟨t, t1, t2, t3⟩ := execs_spec (tbl := (create : Trie V)) (.inl rfl) ops h1
  rw [h2] at t1
  injection t1 with t1
  injection t1 with t1 _
  subst t1
  exact ⟨t2, t3⟩

/-- Example history: keys "a", "ab", "b" and the empty key; one is deleted. -/
def demo : List (Op Nat) := [.put [97] (fun _ => 1), .put [97, 98] (fun _ => 2), .put [98] (fun _ => 3), .put [] (fun _ => 4),
  .put [97] (fun o => o.getD 0 + 10), .del [98], .delAt [.next, .next], .put [97, 98] (fun _ => 2), .floor [97, 97], .floor [98, 0], .get [97], .weight]

end Trie

/-- C12: any history of insertions, deletions by key and through an iterator, clearing, exact and less-or-equal lookups on a new trie
gives at every step the answer of an ordered map, never breaks an assertion or leaves its memory, and the map
stays in strictly ascending key order. -/
theorem C12_history (ops : List (Op V)) (h : ∀ o ∈ ops, Trie.OpOk o) :
    (∃ tbl, Trie.execs Trie.create ops = .ok (tbl, (run [] ops).2)) ∧ OrdMap.Sorted (run ([] : List (OrdMap.Key × V)) ops).1 := by
  obtain ⟨t, t1, t2, t3⟩ := Trie.execs_spec (tbl := (Trie.create : Trie.Trie V)) (.inl rfl) ops h
  have he : Trie.entries (Trie.create : Trie.Trie V) = [] := rfl
  rw [he] at t1 t3
  refine ⟨⟨t, t1⟩, ?_⟩
  have := Trie.entries_sorted t2
  rw [t3] at this
  exact this.imp (fun h => (Trie.KLt_iff _ _).mp h)

example : (run ([] : List (OrdMap.Key × Nat)) Trie.demo).1 = [([], 4), ([97], 11), ([97, 98], 2)] := by decide +kernel
example : ∀ o ∈ Trie.demo, Trie.OpOk o := by
  intro o ho
  simp only [Trie.demo, List.mem_cons, List.not_mem_nil, or_false] at ho
  rcases ho with rfl | rfl | rfl | rfl | rfl | rfl | rfl | rfl | rfl | rfl | rfl | rfl <;> simp [Trie.OpOk]

/-- C12: iterating a trie from the beginning shows every entry of the map exactly once, in ascending
order of the keys, and ends. -/
theorem C12_iterate (tbl : Trie.Trie V) (m : List (OrdMap.Key × V)) (h : Trie.Reach tbl m) :
    ∃ s, Trie.itBegin tbl = .ok s ∧ Trie.collect m.length s = .ok m := by
  obtain ⟨hi, he⟩ := h.inv
  have key : ∀ (root : Trie.Node V), Trie.WF root → ∀ d s n, Trie.Cur root s n → n + d = (Trie.toList root).length →
      Trie.collect d (some s) = .ok ((Trie.toList root).drop n) := by
    intro root hw d
    induction d with
    | zero => intro s n hc hd; exact absurd hc.lt (by omega)
    | succ d ih =>
      intro s n hc hd
      obtain ⟨e, e1, e2⟩ := hc.get
      have hdrop : (Trie.toList root).drop n = e :: (Trie.toList root).drop (n + 1) := by
        obtain ⟨hl, hg⟩ := List.getElem?_eq_some_iff.mp e2
        rw [List.drop_eq_getElem_cons hl, hg]
      simp only [Trie.collect, e1, Res.bind_ok]
      rcases Trie.next_cur hw hc with ⟨h1, h2⟩ | ⟨h1, s', h2, h3⟩
      · rw [h2]
        simp only [Res.bind_ok]
        have : Trie.collect d (none : Option (Trie.Stk V)) = .ok [] := by cases d <;> rfl
        rw [this, hdrop, (List.drop_eq_nil_of_le (by omega) : (Trie.toList root).drop (n + 1) = [])]
        rfl
      · rw [h2]
        simp only [Res.bind_ok]
        rw [ih s' (n + 1) h3 (by omega), hdrop]
        rfl
  unfold Trie.itBegin
  rcases hi.cases with ⟨h0, h0e⟩ | ⟨h0, hw, hwe, hl⟩
  · rw [if_pos h0]
    rw [h0e] at he
    subst he
    exact ⟨none, rfl, rfl⟩
  · rw [if_neg h0]
    obtain ⟨s, f1, f2⟩ := Trie.first_cur hw
    rw [f1]
    refine ⟨some s, rfl, ?_⟩
    rw [← he, hwe]
    exact key tbl.root hw _ s 0 f2 (by omega)

/-- C12: the search with a fallback to the wildcard gives the entry of the key, or else the entry of the
wildcard below the closest ancestor of the key that is in the map or above a name in the map, and never leaves its memory. -/
theorem C12_wildcard (tbl : Trie.Trie V) (m : List (OrdMap.Key × V)) (h : Trie.Reach tbl m) (key : OrdMap.Key) (hk : key ≠ []) :
    ∃ n, OrdMap.IsBase m key n ∧ Trie.getTryWildcard tbl key =
      .ok ((OrdMap.lookup m key).or (OrdMap.lookup m (key.take n ++ [42, 0]))) := by
  obtain ⟨hi, he⟩ := h.inv
  unfold Trie.getTryWildcard
  rcases hi.cases with ⟨h0, h0e⟩ | ⟨h0, hw, hwe, hl⟩
  · rw [h0e] at he
    subst he
    rw [if_pos h0]
    exact ⟨0, ⟨.inl rfl, by rintro n' ⟨_, _, _, e, he, _⟩; simp at he⟩, rfl⟩
  · rw [if_neg h0]
    have hm : Trie.toList tbl.root = m := by rw [← hwe, he]
    obtain ⟨s, k, v, e1, ⟨hst, hp⟩, _⟩ := Trie.descend_spec hw tbl.root [] key .nil (by intro _ _ _ _ h; simp at h)
    have hlong := fun e he n ha => Trie.descend_longest hw [] key s k v e1 hst e he n ha
    rw [e1]
    simp only [Res.bind_ok]
    rw [hst]
    have hkl : key.length ≠ 0 := by simpa using hk
    obtain ⟨e0, he0⟩ := hw.nonempty
    have hkv := (hlong e0 he0 0 (by intro j hj; omega)).2
    have hpre : ∀ n, n ≤ key.length → (∃ e ∈ m, key.take n <+: e.1) → key.take n <+: k := by
      intro n hn ⟨e, he, hp⟩
      rw [Trie.take_prefix_agree n key _ hn] at hp ⊢
      exact (hlong e (hm ▸ he) (2 * n) hp).1
    -- the base
    have hbase : ∃ n, OrdMap.IsBase m key n ∧ (Trie.lastZero key.length key k 0 (-1) + 3).toNat - 2 = n ∧ n ≤ key.length := by
      rcases Trie.lastZero_spec key k key.length 0 (-1) (by omega) with ⟨h1, h2⟩ | ⟨j, h1, h2, h3, h4, h5⟩
      · refine ⟨0, ⟨.inl rfl, ?_⟩, by rw [h1]; rfl, by omega⟩
        rintro n' ⟨a1, a2, a3, a4⟩
        obtain ⟨n', rfl⟩ : ∃ m, n' = m + 1 := ⟨n' - 1, by omega⟩
        exact absurd (hpre _ (by omega) a4) (h2 n' a2 (by simpa using a3))
      · refine ⟨j + 1, ⟨.inr ⟨by omega, h1, by simpa using h2, (k, v), hm ▸ hkv, h3⟩, ?_⟩, by rw [h4]; omega, by omega⟩
        rintro n' ⟨a1, a2, a3, a4⟩
        obtain ⟨n', rfl⟩ : ∃ m, n' = m + 1 := ⟨n' - 1, by omega⟩
        have := h5 n' a2 (by simpa using a3) (hpre _ (by omega) a4)
        omega
    obtain ⟨n, hb, hn, hnl⟩ := hbase
    refine ⟨n, hb, ?_⟩
    simp only
    by_cases hkk : key = k
    · rw [if_pos ⟨hkl, hkk⟩]
      have hmem : (key, v) ∈ m := by rw [hkk, ← hm]; exact hkv
      have hlk : OrdMap.lookup m key = some v := by
        have hs := hw.sorted
        rw [hm] at hs
        obtain ⟨a, b, hab⟩ := List.append_of_mem hmem
        rw [hab] at hs ⊢
        rw [Trie.lookup_present key v a b (fun e he h => by
          have := (Trie.sorted_sides hs).1 e he; rw [h] at this; exact Trie.KLt_irrefl _ this)]
      rw [hlk]
      rfl
    · rw [if_neg (fun h => hkk h.2), if_neg hkl, hn, if_neg (by omega), Trie.getTry_spec hi]
      have habs : OrdMap.lookup m key = none := by
        apply Trie.lookup_absent
        intro e he hek
        have ha := hlong e (hm ▸ he)
        apply hkk
        apply Trie.key_ext
        intro j
        exact (ha (j + 1) (by rw [hek]; exact Trie.Agree.refl _)).1 j (by omega)
      rw [habs, he]
      rfl

/-- For `a.b.com.` in a map with `com.`, `*.b.com.` and `c.b.com.` (last label first, zero-terminated) the base is `b.com.`. -/
example : OrdMap.IsBase [([99, 111, 109, 0], 1), ([99, 111, 109, 0, 98, 0, 42, 0], 2), ([99, 111, 109, 0, 98, 0, 99, 0], 3)]
    ([99, 111, 109, 0, 98, 0, 97, 0] : OrdMap.Key) 6 := by
  refine ⟨.inr ⟨by decide, by decide, rfl, _, List.mem_cons_of_mem _ (List.mem_cons_self ..), by decide⟩, ?_⟩
  rintro n' ⟨h1, h2, h3, _⟩
  have : n' = 7 ∨ n' ≤ 6 := by simp only [List.length_cons, List.length_nil] at h2; omega
  rcases this with rfl | h
  · exact absurd h3 (by decide)
  · exact h

/-- The wildcard search of the empty key never falls back. -/
theorem C12_wildcard_empty (tbl : Trie.Trie V) (m : List (OrdMap.Key × V)) (h : Trie.Reach tbl m) :
    Trie.getTryWildcard tbl [] = .ok (OrdMap.lookup m []) := by
  obtain ⟨hi, he⟩ := h.inv
  unfold Trie.getTryWildcard
  rcases hi.cases with ⟨h0, h0e⟩ | ⟨h0, hw, hwe, hl⟩
  · rw [h0e] at he
    subst he
    rw [if_pos h0]
    rfl
  · rw [if_neg h0]
    have hm : Trie.toList tbl.root = m := by rw [← hwe, he]
    obtain ⟨s, k, v, e1, ⟨hst, hp⟩, _⟩ := Trie.descend_spec hw tbl.root [] [] .nil (by intro _ _ _ _ h; simp at h)
    have hlong := fun e he n ha => Trie.descend_longest hw [] [] s k v e1 hst e he n ha
    rw [e1]
    simp only [Res.bind_ok]
    rw [hst]
    simp only [List.length_nil, ne_eq, not_true_eq_false, false_and, if_false, if_true]
    obtain ⟨e0, he0⟩ := hw.nonempty
    have hkv := (hlong e0 he0 0 (by intro j hj; omega)).2
    rw [hm] at hkv
    by_cases hk : k.length = 0
    · rw [if_pos hk]
      have hk' : k = [] := by simpa using hk
      subst hk'
      have hs := hw.sorted
      rw [hm] at hs
      obtain ⟨a, b, hab⟩ := List.append_of_mem hkv
      rw [hab] at hs ⊢
      rw [Trie.lookup_present [] v a b (fun e he h => by
        have := (Trie.sorted_sides hs).1 e he; rw [h] at this; exact Trie.KLt_irrefl _ this)]
    · rw [if_neg hk]
      congr 1
      symm
      apply Trie.lookup_absent
      intro e he hek
      apply hk
      have ha := hlong e (hm ▸ he)
      have : ([] : OrdMap.Key) = k := by
        apply Trie.key_ext
        intro j
        exact (ha (j + 1) (by rw [hek]; exact Trie.Agree.refl _)).1 j (by omega)
      rw [← this]; rfl

/-- C12: an iterator that starts at the beginning and is moved forward, backward, around the ends or
to the nearest key that is a beginning of the current one shows the entries that a cursor on the sorted list of
entries shows. -/
theorem C12_cursor (tbl : Trie.Trie V) (m : List (OrdMap.Key × V)) (h : Trie.Reach tbl m) (mvs : List Move) :
    ∃ s, Trie.itBegin tbl = .ok s ∧
      Trie.itTour s mvs = .ok (OrdMap.tour m (OrdMap.start m) mvs) := by
  obtain ⟨hi, he⟩ := h.inv
  unfold Trie.itBegin
  rcases hi.cases with ⟨h0, h0e⟩ | ⟨h0, hw, hwe, hl⟩
  · rw [if_pos h0]
    rw [h0e] at he
    subst he
    refine ⟨none, rfl, ?_⟩
    simp only [OrdMap.start, List.length_nil, if_true]
    have : ∀ mvs, Trie.itTour (none : Option (Trie.Stk V)) mvs = .ok (OrdMap.tour ([] : List (OrdMap.Key × V)) none mvs) := by
      intro mvs
      induction mvs with
      | nil => rfl
      | cons mv mvs ih =>
        simp only [Trie.itTour, Trie.itShow, Trie.itMove?, Res.bind_ok, OrdMap.tour, Option.bind_none]
        rw [ih]; rfl
    exact this mvs
  · rw [if_neg h0]
    obtain ⟨s, f1, f2⟩ := Trie.first_cur hw
    rw [f1]
    refine ⟨some s, rfl, ?_⟩
    have hst : OrdMap.start (Trie.toList tbl.root) = some 0 := by unfold OrdMap.start; rw [if_neg (by omega)]
    rw [← he, hwe, hst]
    exact Trie.itTour_spec hw mvs (some s) (some 0) (.inr ⟨s, 0, rfl, rfl, f2⟩)

/-- C12: the iterator set by the less-or-equal search can be moved like a cursor that stands on the
entry found. -/
theorem C12_cursor_leq (tbl : Trie.Trie V) (m : List (OrdMap.Key × V)) (h : Trie.Reach tbl m) (key : OrdMap.Key) (mvs : List Move) :
    ∃ l, Trie.getLeq tbl key = .ok l ∧ (∀ s, l = .exact s ∨ l = .prev s →
      ∃ n e, m[n]? = some e ∧ (OrdMap.floor m key).map (·.2) = some e ∧
        Trie.itTour (some s) mvs = .ok (OrdMap.tour m (some n) mvs)) := by
  obtain ⟨hi, he⟩ := h.inv
  obtain ⟨l, l1, l2⟩ := Trie.getLeq_spec hi key
  refine ⟨l, l1, ?_⟩
  intro s hs
  rcases hi.cases with ⟨h0, h0e⟩ | ⟨h0, hw, hwe, hl⟩
  · unfold Trie.getLeq at l1
    rw [if_pos h0] at l1
    injection l1 with l1
    subst l1
    rcases hs with hs | hs <;> cases hs
  · have hcur : ∃ n, Trie.Cur tbl.root s n := by
      unfold Trie.getLeq at l1
      rw [if_neg h0] at l1
      rcases Trie.getLeqNode_spec hw key with ⟨s', v, e1, e2⟩ | ⟨s', k, v, e1, e2, e3, e4, e5⟩ | ⟨e1, e2⟩
      · rw [e1] at l1; injection l1 with l1; subst l1
        rcases hs with hs | hs <;> cases hs
        exact ⟨_, key, v, e2, rfl⟩
      · rw [e1] at l1; injection l1 with l1; subst l1
        rcases hs with hs | hs <;> cases hs
        exact ⟨_, k, v, e2, rfl⟩
      · rw [e1] at l1; injection l1 with l1; subst l1
        rcases hs with hs | hs <;> cases hs
    obtain ⟨n, hn⟩ := hcur
    obtain ⟨e, e1, e2⟩ := hn.get
    refine ⟨n, e, by rw [← he, hwe]; exact e2, ?_, ?_⟩
    · rw [← he]
      rcases hs with hs | hs
      · subst hs; simp only [Trie.leqOut, e1, Res.bind_ok] at l2; injection l2 with l2; rw [← l2]; rfl
      · subst hs; simp only [Trie.leqOut, e1, Res.bind_ok] at l2; injection l2 with l2; rw [← l2]; rfl
    · rw [← he, hwe]
      exact Trie.itTour_spec hw mvs (some s) (some n) (.inr ⟨s, n, rfl, rfl, hn⟩)

/-- C12: applying a function to all values visits them in ascending order of the keys and stops at the
first error. -/
theorem C12_apply {S : Type} (tbl : Trie.Trie V) (m : List (OrdMap.Key × V)) (h : Trie.Reach tbl m) (f : S → V → S × Int) (s : S) :
    Trie.apply f tbl s = OrdMap.walk f (m.map (·.2)) s := by
  obtain ⟨hi, he⟩ := h.inv
  unfold Trie.apply
  rcases hi.cases with ⟨h0, h0e⟩ | ⟨h0, hw, hwe, hl⟩
  · rw [if_pos h0, ← he, h0e]; rfl
  · rw [if_neg h0, ← he, hwe, Trie.applyNodes_walk]

/-- A reachable trie with keys "a", "ab", "b" to which the iterator theorems apply. -/
example : ∃ tbl, Trie.Reach tbl [([97], 1), ([97, 98], 2), ([98], 3)] := by
  have hok : ∀ o ∈ ([.put [98] (fun _ => 3), .put [97] (fun _ => 1), .put [97, 98] (fun _ => 2)] : List (Op Nat)), Trie.OpOk o := by
    intro o ho
    simp only [List.mem_cons, List.not_mem_nil, or_false] at ho
    rcases ho with rfl | rfl | rfl <;> simp [Trie.OpOk]
  obtain ⟨tbl, ht⟩ := (C12_history _ hok).1
  exact ⟨tbl, _, _, hok, ht, by decide +kernel⟩

example : OrdMap.tour [([97], 1), ([97, 98], 2), ([98], 3)] (some 0) [.next, .parent, .prevLoop, .prev, .next, .nextLoop, .parent, .next] =
    [some ([97], 1), some ([97, 98], 2), some ([97], 1), some ([98], 3), some ([97, 98], 2), some ([98], 3), some ([97], 1), none, none] := by
  decide +kernel

/-- Two keys, neither a prefix of the other. -/
def Trie.demoAB : Trie.Node Nat := .branch 1 6 [.leaf [96] 1, .leaf [97] 2]

/-- C12 (finding): advancing with trie_it_next_nosuffix(), src/contrib/qp-trie/trie.c:780-808, 1111-1116,
breaks the assertion in hastwig() when the current leaf is the first child of its parent: the test
at line 791 asks the leaf, not the parent, for a child without a byte. -/
theorem C12_nosuffix_fails :
    ∃ s, (do let t ← Trie.insWith Trie.create [96] (fun _ => 1)
             let t ← Trie.insWith t [97] (fun _ => 2)
             Trie.itBegin t) = .ok (some s) ∧ Trie.itEntry s = .ok (([96] : OrdMap.Key), (1 : Nat)) ∧ Trie.itNextNosuffix s = .ub :=
  ⟨⟨.leaf [96] 1, [(Trie.demoAB, 0)]⟩, by with_unfolding_all rfl, by rfl, by rfl⟩

/-- C12 (finding): a key of 2^31 bytes passes the length check but is stored as the empty key. -/
theorem C12_longest_key (key : OrdMap.Key) (h : key.length = 2147483648) : Trie.storedKey key = .ok [] := by
  unfold Trie.storedKey
  rw [if_neg (by omega), h, Nat.mod_self, List.take_zero]

end Knot
