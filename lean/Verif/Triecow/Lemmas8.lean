import Verif.Triecow.Lemmas7
/-! # Lemmas: insertion and replacement in the new trie -/
namespace Knot.Cow
open Knot.Trie (Key)

variable {V : Type}

/-- The entries of a trie. -/
def entriesO : Option (AT V) → List (Key × V)
  | none => []
  | some T => Trie.toList (erase T)

theorem Inv.sees {s : St V} {To : Option (AT V)} {T : AT V} (h : Inv s To (some T)) : Sees s T := by
  have := h.new
  simp only [Holds] at this
  exact ⟨this.1, this.2.2.2⟩

theorem nodup_le {l : List Nat} {n : Nat} (h : l.Nodup) (hl : ∀ y ∈ l, y < n) : l.length ≤ n := by
  induction n generalizing l with
  | zero =>
    cases l with
    | nil => simp
    | cons a l => exact absurd (hl a (by simp)) (by omega)
  | succ n ih =>
    have h1 := ih (l := l.erase n) (h.erase n) (by
      intro y hy
      rw [h.mem_erase_iff] at hy
      have := hl y hy.2
      omega)
    have h2 : l.length ≤ (l.erase n).length + 1 := by
      rw [List.length_erase]
      split <;> omega
    omega

theorem Inv.fuelNew {s : St V} {To : Option (AT V)} {T : AT V} (h : Inv s To (some T)) : (addrs T).length ≤ s.mem.next := by
  refine nodup_le h.nodupNew fun y hy => ?_
  exact h.fresh y ((h.dom y).2 (h.ownedNew hy))

theorem Inv.fuelOld {s : St V} {T : AT V} {Tn : Option (AT V)} (h : Inv s (some T) Tn) : (addrs T).length ≤ s.mem.next := by
  refine nodup_le h.nodupOld fun y hy => ?_
  exact h.fresh y ((h.dom y).2 (Inv.ownedOld hy))

theorem parentOk_sim {s : St V} {t : AT V} {C : List (Frame V)} (hs : Sees s (plugA t C)) (key : Key) :
    parentOk s key (stackOf C) = .ok (Trie.parentOk key (pathOf t C)) := by
  cases C with
  | nil => rfl
  | cons f C =>
    have hl : load s (hole C) = .ok (f.wrap t).node := Sees.load hs
    simp only [stackOf_cons]
    simp only [stackOf, parentOk]
    rw [hl]
    simp only [Res.bind_ok, Frame.wrap, AT.node, pathOf, erase, Trie.parentOk]

theorem insertAt_ok {s : St V} {To : Option (AT V)} {t : AT V} {idiff tbit kbit : Nat} {C : List (Frame V)}
    {key : Key} {v : V} {r : Trie.Node V} (hk : key.length < 2147483648)
    (h : Inv s To (some (plugA t C))) (hC : ∀ f ∈ C, s.mem.flag f.a = false) (ht : s.mem.flag t.top = false)
    (hf : Trie.insertAt key ⟨erase t, pathOf t C⟩ idiff tbit kbit (.leaf key v) = .ok r)
    (hlen : s.new.weight + 1 = (Trie.toList r).length) (hwf : Trie.WF r) :
    ∃ s' t', insertAt s key (stackOf C) idiff tbit kbit v = .ok s' ∧ s'.old = s.old ∧ s'.new.weight = s.new.weight ∧
      Inv { s' with new := { s'.new with weight := s.new.weight + 1 } } To (some (plugA t' C)) ∧ erase (plugA t' C) = r := by
  have hlt : ∀ y ∈ addrs (plugA t C), y < s.mem.next := fun y hy =>
    h.fresh y ((h.dom y).2 (h.ownedNew (by simpa [addrsO] using hy)))
  let s1 : St V := { s with mem := (s.mem.alloc (.key key)).1 }
  have hs1 : Sees s1 (plugA t C) := by
    refine ⟨h.sees.1, h.sees.2.congr fun y hy => ?_⟩
    simp only [s1]
    rw [alloc_body, if_neg (by have := hlt y hy; omega)]
  have hload := hs1.load
  have hpar := parentOk_sim hs1 key
  simp only [insertAt, stackOf]
  rw [Trie.storedKey_ok key hk]
  simp only [Res.bind_ok]
  rw [show load { s with mem := (s.mem.alloc (Body.key key)).fst } (hole C) = .ok t.node from hload]
  simp only [Res.bind_ok]
  have hpar' : parentOk { s with mem := (s.mem.alloc (Body.key key)).fst } key (hole C :: upOf C) =
    .ok (Trie.parentOk key (pathOf t C)) := hpar
  rw [hpar']
  -- the common case of a new binary node
  have hsplit : ∀ (hp : Trie.parentOk key (pathOf t C) = true) (n : Trie.Node V),
      Trie.splitNode (erase t) idiff tbit kbit (.leaf key v) = .ok n → Trie.plug n (pathOf t C) = r →
      ∃ s' t', splitNode { s with mem := (s.mem.alloc (Body.key key)).fst } (hole C) t.node idiff tbit kbit
          (.leaf (s.mem.alloc (Body.key key)).2 v) = .ok s' ∧ s'.old = s.old ∧ s'.new.weight = s.new.weight ∧
        Inv { s' with new := { s'.new with weight := s.new.weight + 1 } } To (some (plugA t' C)) ∧ erase (plugA t' C) = r := by
    intro _ n hn hr
    subst hr
    exact splitNode_ok h hC hn hlen hwf
  cases t with
  | leaf k lk lv =>
    simp only [Trie.insertAt, erase] at hf
    cases hp : Trie.parentOk key (pathOf (.leaf k lk lv) C) with
    | false => rw [hp] at hf; simp at hf
    | true =>
      rw [hp] at hf
      simp only [Bool.not_true, Bool.false_eq_true, if_false] at hf
      cases hn : Trie.splitNode (.leaf lk lv) idiff tbit kbit (.leaf key v) with
      | err e => rw [hn] at hf; cases hf
      | ub => rw [hn] at hf; cases hf
      | ok n =>
        rw [hn] at hf
        simp only [Res.bind_ok] at hf
        injection hf with hf
        obtain ⟨s', t', e1, rest⟩ := hsplit hp n (by simpa [erase] using hn) hf
        refine ⟨s', t', ?_, rest⟩
        simp only [AT.node] at e1 ⊢
        simp only [Res.bind_ok, if_true]
        exact e1
  | branch a i bmp tw =>
    simp only [Trie.insertAt, erase] at hf
    simp only [AT.node]
    by_cases hi : i = idiff
    · rw [if_pos hi] at hf ⊢
      cases hn : Trie.addChild i bmp (eraseL tw) kbit (.leaf key v) with
      | err e => rw [hn] at hf; cases hf
      | ub => rw [hn] at hf; cases hf
      | ok n =>
        rw [hn] at hf
        simp only [Res.bind_ok] at hf
        injection hf with hf
        subst hf
        exact addChild_ok h hC ht hn hlen hwf
    · rw [if_neg hi] at hf ⊢
      cases hp : Trie.parentOk key (pathOf (.branch a i bmp tw) C) with
      | false => rw [hp] at hf; simp at hf
      | true =>
        rw [hp] at hf
        simp only [Bool.not_true, Bool.false_eq_true, if_false] at hf
        cases hn : Trie.splitNode (.branch i bmp (eraseL tw)) idiff tbit kbit (.leaf key v) with
        | err e => rw [hn] at hf; cases hf
        | ub => rw [hn] at hf; cases hf
        | ok n =>
          rw [hn] at hf
          simp only [Res.bind_ok] at hf
          injection hf with hf
          obtain ⟨s', t', e1, rest⟩ := hsplit hp n (by simpa [erase] using hn) hf
          refine ⟨s', t', ?_, rest⟩
          simp only [AT.node] at e1
          simp only [Res.bind_ok, if_true]
          exact e1

/-- The functional trie of a tree. -/
theorem Holds.inv {m : Mem V} {tb : Trie V} {T : AT V} (h : Holds m tb (some T)) :
    Trie.Inv (⟨erase T, tb.weight⟩ : Trie.Trie V) ∧ tb.weight ≠ 0 ∧
      Trie.entries (⟨erase T, tb.weight⟩ : Trie.Trie V) = Trie.toList (erase T) := by
  obtain ⟨_, h2, h3, _⟩ := h
  have hne : tb.weight ≠ 0 := by
    obtain ⟨e, he⟩ := h3.nonempty
    intro h0
    rw [h2] at h0
    rw [List.eq_nil_of_length_eq_zero h0] at he
    simp at he
  refine ⟨.inr ⟨h3, h2⟩, hne, ?_⟩
  unfold Trie.entries
  simp [hne]

theorem tr_inv {r : Trie.Node V} {w : Nat} (h : Trie.Inv (⟨r, w⟩ : Trie.Trie V)) (hw : w ≠ 0) :
    Trie.WF r ∧ w = (Trie.toList r).length ∧ Trie.entries (⟨r, w⟩ : Trie.Trie V) = Trie.toList r := by
  rcases h with h | h
  · exact absurd h hw
  · exact ⟨h.1, h.2, by unfold Trie.entries; simp [hw]⟩

/-- The first leaf of an empty trie. -/
theorem getCow_empty {s : St V} {To : Option (AT V)} (h : Inv s To none) (key : Key) (hk : key.length < 2147483648)
    (w : Option V → V) :
    ∃ s', getCow s key w = .ok s' ∧ s'.old = s.old ∧ Inv s' To (some (.leaf s.mem.next key (w none))) := by
  have h0 : s.new.weight = 0 := h.new
  unfold getCow
  rw [if_pos h0, Trie.storedKey_ok key hk]
  refine ⟨_, rfl, rfl, ?_⟩
  have hlt : ∀ y ∈ owned s.mem.flag To none, y < s.mem.next := fun y hy => h.fresh y ((h.dom y).2 hy)
  have hO : ∀ y ∈ addrsO To, (s.mem.alloc (.key key)).1.flag y = s.mem.flag y := by
    intro y hy
    rw [alloc_flag, if_neg]
    have := hlt y (Inv.ownedOld hy)
    omega
  have hfrO : frO (s.mem.alloc (.key key)).1.flag To = frO s.mem.flag To := by
    cases To with
    | none => rfl
    | some To => exact fr_congr hO
  have hexO : exO (s.mem.alloc (.key key)).1.flag To = exO s.mem.flag To := by
    cases To with
    | none => rfl
    | some To => exact ex_congr hO
  have hfN : (s.mem.alloc (.key key)).1.flag s.mem.next = false := by rw [alloc_flag, if_pos rfl]
  have hnil : frO s.mem.flag To = [] := by
    have := h.share.length_eq
    exact List.eq_nil_of_length_eq_zero this
  have hown : owned s.mem.flag To none = exO s.mem.flag To := by simp [owned, exO, hnil]
  have hown' : owned (s.mem.alloc (.key key)).1.flag To (some (.leaf s.mem.next key (w none))) =
      exO s.mem.flag To ++ [s.mem.next] := by
    unfold owned
    rw [hfrO, hexO, hnil]
    simp [exO, ex, hfN]
  refine ⟨?_, ?_, ?_, ?_, ?_, ?_, ?_, ?_⟩
  · have := h.old
    cases To with
    | none => exact this
    | some To =>
      simp only [Holds] at this ⊢
      refine ⟨this.1, this.2.1, this.2.2.1, this.2.2.2.congr fun y hy => ?_⟩
      rw [alloc_body, if_neg]
      have := hlt y (Inv.ownedOld hy)
      omega
  · simp only [Holds]
    refine ⟨rfl, by simp [erase, Trie.toList], by simp only [erase]; exact .leaf hk, ?_⟩
    rw [rep_iff]
    refine ⟨?_, by simp [AT.kids]⟩
    simp only [AT.top, AT.body]
    rw [alloc_body, if_pos rfl]
  · show List.Perm (frO (s.mem.alloc (.key key)).1.flag To) (fr (s.mem.alloc (.key key)).1.flag _)
    rw [hfrO, hnil]
    simp [fr, hfN]
  · show (owned (s.mem.alloc (.key key)).1.flag To _).Nodup
    rw [hown']
    rw [List.nodup_append]
    have hn := h.nodup
    rw [hown] at hn
    refine ⟨hn, by simp, ?_⟩
    intro a ha b hb e
    simp only [List.mem_singleton] at hb
    have := hlt a (by rw [hown]; exact ha)
    omega
  · show ∀ f ∈ frO (s.mem.alloc (.key key)).1.flag To, _
    rw [hfrO, hnil]
    simp
  · intro y
    show (s.mem.alloc (.key key)).1.obj y ≠ none ↔ y ∈ owned (s.mem.alloc (.key key)).1.flag To _
    rw [hown', alloc_obj]
    have := h.dom y
    rw [hown] at this
    by_cases e : y = s.mem.next
    · simp [e]
    · rw [if_neg e]
      simp only [List.mem_append, List.mem_singleton, e, or_false]
      exact this
  · intro y hy
    show y < s.mem.next + 1
    have hy : (s.mem.alloc (.key key)).1.obj y ≠ none := hy
    rw [alloc_obj] at hy
    by_cases e : y = s.mem.next
    · omega
    · rw [if_neg e] at hy
      have := h.fresh y hy
      omega
  · exact h.log

theorem getCow_ok {s : St V} {To Tn : Option (AT V)} (h : Inv s To Tn) (key : Key) (hk : key.length < 2147483648)
    (w : Option V → V) :
    ∃ s' Tn', getCow s key w = .ok s' ∧ s'.old = s.old ∧ Inv s' To Tn' ∧
      entriesO Tn' = OrdMap.insertWith key w (entriesO Tn) := by
  cases Tn with
  | none =>
    obtain ⟨s', e1, o1, i1⟩ := getCow_empty h key hk w
    exact ⟨s', _, e1, o1, i1, by simp [entriesO, erase, Trie.toList, OrdMap.insertWith]⟩
  | some T =>
    obtain ⟨fi, hne, fe⟩ := Holds.inv h.new
    obtain ⟨tbl', q1, q2, q3⟩ := Trie.insWith_spec _ fi key hk w
    rw [fe] at q3
    unfold getCow
    rw [if_neg hne]
    simp only [Trie.insWith] at q1
    rw [if_neg hne] at q1
    cases hfb : Trie.findBranch (erase T) key with
    | err e => rw [hfb] at q1; cases q1
    | ub => rw [hfb] at q1; cases q1
    | ok fd =>
      rw [hfb] at q1
      simp only [Res.bind_ok] at q1
      obtain ⟨t, C, d, p1, p2, p3, p4⟩ := findBranch_sim h.sees h.fuelNew key hfb
      subst p1
      rw [p2]
      simp only [Res.bind_ok]
      obtain ⟨s1, C1, x, e1, i1, c1, x1, st1, o1, w1⟩ := pushdown_path h
      rw [e1]
      simp only [Res.bind_ok, List.reverse_reverse]
      have hpath : pathOf (t.retop x) C1 = pathOf t C := path_strip st1 (erase_retop t x)
      cases d with
      | none =>
        obtain ⟨k, v, e⟩ := p4 rfl
        subst e
        simp only at p3
        subst p3
        simp only [erase, Trie.writeLeaf] at q1
        injection q1 with q1
        have hpl : ∀ v', erase (plugA (.leaf x key v') C1) = Trie.plug (.leaf key v') (pathOf (.leaf k key v) C) := by
          intro v'
          rw [← hpath, ← plug_path _ ((AT.leaf k key v).retop x) C1]
          simp [erase]
        have hr := tr_inv (r := Trie.plug (.leaf key (w (some v))) (pathOf (.leaf k key v) C)) (w := s.new.weight)
          (by rw [q1]; exact q2) hne
        obtain ⟨s', g1, g2, g3⟩ := writeVal_ok (C := C1) (k := x) (key := key) (v := v) i1 c1 x1 w (by
          rw [hpl, w1]; exact hr.2.1) (by rw [hpl]; exact hr.1)
        refine ⟨s', _, g1, by rw [g2, o1], g3, ?_⟩
        simp only [entriesO]
        rw [hpl, ← hr.2.2, q1, q3]
      | some d =>
        obtain ⟨idiff, tbit, kbit⟩ := d
        simp only at p3
        subst p3
        simp only at q1
        rw [Trie.storedKey_ok key hk] at q1
        simp only [Res.bind_ok] at q1
        cases hia : Trie.insertAt key ⟨erase t, pathOf t C⟩ idiff tbit kbit (.leaf key (w none)) with
        | err e => rw [hia] at q1; cases q1
        | ub => rw [hia] at q1; cases q1
        | ok r =>
          rw [hia] at q1
          simp only [Res.bind_ok] at q1
          injection q1 with q1
          have hr := tr_inv (r := r) (w := s.new.weight + 1) (by rw [q1]; exact q2) (by omega)
          obtain ⟨s', t', g1, g2, g3, g4, g5⟩ := insertAt_ok (t := t.retop x) (C := C1) hk i1 c1 (by simpa using x1)
            (by rw [hpath, erase_retop]; exact hia) (by rw [w1]; exact hr.2.1) hr.1
          simp only
          rw [g1]
          simp only [Res.bind_ok]
          refine ⟨_, some (plugA t' C1), rfl, by rw [← o1, ← g2], ?_, ?_⟩
          · rw [g3]; exact g4
          · simp only [entriesO]
            rw [g5, ← hr.2.2, q1, q3]

end Knot.Cow
