import Verif.Triecow.Lemmas4
/-! # Lemmas: searching -/
namespace Knot.Cow
open Knot.Trie (Key)

variable {V : Type}

/-- The path of the trie without addresses. -/
def pathOf (t : AT V) : List (Frame V) → List (Trie.Node V × Nat)
  | [] => []
  | f :: C => (erase (f.wrap t), f.l.length) :: pathOf (f.wrap t) C

/-- The pointers to the nodes above the hole. -/
def upOf : List (Frame V) → List Ptr
  | [] => []
  | _ :: C => hole C :: upOf C

/-- The stack of pointers to the hole. -/
def stackOf (C : List (Frame V)) : List Ptr := hole C :: upOf C

theorem stackOf_cons (f : Frame V) (C : List (Frame V)) : stackOf (f :: C) = ptrOf f :: stackOf C := rfl

theorem stackOf_reverse (C : List (Frame V)) : (stackOf C).reverse = .root :: C.reverse.map ptrOf := by
  induction C with
  | nil => rfl
  | cons f C ih => rw [stackOf_cons, List.reverse_cons, ih]; simp

theorem plug_path (t' t : AT V) (C : List (Frame V)) : Trie.plug (erase t') (pathOf t C) = erase (plugA t' C) := by
  induction C generalizing t t' with
  | nil => rfl
  | cons f C ih =>
    rw [pathOf, plugA, ← ih (f.wrap t') (f.wrap t)]
    simp only [Frame.wrap, erase, Trie.plug, eraseL_eq, List.map_append, List.map_cons]
    congr 2
    simp [List.set_append]

theorem erase_strip {f f' : Frame V} {t t' : AT V} (hf : f'.strip = f.strip) (h : erase t' = erase t) :
    erase (f'.wrap t') = erase (f.wrap t) := by
  cases f; cases f'
  simp only [Frame.strip, Frame.mk.injEq] at hf
  obtain ⟨_, h1, h2, h3, h4⟩ := hf
  subst h1 h2 h3 h4
  simp [Frame.wrap, erase, eraseL_eq, h]

theorem path_strip {C C' : List (Frame V)} {t t' : AT V} (hC : C'.map Frame.strip = C.map Frame.strip)
    (h : erase t' = erase t) : pathOf t' C' = pathOf t C := by
  induction C generalizing C' t t' with
  | nil =>
    cases C' with
    | nil => rfl
    | cons _ _ => simp at hC
  | cons f C ih =>
    cases C' with
    | nil => simp at hC
    | cons f' C' =>
      simp only [List.map_cons, List.cons.injEq] at hC
      simp only [pathOf]
      have h2 := erase_strip hC.1 h
      rw [h2, ih hC.2 h2]
      congr 2
      have := hC.1
      simp only [Frame.strip, Frame.mk.injEq] at this
      rw [this.2.2.2.1]

theorem pushdown_path {s : St V} {To : Option (AT V)} {t : AT V} {C : List (Frame V)} (h : Inv s To (some (plugA t C))) :
    ∃ s' C' x, pushdown s none (stackOf C).reverse = .ok (s', (stackOf C').reverse) ∧
      Inv s' To (some (plugA (t.retop x) C')) ∧ (∀ f ∈ C', s'.mem.flag f.a = false) ∧ s'.mem.flag x = false ∧
      C'.map Frame.strip = C.map Frame.strip ∧ s'.old = s.old ∧ s'.new.weight = s.new.weight := by
  have he : plugA t C = plugA (plugDown t C.reverse) [] := by
    rw [plugDown_plug]; simp
  rw [he] at h
  obtain ⟨s', E', x, e1, i1, _, d1, x1, al, o1, w1⟩ := pushdown_ok C.reverse (moved := none) (p := .root) h (by simp) rfl
  refine ⟨s', E'.reverse, x, ?_, ?_, ?_, x1, ?_, o1, w1⟩
  · rw [stackOf_reverse, stackOf_reverse, List.reverse_reverse]; exact e1
  · rw [plugDown_plug] at i1; simpa using i1
  · intro f hf; exact d1 f (by simpa using hf)
  · rw [List.map_reverse, al, List.map_reverse, List.reverse_reverse]

/-- The new trie is the tree. -/
def Sees (s : St V) (T : AT V) : Prop := s.new.root = T.node ∧ Rep s.mem T

theorem Sees.load {s : St V} {t : AT V} {C : List (Frame V)} (h : Sees s (plugA t C)) : load s (hole C) = .ok t.node := by
  obtain ⟨h1, h2⟩ := h
  rw [node_plug] at h1
  exact load_ok h1 (rep_plug.1 h2).1

theorem Sees.rep {s : St V} {t : AT V} {C : List (Frame V)} (h : Sees s (plugA t C)) : Rep s.mem t := (rep_plug.1 h.2).2

theorem addrs_kid {t c : AT V} (hc : c ∈ t.kids) : (addrs c).length < (addrs t).length := by
  rw [addrs_kids t]
  obtain ⟨l, r, e⟩ := List.append_of_mem hc
  rw [e]
  simp only [List.flatMap_append, List.flatMap_cons, List.length_cons, List.length_append]
  omega

theorem descend_sim {s : St V} {T : AT V} (hs : Sees s T) (key : Key) (t : AT V) : ∀ (C : List (Frame V)) (fuel : Nat)
    (stk : Trie.Stk V), plugA t C = T → (addrs t).length ≤ fuel → Trie.descend (erase t) (pathOf t C) key = .ok stk →
    ∃ k lkey v C', plugA (.leaf k lkey v) C' = T ∧ stk = ⟨.leaf lkey v, pathOf (.leaf k lkey v) C'⟩ ∧
      descend s fuel (hole C) (upOf C) key = .ok (stackOf C', lkey) := by
  induction t using AT.ind with
  | h t ih =>
    intro C fuel stk hT hfuel hd
    have hload := (hT ▸ hs : Sees s (plugA t C)).load
    have hrep := (hT ▸ hs : Sees s (plugA t C)).rep
    have hpos : 0 < (addrs t).length := by rw [addrs_kids]; simp
    obtain ⟨fuel, rfl⟩ : ∃ n, fuel = n + 1 := ⟨fuel - 1, by omega⟩
    unfold descend
    rw [hload]
    simp only [Res.bind_ok]
    cases t with
    | leaf k lkey v =>
      have hb := ((rep_iff _ _).1 hrep).1
      simp only [AT.top, AT.body] at hb
      simp only [AT.node]
      rw [key_of hb]
      simp only [Res.bind_ok]
      simp only [erase] at hd
      rw [Trie.descend] at hd
      injection hd with hd
      exact ⟨k, lkey, v, C, hT, hd.symm, rfl⟩
    | branch a i bmp tw =>
      simp only [AT.node]
      simp only [erase] at hd
      rw [Trie.descend] at hd
      split at hd
      · rename_i c hc
        have hlt : Trie.chosen bmp (Trie.keybit i key) < Trie.branchWeight bmp := by
          unfold Trie.twig at hc
          split at hc
          · assumption
          · cases hc
        rw [if_pos hlt]
        unfold Trie.twig at hc
        rw [if_pos hlt, eraseL_eq] at hc
        unfold Res.rd at hc
        split at hc
        · rename_i c' hg
          injection hc with hc
          subst hc
          rw [List.getElem?_map] at hg
          obtain ⟨d, hd1, hd2⟩ := Option.map_eq_some_iff.1 hg
          subst hd2
          have hdm : d ∈ tw := List.mem_of_getElem? hd1
          have hjl : Trie.chosen bmp (Trie.keybit i key) < tw.length := by
            obtain ⟨h, _⟩ := List.getElem?_eq_some_iff.1 hd1; exact h
          have hsplit : tw = tw.take (Trie.chosen bmp (Trie.keybit i key)) ++ d :: tw.drop (Trie.chosen bmp (Trie.keybit i key) + 1) := by
            obtain ⟨h, h2⟩ := List.getElem?_eq_some_iff.1 hd1
            rw [← h2, List.getElem_cons_drop, List.take_append_drop]
          generalize hj : Trie.chosen bmp (Trie.keybit i key) = j at *
          let f : Frame V := ⟨a, i, bmp, tw.take j, tw.drop (j + 1)⟩
          have hw : f.wrap d = .branch a i bmp tw := by
            simp only [f, Frame.wrap]; rw [← hsplit]
          have hfl : f.l.length = j := by simp only [f, List.length_take]; omega
          have hlen := addrs_kid (t := .branch a i bmp tw) (c := d) hdm
          obtain ⟨k, lkey, v, C', r1, r2, r3⟩ := ih d hdm (f :: C) fuel stk (by simp only [plugA]; rw [hw]; exact hT)
            (by omega) (by
              simp only [pathOf, hw, hfl]
              rw [← hd]
              simp [erase])
          refine ⟨k, lkey, v, C', r1, r2, ?_⟩
          rw [← r3]
          simp only [hole, upOf, hfl]
          rfl
        · cases hc
      · cases hd

theorem climb_sim {s : St V} {T : AT V} (hs : Sees s T) (index : Nat) : ∀ (C : List (Frame V)) (t : AT V) (stk : Trie.Stk V),
    plugA t C = T → Trie.climb index (erase t) (pathOf t C) = .ok stk →
    ∃ t' C', plugA t' C' = T ∧ stk = ⟨erase t', pathOf t' C'⟩ ∧ climb s index (stackOf C) = .ok (stackOf C') := by
  intro C
  induction C with
  | nil =>
    intro t stk hT hc
    simp only [pathOf, Trie.climb] at hc
    injection hc with hc
    exact ⟨t, [], hT, hc.symm, rfl⟩
  | cons f C ih =>
    intro t stk hT hc
    have hload : load s (hole C) = .ok (f.wrap t).node := Sees.load (by rw [← hT] at hs; exact hs)
    rw [stackOf_cons]
    simp only [stackOf, climb]
    rw [hload]
    simp only [Res.bind_ok, Frame.wrap, AT.node]
    simp only [pathOf, Frame.wrap, erase, Trie.climb] at hc
    by_cases hi : f.i < index
    · rw [if_pos hi] at hc ⊢
      injection hc with hc
      refine ⟨t, f :: C, hT, ?_, rfl⟩
      rw [← hc]
      simp [pathOf, Frame.wrap, erase]
    · rw [if_neg hi] at hc ⊢
      obtain ⟨t', C', r1, r2, r3⟩ := ih (f.wrap t) stk hT (by rw [← hc]; simp [Frame.wrap, erase])
      exact ⟨t', C', r1, r2, r3⟩

theorem findBranch_sim {s : St V} {T : AT V} (hs : Sees s T) (hf : (addrs T).length ≤ s.mem.next) (key : Key)
    {r : Trie.Found V} (h : Trie.findBranch (erase T) key = .ok r) :
    ∃ t C d, plugA t C = T ∧ findBranch s key = .ok (stackOf C, d) ∧
      r = (match d with
        | none => .exact ⟨erase t, pathOf t C⟩
        | some (a, b, c) => .diff ⟨erase t, pathOf t C⟩ a b c) ∧
      (d = none → ∃ k v, t = .leaf k key v) := by
  unfold Trie.findBranch at h
  cases hd : Trie.descend (erase T) [] key with
  | err e => rw [hd] at h; cases h
  | ub => rw [hd] at h; cases h
  | ok stk =>
    rw [hd] at h
    simp only [Res.bind_ok] at h
    obtain ⟨k, lkey, v, C, r1, r2, r3⟩ := descend_sim hs key T [] s.mem.next stk rfl hf hd
    subst r2
    unfold findBranch
    have : descend s s.mem.next .root [] key = .ok (stackOf C, lkey) := r3
    rw [this]
    simp only [Res.bind_ok]
    simp only [Trie.findFrom] at h
    cases hx : Trie.diffIndex key lkey with
    | none =>
      rw [hx] at h
      simp only at h
      injection h with h
      have hk : key = lkey := by
        unfold Trie.diffIndex at hx
        dsimp only at hx
        split at hx
        · rename_i hh
          have : ∀ (a b : Key), Trie.bytei a b = a.length → a.length = b.length → a = b := by
            intro a
            induction a with
            | nil => intro b _ h; cases b with
              | nil => rfl
              | cons _ _ => simp at h
            | cons x a ih =>
              intro b h1 h2
              cases b with
              | nil => simp at h2
              | cons y b =>
                simp only [Trie.bytei] at h1
                split at h1
                · rename_i e
                  simp only [List.length_cons] at h1 h2
                  rw [ih b (by omega) (by omega), eq_of_beq e]
                · simp at h1
          exact this _ _ hh.1 hh.2
        · split at hx
          · split at hx <;> cases hx
          · cases hx
      exact ⟨_, C, none, r1, rfl, by rw [← h]; simp [erase], fun _ => ⟨k, v, by rw [hk]⟩⟩
    | some index =>
      rw [hx] at h
      simp only at h
      cases hcl : Trie.climb index (.leaf lkey v) (pathOf (.leaf k lkey v) C) with
      | err e => rw [hcl] at h; cases h
      | ub => rw [hcl] at h; cases h
      | ok stk =>
        rw [hcl] at h
        simp only [Res.bind_ok] at h
        obtain ⟨t', C', q1, q2, q3⟩ := climb_sim hs index C (.leaf k lkey v) stk r1 (by simpa [erase] using hcl)
        subst q2
        simp only
        rw [q3]
        simp only [Res.bind_ok]
        have htop : topOk s index (stackOf C') = .ok (match erase t' with
            | .leaf _ _ => true
            | .branch j _ _ => decide (index ≤ j)) := by
          simp only [stackOf, topOk]
          rw [(q1 ▸ hs : Sees s (plugA t' C')).load]
          simp only [Res.bind_ok]
          cases t' <;> rfl
        rw [htop]
        simp only [Res.bind_ok]
        cases t' with
        | leaf k' l' v' =>
          simp only [erase] at h ⊢
          injection h with h
          exact ⟨_, C', _, q1, rfl, by rw [← h]; simp [erase], by simp⟩
        | branch a i bmp tw =>
          simp only [erase] at h ⊢
          by_cases hj : i < index
          · rw [if_pos hj] at h; cases h
          · rw [if_neg hj] at h
            injection h with h
            have hh : decide (index ≤ i) = true := by simp; omega
            simp only [hh, if_true]
            exact ⟨_, C', _, q1, rfl, by rw [← h]; simp [erase], by simp⟩

end Knot.Cow
