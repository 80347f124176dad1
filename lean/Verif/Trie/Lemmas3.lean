import Verif.Trie.Lemmas2
/-! The operations on paths. -/
namespace Knot.Trie
variable {V : Type}

/-- A stack that points to a leaf of the trie. -/
def AtLeaf (root : Node V) (s : Stk V) (k : Key) (v : V) : Prop := s.top = .leaf k v ∧ IsPath root (.leaf k v) s.up

theorem AtLeaf.toList {root : Node V} {s : Stk V} {k : Key} {v : V} (h : AtLeaf root s k v) :
    toList root = before s.up ++ (k, v) :: after s.up := by
  rw [h.2.toList]; simp [Trie.toList]

theorem firstLeaf_spec {root : Node V} (hw : WF root) (t : Node V) (up : List (Node V × Nat)) (h : IsPath root t up) :
    ∃ s k v, firstLeaf t up = .ok s ∧ AtLeaf root s k v ∧ before s.up = before up := by
  fun_induction firstLeaf t up with
  | case1 up k v => exact ⟨_, k, v, rfl, ⟨rfl, h⟩, rfl⟩
  | case2 up i bmp tw c hc ih =>
    obtain ⟨hg, _⟩ := twig_get hc
    obtain ⟨s, k, v, e1, e2, e3⟩ := ih (.cons h hg)
    exact ⟨s, k, v, e1, e2, by rw [e3]; simp [before, toListL]⟩
  | case3 up i bmp tw hne =>
    exfalso
    have hwt := h.wf hw
    cases hwt with
    | branch hl h2 hc ha hb =>
      obtain ⟨c, hc', _⟩ := (WF.branch hl h2 hc ha hb).twig (n := 0) (by omega)
      exact hne c hc'

theorem lastLeaf_spec {root : Node V} (hw : WF root) (t : Node V) (up : List (Node V × Nat)) (h : IsPath root t up) :
    ∃ s k v, lastLeaf t up = .ok s ∧ AtLeaf root s k v ∧ after s.up = after up := by
  fun_induction lastLeaf t up with
  | case1 up k v => exact ⟨_, k, v, rfl, ⟨rfl, h⟩, rfl⟩
  | case2 up i bmp tw c hc ih =>
    obtain ⟨hg, hlt⟩ := twig_get hc
    obtain ⟨s, k, v, e1, e2, e3⟩ := ih (.cons h hg)
    refine ⟨s, k, v, e1, e2, ?_⟩
    rw [e3]
    have hwt := h.wf hw
    cases hwt with
    | branch hl h2 hcw ha hb =>
      simp only [after]
      rw [List.drop_eq_nil_of_le (by omega)]
      simp [toListL]
  | case3 up i bmp tw hne =>
    exfalso
    have hwt := h.wf hw
    cases hwt with
    | branch hl h2 hc ha hb =>
      obtain ⟨c, hc', _⟩ := (WF.branch hl h2 hc ha hb).twig (n := branchWeight bmp - 1) (by omega)
      exact hne c hc'

theorem nextUp_spec {root : Node V} (hw : WF root) (t : Node V) (up : List (Node V × Nat)) (h : IsPath root t up) :
    (nextUp false t up = .ok none ∧ after up = []) ∨
    ∃ s k v, nextUp false t up = .ok (some s) ∧ AtLeaf root s k v ∧ before s.up = before up ++ toList t := by
  induction up generalizing t with
  | nil => left; simp [nextUp, after]
  | cons f up ih =>
    cases h with
    | @cons i bmp tw ci _ _ hp hci =>
      have hci' := (List.getElem?_eq_some_iff.mp hci).1
      have hwt := hp.wf hw
      have hwt' := hwt
      cases hwt' with
      | branch hl h2 hc ha hb =>
        simp only [nextUp, skipHere, Bool.false_eq_true, false_and, if_false, Res.bind_ok]
        rw [if_neg (by omega)]
        by_cases hlast : ci + 1 = branchWeight bmp
        · rw [if_pos hlast]
          rcases ih (.branch i bmp tw) hp with ⟨e1, e2⟩ | ⟨s, k, v, e1, e2, e3⟩
          · left
            refine ⟨e1, ?_⟩
            simp only [after]
            rw [List.drop_eq_nil_of_le (by omega), e2]
            rfl
          · right
            refine ⟨s, k, v, e1, e2, ?_⟩
            rw [e3]
            simp only [before, toList]
            rw [toListL_split hci, List.drop_eq_nil_of_le (by omega)]
            simp [toListL]
        · rw [if_neg hlast]
          obtain ⟨c, hc1, hc2⟩ := hwt.twig (n := ci + 1) (by omega)
          obtain ⟨s, k, v, e1, e2, e3⟩ := firstLeaf_spec hw c _ (.cons hp hc2)
          right
          refine ⟨s, k, v, ?_, e2, ?_⟩
          · rw [hc1]
            simp only [Res.bind_ok]
            rw [e1]
            rfl
          · rw [e3]
            simp only [before]
            have htk : tw.take (ci + 1) = tw.take ci ++ [t] := by
              rw [List.take_add_one, hci]; rfl
            rw [htk, toListL_append]
            simp [toListL]

theorem prevUp_spec {root : Node V} (hw : WF root) (t : Node V) (up : List (Node V × Nat)) (h : IsPath root t up) :
    (prevUp up = .ok none ∧ before up = []) ∨
    ∃ s k v, prevUp up = .ok (some s) ∧ AtLeaf root s k v ∧ after s.up = toList t ++ after up := by
  induction up generalizing t with
  | nil => left; simp [prevUp, before]
  | cons f up ih =>
    cases h with
    | @cons i bmp tw ci _ _ hp hci =>
      have hci' := (List.getElem?_eq_some_iff.mp hci).1
      have hwt := hp.wf hw
      have hwt' := hwt
      cases hwt' with
      | branch hl h2 hc ha hb =>
        simp only [prevUp]
        by_cases h0 : ci = 0
        · subst h0
          rw [if_pos rfl]
          rcases ih (.branch i bmp tw) hp with ⟨e1, e2⟩ | ⟨s, k, v, e1, e2, e3⟩
          · left; exact ⟨e1, by simp [before, e2, toListL]⟩
          · right
            refine ⟨s, k, v, e1, e2, ?_⟩
            rw [e3]
            simp only [after, toList]
            rw [toListL_split hci]
            simp [toListL]
        · rw [if_neg h0]
          obtain ⟨c, hc1, hc2⟩ := hwt.twig (n := ci - 1) (by omega)
          obtain ⟨s, k, v, e1, e2, e3⟩ := lastLeaf_spec hw c _ (.cons hp hc2)
          right
          refine ⟨s, k, v, ?_, e2, ?_⟩
          · rw [hc1]
            simp only [Res.bind_ok]
            rw [e1]
            rfl
          · rw [e3]
            simp only [after]
            have : ci - 1 + 1 = ci := by omega
            rw [this, List.drop_eq_getElem_cons hci', toListL]
            have : tw[ci] = t := (List.getElem?_eq_some_iff.mp hci).2
            rw [this]
            simp

/-! ## Descent -/

theorem chosen_lt (bmp bit : Nat) (h : bit < 17) (hw : 0 < branchWeight bmp) : chosen bmp bit < branchWeight bmp := by
  unfold chosen
  split
  · rename_i hb; exact twigoff_lt_of bmp bit h hb
  · exact hw

/-- The path follows the key wherever it can. -/
def Followed (key : Key) (up : List (Node V × Nat)) : Prop :=
  ∀ i bmp tw ci, (Node.branch i bmp tw, ci) ∈ up → ci = chosen bmp (keybit i key)

theorem descend_spec {root : Node V} (hw : WF root) (t : Node V) (up : List (Node V × Nat)) (key : Key) (h : IsPath root t up)
    (hf : Followed key up) :
    ∃ s k v, descend t up key = .ok s ∧ AtLeaf root s k v ∧ Followed key s.up := by
  fun_induction descend t up key with
  | case1 up k v => exact ⟨_, k, v, rfl, ⟨rfl, h⟩, hf⟩
  | case2 up i bmp tw c hc ih =>
    obtain ⟨hg, _⟩ := twig_get hc
    refine ih (.cons h hg) ?_
    intro i' bmp' tw' ci' hm
    rcases List.mem_cons.mp hm with he | hm
    · injection he with h1 h2
      injection h1 with h1 h3 h4
      subst h1 h3 h4 h2
      rfl
    · exact hf i' bmp' tw' ci' hm
  | case3 up i bmp tw hne =>
    exfalso
    have hwt := h.wf hw
    cases hwt with
    | branch hl h2 hc ha hb =>
      obtain ⟨c, hc', _⟩ := (WF.branch hl h2 hc ha hb).twig (chosen_lt bmp (keybit i key) (by have := keybit_le i key; omega) (by omega))
      exact hne c hc'

theorem climb_spec {root : Node V} (hw : WF root) (idx : Nat) (t : Node V) (up : List (Node V × Nat)) (h : IsPath root t up)
    (ht : ∀ j bmp tw, t = .branch j bmp tw → idx ≤ j) :
    ∃ s, climb idx t up = .ok s ∧ IsPath root s.top s.up ∧ (∃ l, up = l ++ s.up) ∧ (∀ e ∈ toList t, e ∈ toList s.top) ∧
      (∀ j bmp tw, s.top = .branch j bmp tw → idx ≤ j ∧ (s.top = t ∨ ∃ ci, (Node.branch j bmp tw, ci) ∈ up)) ∧
      (∀ i bmp tw ci, (Node.branch i bmp tw, ci) ∈ s.up → i < idx) := by
  induction up generalizing t with
  | nil => exact ⟨⟨t, []⟩, rfl, h, ⟨[], rfl⟩, by simp, by intro j bmp tw he; exact ⟨ht j bmp tw he, .inl rfl⟩, by simp⟩
  | cons f up ih =>
    cases h with
    | @cons i bmp tw ci _ _ hp hci =>
      simp only [climb]
      split
      · rename_i hlt
        refine ⟨_, rfl, .cons hp hci, ⟨[], rfl⟩, by simp, ?_, ?_⟩
        · intro j bmp' tw' he; exact ⟨ht j bmp' tw' he, .inl rfl⟩
        · intro i' bmp' tw' ci' hm
          rcases List.mem_cons.mp hm with he | hm
          · injection he with h1 h2
            injection h1 with h1 h3 h4
            omega
          · have := hp.index_lt hw i' bmp' tw' ci' hm; omega
      · rename_i hge
        obtain ⟨s, e1, e2, ⟨l, hl⟩, e3, e4, e5⟩ := ih (.branch i bmp tw) hp (by
          intro j b w he; injection he with he _ _; omega)
        refine ⟨s, e1, e2, ⟨(.branch i bmp tw, ci) :: l, by rw [hl]; rfl⟩, ?_, ?_, e5⟩
        · intro e he
          exact e3 e (by simp only [toList]; exact (mem_toListL _ _).mpr ⟨t, List.mem_of_getElem? hci, he⟩)
        · intro j b w he
          obtain ⟨h1, h2⟩ := e4 j b w he
          refine ⟨h1, .inr ?_⟩
          rcases h2 with h2 | ⟨c, h2⟩
          · exact ⟨ci, by rw [← he, h2]; simp⟩
          · exact ⟨c, by simp [h2]⟩

/-- What ns_find_branch() finds. -/
theorem findBranch_spec {root : Node V} (hw : WF root) (key : Key) :
    (∃ s v, findBranch root key = .ok (.exact s) ∧ AtLeaf root s key v) ∨
    ∃ s idx tbit e0, findBranch root key = .ok (.diff s idx tbit (keybit idx key)) ∧ IsPath root s.top s.up ∧
      e0 ∈ toList s.top ∧ tbit = keybit idx e0.1 ∧ keybit idx key ≠ tbit ∧
      (∀ e ∈ toList s.top, Agree idx key e.1) ∧
      (∀ i bmp tw ci, (Node.branch i bmp tw, ci) ∈ s.up → i < idx) ∧
      (∀ j bmp tw, s.top = .branch j bmp tw → idx ≤ j ∧ (j = idx → bmp.testBit (keybit idx key) = false) ∧
        (idx < j → ∀ e ∈ toList s.top, keybit idx e.1 = tbit)) ∧
      (∀ k v, s.top = .leaf k v → e0 = (k, v)) := by
  obtain ⟨s, k, v, e1, ⟨hst, hp⟩, hf⟩ := descend_spec hw root [] key .nil (by intro _ _ _ _ h; simp at h)
  unfold findBranch
  rw [e1]
  simp only [Res.bind_ok]
  unfold findFrom
  rw [hst]
  simp only
  rcases diffIndex_spec key k with ⟨hd, hk⟩ | ⟨idx, hd, hag, hne⟩
  · left
    rw [hd]
    subst hk
    exact ⟨s, v, rfl, hst, hp⟩
  · right
    rw [hd]
    obtain ⟨s', c1, c2, ⟨l, hl⟩, c3, c4, c5⟩ := climb_spec hw idx (.leaf k v) s.up hp (by intro _ _ _ h; cases h)
    simp only
    rw [c1]
    simp only [Res.bind_ok]
    have hmem : (k, v) ∈ toList s'.top := c3 (k, v) (by simp [toList])
    have hw' := c2.wf hw
    -- keys below the top agree with the found key up to the index
    have hagr : ∀ e ∈ toList s'.top, Agree idx key e.1 := by
      intro e he
      cases htop : s'.top with
      | leaf k' v' =>
        rw [htop] at he hmem
        simp only [toList, List.mem_singleton] at he hmem
        rw [he, ← hmem]
        exact hag
      | branch j bmp tw =>
        have := (c4 j bmp tw htop).1
        rw [htop] at he hmem hw'
        cases hw' with
        | branch _ _ _ ha _ =>
          simp only [toList] at he hmem
          have g := ha (k, v) hmem e he
          exact Agree.trans hag (g.mono this)
    refine ⟨s', idx, keybit idx k, (k, v), ?_, c2, hmem, rfl, hne, hagr, c5, ?_, ?_⟩
    · cases htop : s'.top with
      | leaf k' v' => rfl
      | branch j bmp tw =>
        have := (c4 j bmp tw htop).1
        simp only
        rw [if_neg (by omega)]
    · intro j bmp tw htop
      obtain ⟨h1, h2⟩ := c4 j bmp tw htop
      rw [htop] at hmem hw'
      cases hw' with
      | branch hl2 h22 hc ha hb =>
        simp only [toList] at hmem
        refine ⟨h1, ?_, ?_⟩
        · intro hj
          subst hj
          by_cases htb : bmp.testBit (keybit j key) = true
          · exfalso
            have hfr : ∃ ci, (Node.branch j bmp tw, ci) ∈ s.up := by
              rcases h2 with h2 | h2
              · rw [htop] at h2; cases h2
              · exact h2
            obtain ⟨ci, hfr⟩ := hfr
            have hch := hf j bmp tw ci hfr
            -- the leaf is below the child for the key's bit
            have hleaf : ∀ (t : Node V) (up : List (Node V × Nat)), IsPath root t up → ∀ ci, (Node.branch j bmp tw, ci) ∈ up →
                ∃ c, tw[ci]? = some c ∧ ∀ e ∈ toList t, e ∈ toList c := by
              intro t up hpt
              induction hpt with
              | nil => simp
              | @cons i2 b2 w2 ci2 t2 up2 hp2 hci2 ih =>
                intro ci hm
                rcases List.mem_cons.mp hm with he | hm
                · injection he with h1 h3
                  injection h1 with h1 h4 h5
                  subst h1 h4 h5 h3
                  exact ⟨t2, hci2, by simp⟩
                · obtain ⟨c, hc1, hc2⟩ := ih ci hm
                  refine ⟨c, hc1, fun e he => hc2 e ?_⟩
                  simp only [toList]
                  exact (mem_toListL _ _).mpr ⟨t2, List.mem_of_getElem? hci2, he⟩
            obtain ⟨c, hc1, hc2⟩ := hleaf _ _ hp ci hfr
            have hbit := hb ci c hc1 (k, v) (hc2 (k, v) (by simp [toList]))
            rw [hch] at hbit
            unfold chosen at hbit
            rw [if_pos htb, bits_get_of bmp _ (by have := keybit_le j key; omega) htb] at hbit
            injection hbit with hbit
            exact hne hbit
          · simpa using htb
        · intro hlt e he
          rw [htop] at he
          simp only [toList] at he
          exact (ha (k, v) hmem e he idx hlt).symm
    · intro k' v' htop
      rw [htop] at hmem
      simpa [toList] using hmem

end Knot.Trie
