import Verif.Trie.Lemmas4
/-! Iterators. -/
namespace Knot.Trie
variable {V : Type}

/-- The iterator stands at the leaf number `n`. -/
def Cur (root : Node V) (s : Stk V) (n : Nat) : Prop := ∃ k v, AtLeaf root s k v ∧ (before s.up).length = n

theorem Cur.get {root : Node V} {s : Stk V} {n : Nat} (h : Cur root s n) : ∃ e, itEntry s = .ok e ∧ (toList root)[n]? = some e := by
  obtain ⟨k, v, h1, h2⟩ := h
  refine ⟨(k, v), by unfold itEntry; rw [h1.1], ?_⟩
  rw [h1.toList, List.getElem?_append_right (by omega), h2]
  simp

theorem Cur.lt {root : Node V} {s : Stk V} {n : Nat} (h : Cur root s n) : n < (toList root).length := by
  obtain ⟨e, _, h⟩ := h.get
  exact (List.getElem?_eq_some_iff.mp h).1

theorem first_cur {root : Node V} (hw : WF root) : ∃ s, firstLeaf root [] = .ok s ∧ Cur root s 0 := by
  obtain ⟨s, k, v, e1, e2, e3⟩ := firstLeaf_spec hw root [] .nil
  exact ⟨s, e1, k, v, e2, by rw [e3]; rfl⟩

theorem last_cur {root : Node V} (hw : WF root) : ∃ s, lastLeaf root [] = .ok s ∧ Cur root s ((toList root).length - 1) := by
  obtain ⟨s, k, v, e1, e2, e3⟩ := lastLeaf_spec hw root [] .nil
  refine ⟨s, e1, k, v, e2, ?_⟩
  have := congrArg List.length e2.toList
  rw [e3] at this
  simp [after] at this
  omega

theorem next_cur {root : Node V} (hw : WF root) {s : Stk V} {n : Nat} (h : Cur root s n) :
    (n + 1 = (toList root).length ∧ itNext s = .ok none) ∨
    (n + 1 < (toList root).length ∧ ∃ s', itNext s = .ok (some s') ∧ Cur root s' (n + 1)) := by
  obtain ⟨k, v, h1, h2⟩ := h
  have hl := congrArg List.length h1.toList
  simp only [List.length_append, List.length_cons] at hl
  have hn : itNext s = nextUp false (.leaf k v) s.up := by unfold itNext nextLeaf; rw [h1.1]
  rcases nextUp_spec hw _ _ h1.2 with ⟨e1, e2⟩ | ⟨s', k', v', e1, e2, e3⟩
  · left; rw [hn, e1]; rw [e2] at hl; simp at hl; exact ⟨by omega, rfl⟩
  · right
    have hc : Cur root s' (n + 1) := ⟨k', v', e2, by rw [e3]; simp [toList, h2]⟩
    exact ⟨hc.lt, s', by rw [hn, e1], hc⟩

theorem prev_cur {root : Node V} (hw : WF root) {s : Stk V} {n : Nat} (h : Cur root s n) :
    (n = 0 ∧ itPrev s = .ok none) ∨
    (0 < n ∧ ∃ s', itPrev s = .ok (some s') ∧ Cur root s' (n - 1)) := by
  obtain ⟨k, v, h1, h2⟩ := h
  have hl := congrArg List.length h1.toList
  simp only [List.length_append, List.length_cons] at hl
  have hn : itPrev s = prevUp s.up := by unfold itPrev prevLeaf; rw [h1.1]
  rcases prevUp_spec hw _ _ h1.2 with ⟨e1, e2⟩ | ⟨s', k', v', e1, e2, e3⟩
  · left; rw [hn, e1]; rw [e2] at h2; simp at h2; exact ⟨by omega, rfl⟩
  · right
    have hl' := congrArg List.length e2.toList
    rw [e3] at hl'
    simp [toList] at hl'
    have hc : (before s'.up).length = n - 1 := by omega
    exact ⟨by omega, s', by rw [hn, e1], k', v', e2, hc⟩

theorem stkRoot_eq {root : Node V} {s : Stk V} {k : Key} {v : V} (h : AtLeaf root s k v) : stkRoot s = root := by
  unfold stkRoot
  rw [h.1]
  exact h.2.plug

theorem nextLoop_cur {root : Node V} (hw : WF root) {s : Stk V} {n : Nat} (h : Cur root s n) :
    ∃ s', itNextLoop s = .ok (some s') ∧ Cur root s' ((n + 1) % (toList root).length) := by
  have hlt := h.lt
  have hr : stkRoot s = root := by obtain ⟨k, v, h1, _⟩ := h; exact stkRoot_eq h1
  unfold itNextLoop
  rcases next_cur hw h with ⟨h1, h2⟩ | ⟨h1, s', h2, h3⟩
  · unfold itNext at h2
    obtain ⟨s', f1, f2⟩ := first_cur hw
    rw [h2, hr]
    simp only [Res.bind_ok]
    rw [f1, h1, Nat.mod_self]
    exact ⟨s', rfl, f2⟩
  · unfold itNext at h2
    rw [h2, Nat.mod_eq_of_lt h1]
    exact ⟨s', rfl, h3⟩

theorem prevLoop_cur {root : Node V} (hw : WF root) {s : Stk V} {n : Nat} (h : Cur root s n) :
    ∃ s', itPrevLoop s = .ok (some s') ∧ Cur root s' (if n = 0 then (toList root).length - 1 else n - 1) := by
  have hlt := h.lt
  have hr : stkRoot s = root := by obtain ⟨k, v, h1, _⟩ := h; exact stkRoot_eq h1
  unfold itPrevLoop
  rcases prev_cur hw h with ⟨h1, h2⟩ | ⟨h1, s', h2, h3⟩
  · unfold itPrev at h2
    obtain ⟨s', f1, f2⟩ := last_cur hw
    rw [h2, hr]
    simp only [Res.bind_ok]
    rw [f1, if_pos h1]
    exact ⟨s', rfl, f2⟩
  · unfold itPrev at h2
    rw [h2, if_neg (by omega)]
    exact ⟨s', rfl, h3⟩

/-! ## Prefixes -/

theorem keybit_pos {i : Nat} {k : Key} (h : i / 2 < k.length) : keybit i k ≠ 0 := by
  intro h0
  rw [keybit_eq_zero] at h0
  omega

theorem prefix_keybit {e k : Key} (h : e <+: k) (i : Nat) (h0 : keybit i e ≠ 0) : keybit i k = keybit i e := by
  obtain ⟨r, rfl⟩ := h
  unfold keybit at h0 ⊢
  by_cases hl : i / 2 < e.length
  · rw [List.getElem?_append_left hl]
  · rw [List.getElem?_eq_none (by omega)] at h0
    simp at h0

theorem bytes_of_keybits {a b : UInt8} {x y : Nat} (h1 : x = a.toNat / 16 + 1) (h2 : y = a.toNat % 16 + 1)
    (h3 : x = b.toNat / 16 + 1) (h4 : y = b.toNat % 16 + 1) : a = b := by
  apply UInt8.toNat_inj.mp
  omega

theorem prefix_of_agree {e k : Key} {i : Nat} (h : Agree i e k) (h0 : keybit i e = 0) : e <+: k := by
  rw [keybit_eq_zero] at h0
  rw [List.prefix_iff_eq_take]
  apply List.ext_getElem?
  intro j
  by_cases hj : j < e.length
  · have a1 := h (2 * j) (by omega)
    have a2 := h (2 * j + 1) (by omega)
    unfold keybit at a1 a2
    rw [List.getElem?_take, if_pos hj]
    have d1 : 2 * j / 2 = j := by omega
    have d2 : (2 * j + 1) / 2 = j := by omega
    have m1 : 2 * j % 2 ≠ 1 := by omega
    have m2 : (2 * j + 1) % 2 = 1 := by omega
    rw [d1] at a1
    rw [d2] at a2
    rw [List.getElem?_eq_getElem hj] at a1 a2 ⊢
    cases hk : k[j]? with
    | none => rw [hk] at a1; simp [m1] at a1
    | some y =>
      rw [hk] at a1 a2
      simp only [m1, m2, if_false, if_true] at a1 a2
      rw [bytes_of_keybits rfl rfl a1 a2]
  · rw [List.getElem?_eq_none (by omega), List.getElem?_take, if_neg hj]

/-- The key is a proper beginning of the other. -/
def Proper (e k : Key) : Prop := e <+: k ∧ e ≠ k

theorem Proper.klt {e k : Key} (h : Proper e k) : KLt e k := by
  obtain ⟨⟨r, rfl⟩, h2⟩ := h
  have hr : r ≠ [] := by rintro rfl; simp at h2
  refine ⟨2 * e.length, ?_, ?_⟩
  · intro j hj
    by_cases h0 : keybit j e = 0
    · rw [keybit_eq_zero] at h0; omega
    · exact (prefix_keybit ⟨r, rfl⟩ j h0).symm
  · rw [(keybit_eq_zero _ e).mpr (by omega)]
    have := List.length_pos_iff.mpr hr
    exact Nat.pos_of_ne_zero (keybit_pos (by simp; omega))

theorem nobyte_leaf {i bmp : Nat} {tw : List (Node V)} (hw : WF (.branch i bmp tw)) (h0 : bmp.testBit 0 = true) :
    ∃ k v, twig bmp tw 0 = .ok (.leaf k v) ∧ tw[0]? = some (.leaf k v) ∧ keybit i k = 0 ∧ (bits bmp)[0]? = some 0 := by
  have hz := bits_get_of bmp 0 (by omega) h0
  have hoff0 : twigoff bmp 0 = 0 := by simp [twigoff]
  rw [hoff0] at hz
  have hlt := twigoff_lt_of bmp 0 (by omega) h0
  rw [hoff0] at hlt
  obtain ⟨c, c1, c2⟩ := hw.twig hlt
  have hcw : WF c := by
    cases hw with
    | branch hl h2 hc ha hb => exact hc c (List.mem_of_getElem? c2)
  cases hw with
  | branch hl h2 hc ha hb =>
    have hall : ∀ e ∈ toList c, keybit i e.1 = 0 := by
      intro e he
      have := hb 0 c c2 e he
      rw [hz] at this
      injection this with this
      exact this.symm
    cases c with
    | leaf k v => exact ⟨k, v, c1, c2, hall (k, v) (by simp [toList]), hz⟩
    | branch j bmp' tw' =>
      exfalso
      have hs := hcw.sorted
      cases hcw with
      | branch hl' h2' hc' ha' hb' =>
        have hmem : ∀ e ∈ toList (Node.branch j bmp' tw'), ∀ e' ∈ toList (Node.branch j bmp' tw'), e.1 = e'.1 := by
          intro e he e' he'
          exact keybit_zero_agree e.1 e'.1 i (hall e he) (hall e' he') (ha e (by
            exact (mem_toListL _ _).mpr ⟨_, List.mem_of_getElem? c2, he⟩) e' (by
            exact (mem_toListL _ _).mpr ⟨_, List.mem_of_getElem? c2, he'⟩))
        match tw', h2' with
        | a :: b :: r, _ =>
          obtain ⟨ea, hea⟩ := (hc' a (by simp)).nonempty
          obtain ⟨eb, heb⟩ := (hc' b (by simp)).nonempty
          have m1 : ea ∈ toList (Node.branch j bmp' (a :: b :: r)) := by simp [toList, toListL, hea]
          have m2 : eb ∈ toList (Node.branch j bmp' (a :: b :: r)) := by simp [toList, toListL, heb]
          have b1 := hb' 0 a rfl ea hea
          have b2 := hb' 1 b rfl eb heb
          rw [hmem ea m1 eb m2] at b1
          have := bits_lt bmp' 0 1 _ _ (by omega) b1 b2
          omega

theorem prefixUp_spec {root : Node V} (hw : WF root) (k : Key) (v : V) (t : Node V) (up : List (Node V × Nat)) (first : Bool)
    (h : IsPath root t up) (hk : (k, v) ∈ toList t) (hf : first = false → ∃ j b tw, t = .branch j b tw) (hf' : first = true → t = .leaf k v) :
    (prefixUp first up = .ok none ∧ ∀ e ∈ before up, ¬ Proper e.1 k) ∨
    ∃ s k' v' rest, prefixUp first up = .ok (some s) ∧ AtLeaf root s k' v' ∧ Proper k' k ∧
      before up = before s.up ++ (k', v') :: rest ∧ ∀ e ∈ rest, ¬ Proper e.1 k := by
  induction up generalizing t first with
  | nil => left; exact ⟨rfl, by simp [before]⟩
  | cons f up ih =>
    cases h with
    | @cons i bmp tw ci _ _ hp hci =>
      have hwt := hp.wf hw
      have hwt' := hwt
      have hkb : (k, v) ∈ toList (Node.branch i bmp tw) := by
        simp only [toList]; exact (mem_toListL _ _).mpr ⟨_, List.mem_of_getElem? hci, hk⟩
      cases hwt' with
      | branch hl h2 hc ha hb =>
        have hkbit := hb ci t hci _ hk
        -- siblings with a nonzero nibble are no prefixes
        have hsib : ∀ m c, m < ci → tw[m]? = some c → (bits bmp)[m]? ≠ some 0 → ∀ e ∈ toList c, ¬ Proper e.1 k := by
          intro m c hm hmc hnz e he hpr
          have hbe := hb m c hmc e he
          have hne : keybit i e.1 ≠ 0 := by intro h0; rw [h0] at hbe; exact hnz hbe
          have := bits_lt bmp m ci _ _ hm hbe hkbit
          rw [prefix_keybit hpr.1 i hne] at this
          omega
        have hrec : (∀ e ∈ toListL (tw.take ci), ¬ Proper e.1 k) →
            prefixUp first ((Node.branch i bmp tw, ci) :: up) = prefixUp false up →
            (prefixUp first ((Node.branch i bmp tw, ci) :: up) = .ok none ∧ ∀ e ∈ before ((Node.branch i bmp tw, ci) :: up), ¬ Proper e.1 k) ∨
            ∃ s k' v' rest, prefixUp first ((Node.branch i bmp tw, ci) :: up) = .ok (some s) ∧ AtLeaf root s k' v' ∧ Proper k' k ∧
              before ((Node.branch i bmp tw, ci) :: up) = before s.up ++ (k', v') :: rest ∧ ∀ e ∈ rest, ¬ Proper e.1 k := by
          intro hno heq
          rw [heq]
          rcases ih (.branch i bmp tw) false hp hkb (fun _ => ⟨_, _, _, rfl⟩) (by simp) with ⟨e1, e2⟩ | ⟨s, k', v', rest, e1, e2, e3, e4, e5⟩
          · left
            refine ⟨e1, ?_⟩
            simp only [before]
            intro e he
            rcases List.mem_append.mp he with he | he
            · exact e2 e he
            · exact hno e he
          · right
            refine ⟨s, k', v', rest ++ toListL (tw.take ci), e1, e2, e3, by simp [before, e4], ?_⟩
            intro e he
            rcases List.mem_append.mp he with he | he
            · exact e5 e he
            · exact hno e he
        by_cases h0 : bmp.testBit 0 = true
        · by_cases hfc : first = true ∧ ci = 0
          · exact hrec (by rw [hfc.2]; simp [toListL]) (by simp only [prefixUp]; rw [if_pos h0, if_pos hfc])
          · obtain ⟨k', v', t1, t2, t3, t4⟩ := nobyte_leaf hwt h0
            have hci0 : ci ≠ 0 := by
              rintro rfl
              rw [t2] at hci
              injection hci with hci
              cases hfb : first with
              | true => exact hfc ⟨hfb, rfl⟩
              | false =>
                obtain ⟨j, b, tw', ht⟩ := hf hfb
                rw [ht] at hci
                cases hci
            right
            have hpath : IsPath root (.leaf k' v') ((Node.branch i bmp tw, 0) :: up) := .cons hp t2
            have hagree : Agree i k' k := ha (k', v') ((mem_toListL _ _).mpr ⟨_, List.mem_of_getElem? t2, by simp [toList]⟩) (k, v)
              ((mem_toListL _ _).mpr ⟨_, List.mem_of_getElem? hci, hk⟩)
            have hlt := bits_lt bmp 0 ci _ _ (by omega) t4 hkbit
            have hspl : tw.take ci = .leaf k' v' :: (tw.take ci).drop 1 := by
              cases tw with
              | nil => simp at t2
              | cons a r =>
                simp at t2
                subst t2
                obtain ⟨n, rfl⟩ := Nat.exists_eq_succ_of_ne_zero hci0
                simp
            refine ⟨⟨.leaf k' v', (Node.branch i bmp tw, 0) :: up⟩, k', v', toListL ((tw.take ci).drop 1), ?_, ⟨rfl, hpath⟩, ⟨prefix_of_agree hagree t3, ?_⟩, ?_, ?_⟩
            · simp only [prefixUp]
              rw [if_pos h0, if_neg hfc, t1]
              rfl
            · intro he
              rw [← he] at hlt
              simp only at hlt
              omega
            · simp only [before, List.take_zero, toListL, List.append_nil]
              rw [hspl]
              simp [toListL, toList]
            · intro e he
              obtain ⟨c, hcm, hec⟩ := (mem_toListL _ _).mp he
              obtain ⟨n, hn⟩ := List.getElem?_of_mem hcm
              rw [List.getElem?_drop, List.getElem?_take] at hn
              split at hn
              · rename_i hlt'
                refine hsib (1 + n) c hlt' hn ?_ e hec
                intro hz
                have := bits_lt bmp 0 (1 + n) _ _ (by omega) t4 hz
                omega
              · cases hn
        · refine hrec ?_ (by simp only [prefixUp]; rw [if_neg h0])
          intro e he
          obtain ⟨c, hcm, hec⟩ := (mem_toListL _ _).mp he
          obtain ⟨n, hn⟩ := List.getElem?_of_mem hcm
          rw [List.getElem?_take] at hn
          split at hn
          · rename_i hlt
            refine hsib n c hlt hn ?_ e hec
            intro hz
            exact h0 (twigoff_of_bits bmp n 0 hz).2.1
          · cases hn

theorem parent_cur {root : Node V} (hw : WF root) {s : Stk V} {n : Nat} (h : Cur root s n) (k : Key) (v : V) (hk : (toList root)[n]? = some (k, v)) :
    (itParent s = .ok none ∧ ∀ m e, m < n → (toList root)[m]? = some e → ¬ Proper e.1 k) ∨
    ∃ s' m e, itParent s = .ok (some s') ∧ Cur root s' m ∧ m < n ∧ (toList root)[m]? = some e ∧ Proper e.1 k ∧
      ∀ m' e', m < m' → m' < n → (toList root)[m']? = some e' → ¬ Proper e'.1 k := by
  obtain ⟨k1, v1, h1, h2⟩ := h
  have hroot := h1.toList
  have hkk : k1 = k ∧ v1 = v := by
    rw [hroot, List.getElem?_append_right (by omega), h2] at hk
    simp at hk
    exact hk
  obtain ⟨rfl, rfl⟩ := hkk
  unfold itParent
  have hin : ∀ m e, m < n → (toList root)[m]? = some e → (before s.up)[m]? = some e := by
    intro m e hm he
    rw [hroot, List.getElem?_append_left (by omega)] at he
    exact he
  rcases prefixUp_spec hw k1 v1 (.leaf k1 v1) s.up true h1.2 (by simp [toList]) (by simp) (fun _ => rfl) with ⟨e1, e2⟩ | ⟨s', k', v', rest, e1, e2, e3, e4, e5⟩
  · left
    exact ⟨e1, fun m e hm he => e2 e (List.mem_of_getElem? (hin m e hm he))⟩
  · right
    have hlen := congrArg List.length e4
    simp at hlen
    refine ⟨s', (before s'.up).length, (k', v'), e1, ⟨k', v', e2, rfl⟩, by omega, ?_, e3, ?_⟩
    · rw [e2.toList, List.getElem?_append_right (by omega)]; simp
    · intro m' e' hm1 hm2 he'
      have := hin m' e' hm2 he'
      rw [e4, List.getElem?_append_right (by omega)] at this
      obtain ⟨d, hd⟩ : ∃ d, m' - (before s'.up).length = d + 1 := ⟨m' - (before s'.up).length - 1, by omega⟩
      rw [hd, List.getElem?_cons_succ] at this
      exact e5 e' (List.mem_of_getElem? this)

/-! ## Walking all values -/

open OrdMap (walk)

theorem walk_append {S : Type} (f : S → V → S × Int) (a b : List V) (s : S) :
    walk f (a ++ b) s = if (walk f a s).2 = 0 then walk f b (walk f a s).1 else walk f a s := by
  induction a generalizing s with
  | nil => simp [walk]
  | cons v a ih =>
    simp only [List.cons_append, walk]
    split
    · exact ih _
    · rfl

mutual
theorem applyNodes_walk {S : Type} (f : S → V → S × Int) (t : Node V) (s : S) :
    applyNodes f t s = walk f ((toList t).map (·.2)) s := by
  cases t with
  | leaf k v =>
    simp only [applyNodes, toList, List.map_cons, List.map_nil, walk]
    split
    · rename_i h; rw [← h]
    · rfl
  | branch i bmp tw => simp only [applyNodes, toList]; exact applyTwigs_walk f tw s
theorem applyTwigs_walk {S : Type} (f : S → V → S × Int) (ts : List (Node V)) (s : S) :
    applyTwigs f ts s = walk f ((toListL ts).map (·.2)) s := by
  cases ts with
  | nil => rfl
  | cons t ts =>
    simp only [applyTwigs, toListL, List.map_append]
    rw [walk_append, applyNodes_walk f t s]
    generalize walk f ((toList t).map (·.2)) s = r
    obtain ⟨s', e⟩ := r
    by_cases he : e = 0
    · subst he; simp only [if_true]; exact applyTwigs_walk f ts s'
    · rw [if_neg he]
      split
      · rename_i h; injection h with h1 h2; exact absurd h2 he
      · rename_i h; injection h with h1 h2; rw [h1, h2]
end

end Knot.Trie
