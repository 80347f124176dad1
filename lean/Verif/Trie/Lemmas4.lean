import Verif.Trie.Lemmas3
/-! The operations refine an ordered map. -/
namespace Knot.Trie
variable {V : Type}

/-! ## Sorted lists -/

theorem insertWith_absent (key : Key) (w : Option V → V) (l r : List (Key × V)) (hl : ∀ e ∈ l, KLt e.1 key)
    (hr : ∀ e ∈ r, KLt key e.1) : OrdMap.insertWith key w (l ++ r) = l ++ (key, w none) :: r := by
  induction l with
  | nil =>
    cases r with
    | nil => rfl
    | cons e r =>
      have h := hr e (by simp)
      have hne : e.1 ≠ key := fun he => KLt_irrefl key (by rw [he] at h; exact h)
      simp only [List.nil_append, OrdMap.insertWith]
      rw [if_neg hne, if_pos ((KLt_iff _ _).mp h)]
  | cons e l ih =>
    have h := hl e (by simp)
    have hne : e.1 ≠ key := fun he => KLt_irrefl key (by rw [he] at h; exact h)
    simp only [List.cons_append, OrdMap.insertWith]
    rw [if_neg hne, if_neg (fun h' => KLt_asymm h ((KLt_iff _ _).mpr h')), ih (fun e he => hl e (by simp [he]))]

theorem insertWith_present (key : Key) (v : V) (w : Option V → V) (l r : List (Key × V)) (hl : ∀ e ∈ l, KLt e.1 key) :
    OrdMap.insertWith key w (l ++ (key, v) :: r) = l ++ (key, w (some v)) :: r := by
  induction l with
  | nil => simp [OrdMap.insertWith]
  | cons e l ih =>
    have h := hl e (by simp)
    have hne : e.1 ≠ key := fun he => KLt_irrefl key (by rw [he] at h; exact h)
    simp only [List.cons_append, OrdMap.insertWith]
    rw [if_neg hne, if_neg (fun h' => KLt_asymm h ((KLt_iff _ _).mpr h')), ih (fun e he => hl e (by simp [he]))]

theorem sorted_sides {l r : List (Key × V)} {k : Key} {v : V} (h : (l ++ (k, v) :: r).Pairwise (fun a b => KLt a.1 b.1)) :
    (∀ e ∈ l, KLt e.1 k) ∧ (∀ e ∈ r, KLt k e.1) := by
  rw [List.pairwise_append, List.pairwise_cons] at h
  exact ⟨fun e he => h.2.2 e he (k, v) (by simp), fun e he => h.2.1.1 e he⟩

theorem erase_present (k : Key) (v : V) (l r : List (Key × V)) (hl : ∀ e ∈ l, KLt e.1 k) (hr : ∀ e ∈ r, KLt k e.1) :
    OrdMap.erase k (l ++ (k, v) :: r) = l ++ r := by
  unfold OrdMap.erase
  rw [List.filter_append, List.filter_cons]
  simp only [bne_self_eq_false, Bool.false_eq_true, if_false]
  rw [List.filter_eq_self.mpr, List.filter_eq_self.mpr]
  · intro e he
    have := hr e he
    simp only [bne_iff_ne, ne_eq]
    exact fun h => KLt_irrefl k (by rw [h] at this; exact this)
  · intro e he
    have := hl e he
    simp only [bne_iff_ne, ne_eq]
    exact fun h => KLt_irrefl k (by rw [h] at this; exact this)

theorem erase_absent (k : Key) (m : List (Key × V)) (h : ∀ e ∈ m, e.1 ≠ k) : OrdMap.erase k m = m := by
  unfold OrdMap.erase
  rw [List.filter_eq_self.mpr]
  intro e he
  simpa using h e he

theorem upTo_split (k : Key) (l r : List (Key × V)) (hl : ∀ e ∈ l, ¬ KLt k e.1) (hr : ∀ e ∈ r, KLt k e.1) :
    OrdMap.upTo k (l ++ r) = l := by
  unfold OrdMap.upTo
  rw [List.filter_append, List.filter_eq_self.mpr, List.filter_eq_nil_iff.mpr, List.append_nil]
  · intro e he
    have := (KLt_iff _ _).mp (hr e he)
    simp [this]
  · intro e he
    have h := hl e he
    rw [KLt_iff] at h
    simp [h]

theorem lookup_present (k : Key) (v : V) (l r : List (Key × V)) (hl : ∀ e ∈ l, e.1 ≠ k) :
    OrdMap.lookup (l ++ (k, v) :: r) k = some v := by
  unfold OrdMap.lookup
  rw [List.find?_append]
  have : l.find? (fun e => e.1 == k) = none := by
    rw [List.find?_eq_none]; intro e he; simpa using hl e he
  rw [this]
  simp

theorem lookup_absent (k : Key) (m : List (Key × V)) (h : ∀ e ∈ m, e.1 ≠ k) : OrdMap.lookup m k = none := by
  unfold OrdMap.lookup
  have : m.find? (fun e => e.1 == k) = none := by
    rw [List.find?_eq_none]; intro e he; simpa using h e he
  rw [this]; rfl

/-! ## Lookup -/

theorem delFind_spec {root : Node V} (hw : WF root) (t : Node V) (up : List (Node V × Nat)) (key : Key) (h : IsPath root t up) :
    (∃ s v, delFind t up key = .ok (some s) ∧ AtLeaf root s key v ∧ (key, v) ∈ toList t) ∨
    (delFind t up key = .ok none ∧ ∀ e ∈ toList t, e.1 ≠ key) := by
  fun_induction delFind t up key with
  | case1 up k v =>
    unfold keyEq
    by_cases hk : key = k
    · subst hk; left; exact ⟨⟨.leaf key v, up⟩, v, by simp, ⟨rfl, h⟩, by simp [toList]⟩
    · right; refine ⟨by simp [hk], ?_⟩
      intro e he
      simp only [toList, List.mem_singleton] at he
      rw [he]; exact fun h' => hk h'.symm
  | case2 up i bmp tw htb c hc ih =>
    obtain ⟨hg, _⟩ := twig_get hc
    rcases ih (.cons h hg) with ⟨s, v, e1, e2, e3⟩ | ⟨e1, e2⟩
    · left; exact ⟨s, v, e1, e2, by simp only [toList]; exact (mem_toListL _ _).mpr ⟨c, List.mem_of_getElem? hg, e3⟩⟩
    · right
      refine ⟨e1, ?_⟩
      intro e he hek
      have hwt := h.wf hw
      cases hwt with
      | branch hl h2 hcw ha hb =>
        simp only [toList] at he
        obtain ⟨c', hc', hec⟩ := (mem_toListL _ _).mp he
        obtain ⟨n, hn⟩ := List.getElem?_of_mem hc'
        have := hb n c' hn e hec
        rw [hek] at this
        have hoff := (twigoff_of_bits bmp n _ this).2.2
        rw [hoff] at hg
        rw [hn] at hg
        injection hg with hg
        subst hg
        exact e2 e hec hek
  | case3 up i bmp tw htb hne =>
    exfalso
    have hwt := h.wf hw
    obtain ⟨c, hc', _⟩ := hwt.twig (twigoff_lt_of bmp (keybit i key) (by have := keybit_le i key; omega) htb)
    exact hne c hc'
  | case4 up i bmp tw htb =>
    right
    refine ⟨rfl, ?_⟩
    intro e he hek
    have hwt := h.wf hw
    cases hwt with
    | branch hl h2 hcw ha hb =>
      simp only [toList] at he
      obtain ⟨c', hc', hec⟩ := (mem_toListL _ _).mp he
      obtain ⟨n, hn⟩ := List.getElem?_of_mem hc'
      have := hb n c' hn e hec
      rw [hek] at this
      exact htb (twigoff_of_bits bmp n _ this).2.1

theorem getTryNode_delFind (t : Node V) (up : List (Node V × Nat)) (key : Key) :
    getTryNode t key = (delFind t up key).bind (fun o => match o with
      | none => .ok none
      | some ⟨.leaf _ v, _⟩ => .ok (some v)
      | some ⟨.branch _ _ _, _⟩ => .ub) := by
  fun_induction delFind t up key with
  | case1 up k v => unfold getTryNode; split <;> simp [Res.bind]
  | case2 up i bmp tw htb c hc ih =>
    unfold getTryNode
    rw [if_pos htb]
    split
    · rename_i c' hc'
      rw [hc] at hc'
      injection hc' with hc'
      subst hc'
      exact ih
    · rename_i hne; exact absurd hc (hne c)
  | case3 up i bmp tw htb hne =>
    unfold getTryNode
    rw [if_pos htb]
    split
    · rename_i c hc; exact absurd hc (hne c)
    · rfl
  | case4 up i bmp tw htb => unfold getTryNode; rw [if_neg htb]; rfl

theorem getTryNode_spec {root : Node V} (hw : WF root) (key : Key) : getTryNode root key = .ok (OrdMap.lookup (toList root) key) := by
  rw [getTryNode_delFind root [] key]
  rcases delFind_spec hw root [] key .nil with ⟨s, v, e1, e2, _⟩ | ⟨e1, e2⟩
  · rw [e1, e2.toList]
    have hs := hw.sorted
    rw [e2.toList] at hs
    obtain ⟨top, up⟩ := s
    have : top = .leaf key v := e2.1
    subst this
    rw [lookup_present key v _ _ (fun e he h => by have := (sorted_sides hs).1 e he; rw [h] at this; exact KLt_irrefl _ this)]
    rfl
  · rw [e1, lookup_absent key _ e2]; rfl

/-! ## Less or equal -/

theorem leqStep_spec {root : Node V} (hw : WF root) (key : Key) (i bmp : Nat) (tw : List (Node V)) (up : List (Node V × Nat)) (b : Nat) (lower : Bool)
    (h : IsPath root (.branch i bmp tw) up) (hb17 : b < 17) (n : Nat)
    (hn : n ≤ branchWeight bmp)
    (hj : (if bmp.testBit b then (twigoff bmp b : Int) - (if lower then 1 else 0) else (twigoff bmp b : Int) - 1) = (n : Int) - 1)
    (hl : ∀ m c, m < n → tw[m]? = some c → ∀ e ∈ toList c, KLt e.1 key)
    (hr : ∀ m c, n ≤ m → tw[m]? = some c → ∀ e ∈ toList c, KLt key e.1)
    (h0 : n = 0 → bmp.testBit 0 = false)
    (hside : (∀ e ∈ before up, KLt e.1 key) ∧ (∀ e ∈ after up, KLt key e.1)) :
    (leqStep i bmp tw up b lower = .ok .none ∧ ∀ e ∈ toList root, KLt key e.1) ∨
    ∃ s k v, leqStep i bmp tw up b lower = .ok (.prev s) ∧ AtLeaf root s k v ∧ KLt k key ∧
      (∀ e ∈ before s.up, KLt e.1 key) ∧ (∀ e ∈ after s.up, KLt key e.1) := by
  have hwt := h.wf hw
  have hafter : ∀ e ∈ toListL (tw.drop n), KLt key e.1 := by
    intro e he
    obtain ⟨c, hc, hec⟩ := (mem_toListL _ _).mp he
    obtain ⟨m, hm⟩ := List.getElem?_of_mem hc
    rw [List.getElem?_drop] at hm
    exact hr (n + m) c (by omega) hm e hec
  have hbefore : ∀ e ∈ toListL (tw.take n), KLt e.1 key := by
    intro e he
    obtain ⟨c, hc, hec⟩ := (mem_toListL _ _).mp he
    obtain ⟨m, hm⟩ := List.getElem?_of_mem hc
    rw [List.getElem?_take] at hm
    split at hm
    · rename_i hlt; exact hl m c hlt hm e hec
    · cases hm
  unfold leqStep
  simp only
  rw [hj]
  by_cases hn0 : n = 0
  · subst hn0
    rw [if_neg (by omega)]
    have hpl : prevLeaf ⟨.branch i bmp tw, up⟩ = prevUp up := by
      unfold prevLeaf
      simp only
      rw [if_neg (by simp [h0 rfl])]
    rw [hpl]
    rcases prevUp_spec hw _ up h with ⟨e1, e2⟩ | ⟨s, k, v, e1, e2, e3⟩
    · left
      rw [e1]
      refine ⟨rfl, ?_⟩
      rw [h.toList, e2]
      intro e he
      simp only [toList, List.nil_append, List.mem_append] at he
      rcases he with he | he
      · exact hafter e (by simpa using he)
      · exact hside.2 e he
    · right
      rw [e1]
      refine ⟨s, k, v, rfl, e2, ?_⟩
      -- everything up to the leaf is what was before the branch
      have hroot := e2.toList
      rw [h.toList, e3] at hroot
      have hcut : before up = before s.up ++ [(k, v)] := by
        have h1 : before up ++ (toList (.branch i bmp tw) ++ after up) = (before s.up ++ [(k, v)]) ++ (toList (.branch i bmp tw) ++ after up) := by
          simpa using hroot
        exact List.append_cancel_right h1
      refine ⟨hside.1 (k, v) (by rw [hcut]; simp), fun e he => hside.1 e (by rw [hcut]; simp [he]), ?_⟩
      rw [e3]
      intro e he
      simp only [toList, List.mem_append] at he
      rcases he with he | he
      · exact hafter e (by simpa using he)
      · exact hside.2 e he
  · rw [if_pos (by omega)]
    have htn : ((n : Int) - 1).toNat = n - 1 := by omega
    rw [htn]
    obtain ⟨c, hc1, hc2⟩ := hwt.twig (n := n - 1) (by omega)
    rw [hc1]
    simp only [Res.bind_ok]
    obtain ⟨s, k, v, e1, e2, e3⟩ := lastLeaf_spec hw c _ (.cons h hc2)
    rw [e1]
    right
    refine ⟨s, k, v, rfl, e2, ?_⟩
    have hroot := e2.toList
    rw [h.toList, e3] at hroot
    have hn1 : n - 1 + 1 = n := by omega
    have hcut : before up ++ toListL (tw.take n) = before s.up ++ [(k, v)] := by
      simp only [toList, after, hn1] at hroot
      have hsp : toListL tw = toListL (tw.take n) ++ toListL (tw.drop n) := by
        rw [← toListL_append, List.take_append_drop]
      rw [hsp] at hroot
      have h1 : (before up ++ toListL (tw.take n)) ++ (toListL (tw.drop n) ++ after up) = (before s.up ++ [(k, v)]) ++ (toListL (tw.drop n) ++ after up) := by
        simpa using hroot
      exact List.append_cancel_right h1
    have hall : ∀ e ∈ before s.up ++ [(k, v)], KLt e.1 key := by
      rw [← hcut]
      intro e he
      rcases List.mem_append.mp he with he | he
      · exact hside.1 e he
      · exact hbefore e he
    refine ⟨hall (k, v) (by simp), fun e he => hall e (by simp [he]), ?_⟩
    rw [e3]
    simp only [after, hn1]
    intro e he
    rcases List.mem_append.mp he with he | he
    · exact hafter e he
    · exact hside.2 e he

theorem keybit_zero_agree (a b : Key) (i : Nat) (ha : keybit i a = 0) (hb : keybit i b = 0) (h : Agree i a b) : a = b := by
  apply key_ext
  intro j
  by_cases hj : j < i
  · exact h j hj
  · rw [keybit_eq_zero] at ha hb
    rw [(keybit_eq_zero j a).mpr (by omega), (keybit_eq_zero j b).mpr (by omega)]

theorem getLeqNode_spec {root : Node V} (hw : WF root) (key : Key) :
    (∃ s v, getLeqNode root key = .ok (.exact s) ∧ AtLeaf root s key v) ∨
    (∃ s k v, getLeqNode root key = .ok (.prev s) ∧ AtLeaf root s k v ∧ KLt k key ∧
      (∀ e ∈ before s.up, KLt e.1 key) ∧ (∀ e ∈ after s.up, KLt key e.1)) ∨
    (getLeqNode root key = .ok .none ∧ ∀ e ∈ toList root, KLt key e.1) := by
  unfold getLeqNode
  rcases findBranch_spec hw key with ⟨s, v, e1, e2⟩ | ⟨s, idx, tbit, e0, e1, hp, hm0, htb, hne, hag, hup, htop, hleaf⟩
  · left; rw [e1]; exact ⟨s, v, rfl, e2⟩
  · right
    rw [e1]
    simp only [Res.bind_ok]
    have hside := hp.sides hw key ⟨e0, hm0, fun i bmp tw ci hm => (hag e0 hm0).mono (by have := hup i bmp tw ci hm; omega)⟩
    -- the case in which the whole top is on one side
    have hUp : (∀ e ∈ toList s.top, keybit idx e.1 = tbit) →
        (∃ s' k v, leqUp key s.top s.up tbit (keybit idx key) = .ok (.prev s') ∧ AtLeaf root s' k v ∧ KLt k key ∧
          (∀ e ∈ before s'.up, KLt e.1 key) ∧ (∀ e ∈ after s'.up, KLt key e.1)) ∨
        (leqUp key s.top s.up tbit (keybit idx key) = .ok .none ∧ ∀ e ∈ toList root, KLt key e.1) := by
      intro hall
      have hlow : keybit idx key < tbit → ∀ e ∈ toList s.top, KLt key e.1 := by
        intro hlt e he
        exact ⟨idx, hag e he, by rw [hall e he]; exact hlt⟩
      have hhigh : ¬ keybit idx key < tbit → ∀ e ∈ toList s.top, KLt e.1 key := by
        intro hlt e he
        exact ⟨idx, (hag e he).symm, by rw [hall e he]; omega⟩
      cases hups : s.up with
      | nil =>
        rw [hups] at hp
        have hroot : s.top = root := hp.plug
        simp only [leqUp]
        by_cases hlt : keybit idx key < tbit
        · rw [if_pos hlt]; right; exact ⟨rfl, by rw [← hroot]; exact hlow hlt⟩
        · rw [if_neg hlt]
          left
          obtain ⟨s', k, v, f1, f2, f3⟩ := lastLeaf_spec hw s.top [] hp
          rw [f1]
          have hr := f2.toList
          rw [← hroot, f3] at hr
          simp only [after] at hr
          refine ⟨s', k, v, rfl, f2, hhigh hlt (k, v) (by rw [hr]; simp), fun e he => hhigh hlt e (by rw [hr]; simp [he]), ?_⟩
          rw [f3]; simp [after]
      | cons f up' =>
        rw [hups] at hp hup hside
        cases hp' : hp with
        | @cons i bmp tw ci _ _ hpp hci =>
          simp only [leqUp]
          have hi : i < idx := hup i bmp tw ci (by simp)
          have hwt := hpp.wf hw
          have hcl := (List.getElem?_eq_some_iff.mp hci).1
          cases hwt with
          | branch hl h2 hc ha hb =>
            have hbit := hb ci s.top hci e0 hm0
            rw [← hag e0 hm0 i hi] at hbit
            obtain ⟨hb1, hb2, hb3⟩ := twigoff_of_bits bmp ci _ hbit
            have hside' := hpp.sides hw key ⟨e0, by simp only [toList]; exact (mem_toListL _ _).mpr ⟨_, List.mem_of_getElem? hci, hm0⟩,
              fun i' bmp' tw' ci' hm => (hag e0 hm0).mono (by have := hup i' bmp' tw' ci' (by simp [hm]); omega)⟩
            have hleft : ∀ (m : Nat) (c : Node V), m < ci → tw[m]? = some c → ∀ e ∈ toList c, KLt e.1 key := by
              intro m c hm hmc e he
              exact hside.1 e (by
                simp only [before, List.mem_append]
                right
                refine (mem_toListL _ _).mpr ⟨c, ?_, he⟩
                exact List.mem_of_getElem? (i := m) (by rw [List.getElem?_take, if_pos hm]; exact hmc))
            have hright : ∀ (m : Nat) (c : Node V), ci < m → tw[m]? = some c → ∀ e ∈ toList c, KLt key e.1 := by
              intro m c hm hmc e he
              exact hside.2 e (by
                simp only [after, List.mem_append]
                left
                refine (mem_toListL _ _).mpr ⟨c, ?_, he⟩
                refine List.mem_of_getElem? (i := m - (ci + 1)) ?_
                rw [List.getElem?_drop]
                have : ci + 1 + (m - (ci + 1)) = m := by omega
                rw [this]; exact hmc)
            by_cases hlt : keybit idx key < tbit
            · have sp := leqStep_spec hw key i bmp tw up' (keybit i key) true hpp hb1 ci (by omega)
                (by rw [if_pos hb2, hb3]; simp) hleft
                (by
                  intro m c hm hmc e he
                  by_cases hmci : m = ci
                  · subst hmci
                    rw [hci] at hmc
                    injection hmc with hmc
                    subst hmc
                    exact hlow hlt e he
                  · exact hright m c (by omega) hmc e he)
                (by
                  intro h0
                  subst h0
                  by_cases ht0 : bmp.testBit 0 = true
                  · exfalso
                    have hz := bits_get_of bmp 0 (by omega) ht0
                    have : twigoff bmp 0 = 0 := by simp [twigoff]
                    rw [this] at hz
                    rw [hz] at hbit
                    injection hbit with hbit
                    have := keybit_zero_agree key e0.1 i hbit.symm (by rw [← hag e0 hm0 i hi]; exact hbit.symm) ((hag e0 hm0).mono (by omega))
                    rw [htb, ← this] at hlt
                    omega
                  · simpa using ht0) hside'
              simp only [hlt, decide_true]
              rcases sp with sp | sp
              · exact .inr sp
              · exact .inl sp
            · have sp := leqStep_spec hw key i bmp tw up' (keybit i key) false hpp hb1 (ci + 1) (by omega)
                (by rw [if_pos hb2, hb3]; simp)
                (by
                  intro m c hm hmc e he
                  by_cases hmci : m = ci
                  · subst hmci
                    rw [hci] at hmc
                    injection hmc with hmc
                    subst hmc
                    exact hhigh hlt e he
                  · exact hleft m c (by omega) hmc e he)
                (by intro m c hm hmc; exact hright m c (by omega) hmc)
                (by omega) hside'
              simp only [hlt, decide_false]
              rcases sp with sp | sp
              · exact .inr sp
              · exact .inl sp
    cases htp : s.top with
    | leaf k v =>
      simp only
      rw [← htp]
      apply hUp
      intro e he
      have h0 := hleaf k v htp
      rw [htp] at he
      simp only [toList, List.mem_singleton] at he
      rw [htb, h0, he]
    | branch j bmp tw =>
      obtain ⟨t1, t2, t3⟩ := htop j bmp tw htp
      simp only
      by_cases hj : j = idx
      · rw [if_pos hj]
        subst hj
        have hkb := t2 rfl
        have hk17 : keybit j key < 17 := by have := keybit_le j key; omega
        have hpb : IsPath root (.branch j bmp tw) s.up := by rw [← htp]; exact hp
        have hwt := hpb.wf hw
        cases hwt with
        | branch hl h2 hc ha hb =>
          have hin : ∀ (m : Nat) (c : Node V), tw[m]? = some c → ∀ e ∈ toList c, e ∈ toList s.top := by
            intro m c hmc e he
            rw [htp]; simp only [toList]
            exact (mem_toListL _ _).mpr ⟨c, List.mem_of_getElem? hmc, he⟩
          have sp := leqStep_spec hw key j bmp tw s.up (keybit j key) (decide (keybit j key < tbit)) hpb hk17
            (twigoff bmp (keybit j key)) (twigoff_le bmp _ hk17 hkb)
            (by rw [if_neg (by simp [hkb])])
            (by
              intro m c hm hmc e he
              exact ⟨j, (hag e (hin m c hmc e he)).symm, (bits_missing bmp _ m _ hk17 hkb (hb m c hmc e he)).1 hm⟩)
            (by
              intro m c hm hmc e he
              exact ⟨j, hag e (hin m c hmc e he), (bits_missing bmp _ m _ hk17 hkb (hb m c hmc e he)).2 hm⟩)
            (by
              intro h0
              by_cases ht0 : bmp.testBit 0 = true
              · exfalso
                have hz := bits_get_of bmp 0 (by omega) ht0
                have hoff0 : twigoff bmp 0 = 0 := by simp [twigoff]
                rw [hoff0] at hz
                have := (bits_missing bmp _ 0 0 hk17 hkb hz).2 (by omega)
                omega
              · simpa using ht0) hside
          rcases sp with sp | sp
          · exact .inr sp
          · exact .inl sp
      · rw [if_neg hj]
        rw [← htp]
        exact hUp (t3 (by omega))

/-! ## Insertion -/

theorem addChild_spec {i bmp : Nat} {tw : List (Node V)} (hw : WF (.branch i bmp tw)) (key : Key) (v : V)
    (hk : key.length < 2147483648) (hb : bmp.testBit (keybit i key) = false)
    (hag : ∀ e ∈ toListL tw, Agree i key e.1) :
    ∃ n, addChild i bmp tw (keybit i key) (.leaf key v) = .ok n ∧ WF n ∧
      toList n = toListL (tw.take (twigoff bmp (keybit i key))) ++ (key, v) :: toListL (tw.drop (twigoff bmp (keybit i key))) ∧
      (∀ e ∈ toListL (tw.take (twigoff bmp (keybit i key))), KLt e.1 key) ∧
      (∀ e ∈ toListL (tw.drop (twigoff bmp (keybit i key))), KLt key e.1) := by
  have hk17 : keybit i key < 17 := by have := keybit_le i key; omega
  generalize hoff : twigoff bmp (keybit i key) = off
  have hle := twigoff_le bmp _ hk17 hb
  rw [hoff] at hle
  cases hw with
  | branch hl h2 hc ha hbits =>
    have hset := bits_set bmp _ hk17 hb
    rw [hoff] at hset
    have hbl : (bits bmp).length = tw.length := by rw [bits_length, hl]
    have hmem : ∀ e ∈ toListL (tw.take off ++ (Node.leaf key v) :: tw.drop off), e = (key, v) ∨ e ∈ toListL tw := by
      intro e he
      rw [toListL_append] at he
      simp only [toListL, toList, List.mem_append, List.mem_singleton] at he
      have hsp : toListL tw = toListL (tw.take off) ++ toListL (tw.drop off) := by
        rw [← toListL_append, List.take_append_drop]
      rw [hsp, List.mem_append]
      rcases he with he | he | he
      · exact .inr (.inl he)
      · exact .inl he
      · exact .inr (.inr he)
    have hsub1 : ∀ e ∈ toListL (tw.take off), e ∈ toListL tw := by
      intro e he
      obtain ⟨c, hcm, hec⟩ := (mem_toListL _ _).mp he
      exact (mem_toListL _ _).mpr ⟨c, List.mem_of_mem_take hcm, hec⟩
    have hsub2 : ∀ e ∈ toListL (tw.drop off), e ∈ toListL tw := by
      intro e he
      obtain ⟨c, hcm, hec⟩ := (mem_toListL _ _).mp he
      exact (mem_toListL _ _).mpr ⟨c, List.mem_of_mem_drop hcm, hec⟩
    refine ⟨_, by unfold addChild; rw [if_neg (by simp [hb]), hoff], ?_, ?_, ?_, ?_⟩
    · refine .branch ?_ ?_ ?_ ?_ ?_
      · rw [← bits_length, hset]
        simp
        omega
      · simp; omega
      · intro c hcm
        simp only [List.mem_append, List.mem_cons] at hcm
        rcases hcm with h | h | h
        · exact hc c (List.mem_of_mem_take h)
        · rw [h]; exact .leaf hk
        · exact hc c (List.mem_of_mem_drop h)
      · have rep : ∀ e ∈ toListL (tw.take off ++ (Node.leaf key v) :: tw.drop off), Agree i key e.1 := by
          intro e he
          rcases hmem e he with h | h
          · rw [h]; exact Agree.refl _
          · exact hag e h
        intro e he e' he'
        exact (rep e he).symm.trans (rep e' he')
      · intro n c hn e he
        rw [hset]
        rcases Nat.lt_trichotomy n off with hlt | heq | hgt
        · rw [List.getElem?_append_left (by simp; omega)] at hn ⊢
          rw [List.getElem?_take, if_pos hlt] at hn ⊢
          exact hbits n c hn e he
        · subst heq
          rw [List.getElem?_append_right (by simp; omega)] at hn ⊢
          simp only [List.length_take] at hn ⊢
          have z1 : n - min n tw.length = 0 := by omega
          have z2 : n - min n (bits bmp).length = 0 := by omega
          rw [z1, List.getElem?_cons_zero] at hn
          rw [z2, List.getElem?_cons_zero]
          injection hn with hn
          subst hn
          simp only [toList, List.mem_singleton] at he
          rw [he]
        · rw [List.getElem?_append_right (by simp; omega)] at hn ⊢
          simp only [List.length_take] at hn ⊢
          have z1 : n - min off tw.length = (n - 1 - off) + 1 := by omega
          have z2 : n - min off (bits bmp).length = (n - 1 - off) + 1 := by omega
          rw [z1, List.getElem?_cons_succ, List.getElem?_drop] at hn
          rw [z2, List.getElem?_cons_succ, List.getElem?_drop]
          exact hbits _ c hn e he
    · simp only [toList, toListL_append, toListL]
      simp
    · intro e he
      refine ⟨i, (hag e (hsub1 e he)).symm, ?_⟩
      obtain ⟨c, hcm, hec⟩ := (mem_toListL _ _).mp he
      obtain ⟨n, hn⟩ := List.getElem?_of_mem hcm
      rw [List.getElem?_take] at hn
      split at hn
      · rename_i hlt
        exact (bits_missing bmp _ n _ hk17 hb (hbits n c hn e hec)).1 (by omega)
      · cases hn
    · intro e he
      refine ⟨i, hag e (hsub2 e he), ?_⟩
      obtain ⟨c, hcm, hec⟩ := (mem_toListL _ _).mp he
      obtain ⟨n, hn⟩ := List.getElem?_of_mem hcm
      rw [List.getElem?_drop] at hn
      exact (bits_missing bmp _ _ _ hk17 hb (hbits _ c hn e hec)).2 (by omega)

theorem splitNode_spec {t : Node V} (hw : WF t) (key : Key) (v : V) (idx tbit : Nat) (hk : key.length < 2147483648)
    (hne : keybit idx key ≠ tbit) (hag : ∀ e ∈ toList t, Agree idx key e.1) (hall : ∀ e ∈ toList t, keybit idx e.1 = tbit) :
    ∃ n, splitNode t idx tbit (keybit idx key) (.leaf key v) = .ok n ∧ WF n ∧
      ((toList n = toList t ++ [(key, v)] ∧ ∀ e ∈ toList t, KLt e.1 key) ∨
       (toList n = (key, v) :: toList t ∧ ∀ e ∈ toList t, KLt key e.1)) := by
  have hk17 : keybit idx key < 17 := by have := keybit_le idx key; omega
  obtain ⟨e0, he0⟩ := hw.nonempty
  have ht17 : tbit < 17 := by rw [← hall e0 he0]; have := keybit_le idx e0.1; omega
  have wfpair : ∀ (a b : Node V) (ba bb : Nat), ba < bb → ba < 17 → bb < 17 → bits (2 ^ tbit ||| 2 ^ keybit idx key) = [ba, bb] →
      WF a → WF b → (∀ e ∈ toList a, keybit idx e.1 = ba ∧ Agree idx key e.1) → (∀ e ∈ toList b, keybit idx e.1 = bb ∧ Agree idx key e.1) →
      WF (.branch idx (2 ^ tbit ||| 2 ^ keybit idx key) [a, b]) := by
    intro a b ba bb h1 h2 h3 hbits hwa hwb ha hb
    refine .branch ?_ (by simp) ?_ ?_ ?_
    · rw [← bits_length, hbits]; rfl
    · intro c hc
      simp only [List.mem_cons, List.not_mem_nil, or_false] at hc
      rcases hc with rfl | rfl
      · exact hwa
      · exact hwb
    · have rep : ∀ e ∈ toListL [a, b], Agree idx key e.1 := by
        intro e he
        simp only [toListL, List.append_nil, List.mem_append] at he
        rcases he with he | he
        · exact (ha e he).2
        · exact (hb e he).2
      intro e he e' he'
      exact (rep e he).symm.trans (rep e' he')
    · intro n c hn e he
      rw [hbits]
      match n with
      | 0 => simp only [List.getElem?_cons_zero] at hn ⊢; injection hn with hn; subst hn; rw [(ha e he).1]
      | 1 => simp only [List.getElem?_cons_succ, List.getElem?_cons_zero] at hn ⊢; injection hn with hn; subst hn; rw [(hb e he).1]
      | n + 2 => simp at hn
  have hleafk : ∀ e ∈ toList (Node.leaf key v), keybit idx e.1 = keybit idx key ∧ Agree idx key e.1 := by
    intro e he
    simp only [toList, List.mem_singleton] at he
    rw [he]; exact ⟨rfl, Agree.refl _⟩
  have htk : ∀ e ∈ toList t, keybit idx e.1 = tbit ∧ Agree idx key e.1 := fun e he => ⟨hall e he, hag e he⟩
  unfold splitNode
  simp only
  by_cases hlt : tbit < keybit idx key
  · have hbits := bits_pair tbit (keybit idx key) ht17 hlt hk17
    have o1 := (twigoff_of_bits (2 ^ tbit ||| 2 ^ keybit idx key) 0 tbit (by rw [hbits]; rfl)).2.2
    have o2 := (twigoff_of_bits (2 ^ tbit ||| 2 ^ keybit idx key) 1 (keybit idx key) (by rw [hbits]; rfl)).2.2
    rw [o1, o2]
    refine ⟨_, rfl, wfpair t _ _ _ hlt ht17 hk17 hbits hw (.leaf hk) htk hleafk, .inl ⟨by simp [toList, toListL], ?_⟩⟩
    intro e he
    exact ⟨idx, (hag e he).symm, by rw [hall e he]; exact hlt⟩
  · have hlt' : keybit idx key < tbit := by omega
    have hbits : bits (2 ^ tbit ||| 2 ^ keybit idx key) = [keybit idx key, tbit] := by
      rw [Nat.or_comm]; exact bits_pair (keybit idx key) tbit hk17 hlt' ht17
    have o1 := (twigoff_of_bits (2 ^ tbit ||| 2 ^ keybit idx key) 1 tbit (by rw [hbits]; rfl)).2.2
    have o2 := (twigoff_of_bits (2 ^ tbit ||| 2 ^ keybit idx key) 0 (keybit idx key) (by rw [hbits]; rfl)).2.2
    rw [o1, o2]
    refine ⟨_, rfl, wfpair _ t _ _ hlt' hk17 ht17 hbits (.leaf hk) hw hleafk htk, .inr ⟨by simp [toList, toListL], ?_⟩⟩
    intro e he
    exact ⟨idx, hag e he, by rw [hall e he]; exact hlt'⟩

theorem storedKey_ok (key : Key) (h : key.length < 2147483648) : storedKey key = .ok key := by
  unfold storedKey
  rw [if_neg (by omega), Nat.mod_eq_of_lt h, List.take_length]

/-- The invariant of the whole structure. -/
def Inv (tbl : Trie V) : Prop := tbl.weight = 0 ∨ (WF tbl.root ∧ tbl.weight = (toList tbl.root).length)

/-- The entries of a trie. -/
def entries (tbl : Trie V) : List (Key × V) := if tbl.weight = 0 then [] else toList tbl.root

theorem Inv.cases {tbl : Trie V} (h : Inv tbl) : (tbl.weight = 0 ∧ entries tbl = []) ∨
    (tbl.weight ≠ 0 ∧ WF tbl.root ∧ entries tbl = toList tbl.root ∧ tbl.weight = (toList tbl.root).length) := by
  unfold entries
  by_cases h0 : tbl.weight = 0
  · left; simp [h0]
  · right
    rcases h with h | h
    · exact absurd h h0
    · exact ⟨h0, h.1, by rw [if_neg h0], h.2⟩

theorem mk_entries (r : Node V) (w : Nat) (hw : WF r) (hl : w = (toList r).length) : Inv (⟨r, w⟩ : Trie V) ∧ entries (⟨r, w⟩ : Trie V) = toList r := by
  refine ⟨.inr ⟨hw, hl⟩, ?_⟩
  unfold entries
  obtain ⟨e, he⟩ := hw.nonempty
  have := List.length_pos_of_mem he
  rw [if_neg (by simp only; omega)]

theorem insWith_spec (tbl : Trie V) (h : Inv tbl) (key : Key) (hk : key.length < 2147483648) (w : Option V → V) :
    ∃ tbl', insWith tbl key w = .ok tbl' ∧ Inv tbl' ∧ entries tbl' = OrdMap.insertWith key w (entries tbl) := by
  unfold insWith
  rcases h.cases with ⟨h0, he⟩ | ⟨h0, hw, he, hlen⟩
  · rw [if_pos h0, storedKey_ok key hk, he]
    simp only [Res.bind_ok]
    obtain ⟨i1, i2⟩ := mk_entries (.leaf key (w none)) 1 (.leaf hk) (by simp [toList])
    exact ⟨_, rfl, i1, by rw [i2]; simp [toList, OrdMap.insertWith]⟩
  · rw [if_neg h0, he]
    have hsorted := hw.sorted
    rcases findBranch_spec hw key with ⟨s, v, e1, e2⟩ | ⟨s, idx, tbit, e0, e1, hp, hm0, htb, hne, hag, hup, htop, hleaf⟩
    · rw [e1]
      simp only [Res.bind_ok]
      rw [e2.1]
      simp only [writeLeaf]
      have hkl : key.length < 2147483648 := hk
      obtain ⟨r1, r2⟩ := e2.2.replace hw (.leaf key (w (some v))) (.leaf hkl) (by
        intro e' he'
        simp only [toList, List.mem_singleton] at he'
        exact ⟨(key, v), by simp [toList], fun _ _ _ _ _ => by rw [he']; exact Agree.refl _⟩)
      rw [e2.toList] at hsorted
      obtain ⟨i1, i2⟩ := mk_entries _ tbl.weight r1 (by
        rw [r2, hlen, e2.toList]; simp [toList])
      refine ⟨_, rfl, i1, ?_⟩
      rw [i2, r2, e2.toList, insertWith_present key v w _ _ (sorted_sides hsorted).1]
      simp [toList]
    · rw [e1]
      simp only [Res.bind_ok]
      rw [storedKey_ok key hk]
      simp only [Res.bind_ok]
      have hside := hp.sides hw key ⟨e0, hm0, fun i bmp tw ci hm => (hag e0 hm0).mono (by have := hup i bmp tw ci hm; omega)⟩
      -- the new node in place of the top
      have fin : ∀ (n : Node V) (l r : List (Key × V)), WF n → toList s.top = l ++ r → toList n = l ++ (key, w none) :: r →
          (∀ e ∈ l, KLt e.1 key) → (∀ e ∈ r, KLt key e.1) →
          Inv (⟨plug n s.up, tbl.weight + 1⟩ : Trie V) ∧
          entries (⟨plug n s.up, tbl.weight + 1⟩ : Trie V) = OrdMap.insertWith key w (toList tbl.root) := by
        intro n l r hwn hlr hnl hl hr
        obtain ⟨r1, r2⟩ := hp.replace hw n hwn (by
          intro e' he'
          rw [hnl] at he'
          have : e' = (key, w none) ∨ e' ∈ toList s.top := by
            rw [hlr]; simp only [List.mem_append, List.mem_cons] at he' ⊢
            rcases he' with h | h | h
            · exact .inr (.inl h)
            · exact .inl h
            · exact .inr (.inr h)
          rcases this with h | h
          · exact ⟨e0, hm0, fun i bmp tw ci hm => by rw [h]; exact (hag e0 hm0).mono (by have := hup i bmp tw ci hm; omega)⟩
          · exact ⟨e', h, fun _ _ _ _ _ => Agree.refl _⟩)
        obtain ⟨i1, i2⟩ := mk_entries (plug n s.up) (tbl.weight + 1) r1 (by
          rw [r2, hlen, hp.toList, hnl, hlr]; simp; omega)
        refine ⟨i1, ?_⟩
        rw [i2, r2, hp.toList, hnl, hlr]
        have := insertWith_absent key w (before s.up ++ l) (r ++ after s.up)
          (by intro e he; rcases List.mem_append.mp he with h | h; exact hside.1 e h; exact hl e h)
          (by intro e he; rcases List.mem_append.mp he with h | h; exact hr e h; exact hside.2 e h)
        simp only [List.append_assoc, List.cons_append] at this ⊢
        rw [this]
      have hpok : parentOk key s.up = true := by
        cases hups : s.up with
        | nil => rfl
        | cons f up' =>
          rw [hups] at hp hup
          obtain ⟨top, htop'⟩ : ∃ x, s.top = x := ⟨_, rfl⟩
          rw [htop'] at hp hm0
          cases hp with
          | @cons i bmp tw ci _ _ hpp hci =>
            have hi : i < idx := hup i bmp tw ci (by simp)
            have hwt := hpp.wf hw
            cases hwt with
            | branch hl h2 hc ha hb =>
              have hbit := hb ci top hci e0 hm0
              rw [← hag e0 (by rw [htop']; exact hm0) i hi] at hbit
              exact (twigoff_of_bits bmp ci _ hbit).2.1
      have hsplit : (∀ e ∈ toList s.top, keybit idx e.1 = tbit) →
          ∃ n, splitNode s.top idx tbit (keybit idx key) (.leaf key (w none)) = .ok n ∧
            Inv (⟨plug n s.up, tbl.weight + 1⟩ : Trie V) ∧
            entries (⟨plug n s.up, tbl.weight + 1⟩ : Trie V) = OrdMap.insertWith key w (toList tbl.root) := by
        intro hall
        obtain ⟨n, n1, n2, n3⟩ := splitNode_spec (hp.wf hw) key (w none) idx tbit hk hne hag hall
        rcases n3 with ⟨n3, n4⟩ | ⟨n3, n4⟩
        · exact ⟨n, n1, fin n (toList s.top) [] n2 (by simp) n3 n4 (by simp)⟩
        · exact ⟨n, n1, fin n [] (toList s.top) n2 (by simp) n3 (by simp) n4⟩
      unfold insertAt
      rw [hpok]
      cases htp : s.top with
      | leaf k v =>
        rw [htp] at hsplit
        obtain ⟨n, n1, n2, n3⟩ := hsplit (by
          intro e he
          have h0 := hleaf k v htp
          simp only [toList, List.mem_singleton] at he
          rw [htb, h0, he])
        simp only [Bool.not_true, Bool.false_eq_true, if_false]
        rw [n1]
        exact ⟨_, rfl, n2, n3⟩
      | branch j bmp tw =>
        obtain ⟨t1, t2, t3⟩ := htop j bmp tw htp
        simp only [Bool.not_true, Bool.false_eq_true, if_false]
        by_cases hj : j = idx
        · rw [if_pos hj]
          subst hj
          have hwt := hp.wf hw
          rw [htp] at hwt
          obtain ⟨n, n1, n2, n3, n4, n5⟩ := addChild_spec hwt key (w none) hk (t2 rfl) (by
            intro e he; exact hag e (by rw [htp]; simpa [toList] using he))
          rw [n1]
          simp only [Res.bind_ok]
          obtain ⟨f1, f2⟩ := fin n _ _ n2 (by
            rw [htp]; simp only [toList]
            rw [← toListL_append, List.take_append_drop]) n3 n4 n5
          exact ⟨_, rfl, f1, f2⟩
        · rw [if_neg hj]
          rw [htp] at hsplit t3
          obtain ⟨n, n1, n2, n3⟩ := hsplit (t3 (by omega))
          rw [n1]
          exact ⟨_, rfl, n2, n3⟩

/-! ## Deletion -/

theorem delFound_spec {root : Node V} (hw : WF root) (s : Stk V) (k : Key) (v : V) (h : AtLeaf root s k v) :
    ∃ tbl', delFound (toList root).length k v s.up = .ok (tbl', v) ∧ Inv tbl' ∧ entries tbl' = before s.up ++ after s.up ∧
      tbl'.weight = (toList root).length - 1 := by
  obtain ⟨hst, hp⟩ := h
  have hroot := hp.toList
  cases hups : s.up with
  | nil =>
    rw [hups] at hp hroot
    have hr1 : (toList root).length = 1 := by rw [hroot]; simp [before, after, toList]
    unfold delFound
    rw [hr1]
    exact ⟨_, rfl, .inl rfl, by simp [entries, before, after], rfl⟩
  | cons f up' =>
    rw [hups] at hp hroot
    cases hp with
    | @cons i bmp tw ci _ _ hpp hci =>
      have hcl := (List.getElem?_eq_some_iff.mp hci).1
      have hwt := hpp.wf hw
      cases hwt with
      | branch hl h2 hc ha hb =>
        have hlen : (toList root).length = (before up').length + (toListL tw).length + (after up').length := by
          rw [hpp.toList]; simp [toList]; omega
        have hsp := toListL_split hci
        have htwl : (toListL tw).length = (toListL (tw.take ci)).length + 1 + (toListL (tw.drop (ci + 1))).length := by
          rw [hsp]; simp [toList]; omega
        have fin : ∀ n : Node V, WF n → toList n = toListL (tw.take ci) ++ toListL (tw.drop (ci + 1)) →
            Inv (⟨plug n up', (toList root).length - 1⟩ : Trie V) ∧
            entries (⟨plug n up', (toList root).length - 1⟩ : Trie V) = before ((Node.branch i bmp tw, ci) :: up') ++ after ((Node.branch i bmp tw, ci) :: up') := by
          intro n hwn hn
          obtain ⟨r1, r2⟩ := hpp.replace hw n hwn (by
            intro e' he'
            refine ⟨e', ?_, fun _ _ _ _ _ => Agree.refl _⟩
            simp only [toList]
            rw [hsp]
            rw [hn] at he'
            simp only [List.mem_append] at he' ⊢
            rcases he' with h | h
            · exact .inl (.inl h)
            · exact .inr h)
          obtain ⟨i1, i2⟩ := mk_entries (plug n up') ((toList root).length - 1) r1 (by
            rw [r2, hlen, hn]; simp; omega)
          refine ⟨i1, ?_⟩
          rw [i2, r2, hn]
          simp [before, after]
        unfold delFound
        simp only
        by_cases hbw : branchWeight bmp = 2
        · rw [if_pos hbw]
          have htl : tw.length = 2 := by omega
          match tw, htl with
          | [a, b], _ =>
            have hci2 : ci = 0 ∨ ci = 1 := by simp at hcl; omega
            rcases hci2 with rfl | rfl
            · obtain ⟨f1, f2⟩ := fin b (hc b (by simp)) (by simp [toListL])
              exact ⟨_, rfl, f1, f2, rfl⟩
            · obtain ⟨f1, f2⟩ := fin a (hc a (by simp)) (by simp [toListL])
              exact ⟨_, rfl, f1, f2, rfl⟩
        · rw [if_neg hbw]
          have hbit := hb ci (.leaf k v) hci (k, v) (by simp [toList])
          obtain ⟨q1, q2, q3⟩ := twigoff_of_bits bmp ci _ hbit
          have hclr := bits_clr bmp _ q1 q2
          rw [q3] at hclr
          have her : tw.eraseIdx ci = tw.take ci ++ tw.drop (ci + 1) := List.eraseIdx_eq_take_drop_succ _ _
          obtain ⟨f1, f2⟩ := fin (.branch i (bmp ^^^ (bmp &&& 2 ^ keybit i k)) (tw.eraseIdx ci)) (by
            refine .branch ?_ ?_ ?_ ?_ ?_
            · rw [← bits_length, hclr, List.length_eraseIdx_of_lt hcl, List.length_eraseIdx_of_lt (by rw [bits_length]; omega), bits_length]
              omega
            · rw [List.length_eraseIdx_of_lt hcl]; omega
            · intro c hcm; exact hc c (List.mem_of_mem_eraseIdx hcm)
            · have hsub : ∀ e ∈ toListL (tw.eraseIdx ci), e ∈ toListL tw := by
                intro e he
                obtain ⟨c, hcm, hec⟩ := (mem_toListL _ _).mp he
                exact (mem_toListL _ _).mpr ⟨c, List.mem_of_mem_eraseIdx hcm, hec⟩
              intro e he e' he'
              exact ha e (hsub e he) e' (hsub e' he')
            · intro n c hn e he
              rw [hclr]
              rw [List.getElem?_eraseIdx] at hn ⊢
              split at hn
              · rename_i hlt; rw [if_pos hlt]; exact hb _ c hn e he
              · rename_i hlt; rw [if_neg hlt]; exact hb _ c hn e he) (by simp only [toList]; rw [her, toListL_append])
          exact ⟨_, rfl, f1, f2, rfl⟩

theorem del_spec (tbl : Trie V) (h : Inv tbl) (key : Key) :
    ∃ tbl', del tbl key = .ok (tbl', OrdMap.lookup (entries tbl) key) ∧ Inv tbl' ∧
      entries tbl' = OrdMap.erase key (entries tbl) := by
  unfold del
  rcases h.cases with ⟨h0, he⟩ | ⟨h0, hw, he, hlen⟩
  · rw [if_pos h0, he]
    exact ⟨tbl, rfl, h, by rw [he]; rfl⟩
  · rw [if_neg h0, he]
    have hsorted := hw.sorted
    rcases delFind_spec hw tbl.root [] key .nil with ⟨s, v, e1, e2, _⟩ | ⟨e1, e2⟩
    · rw [e1]
      simp only [Res.bind_ok]
      obtain ⟨top, up⟩ := s
      have : top = .leaf key v := e2.1
      subst this
      obtain ⟨tbl', d1, d2, d3, _⟩ := delFound_spec hw ⟨.leaf key v, up⟩ key v e2
      simp only
      rw [hlen]
      simp only at d1
      rw [d1]
      simp only [Res.bind_ok]
      rw [e2.toList] at hsorted ⊢
      have hs := sorted_sides hsorted
      refine ⟨tbl', ?_, d2, ?_⟩
      · rw [lookup_present key v _ _ (fun e he h => by have := hs.1 e he; rw [h] at this; exact KLt_irrefl _ this)]
      · rw [d3, erase_present key v _ _ hs.1 hs.2]
    · rw [e1]
      simp only [Res.bind_ok]
      exact ⟨tbl, by rw [lookup_absent key _ e2], h, by rw [erase_absent key _ e2, he]⟩

end Knot.Trie
