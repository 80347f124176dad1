import Verif.Trie.Lemmas
/-! Well-formed tries and paths in them. -/
namespace Knot.Trie
variable {V : Type}

mutual
/-- The entries under a node, from left to right. -/
def toList : Node V → List (Key × V)
  | .leaf k v => [(k, v)]
  | .branch _ _ tw => toListL tw
def toListL : List (Node V) → List (Key × V)
  | [] => []
  | t :: ts => toList t ++ toListL ts
end

theorem toListL_append (a b : List (Node V)) : toListL (a ++ b) = toListL a ++ toListL b := by
  induction a with
  | nil => simp [toListL]
  | cons t ts ih => simp [toListL, ih]

theorem mem_toListL (e : Key × V) (l : List (Node V)) : e ∈ toListL l ↔ ∃ c ∈ l, e ∈ toList c := by
  induction l with
  | nil => simp [toListL]
  | cons t ts ih => simp [toListL, ih]

/-- All keys under a node have equal nibbles up to (not including) `n`. -/
def Agree (n : Nat) (a b : Key) : Prop := ∀ j, j < n → keybit j a = keybit j b

theorem Agree.symm {n : Nat} {a b : Key} (h : Agree n a b) : Agree n b a := fun j hj => (h j hj).symm
theorem Agree.trans {n : Nat} {a b c : Key} (h : Agree n a b) (h' : Agree n b c) : Agree n a c :=
  fun j hj => (h j hj).trans (h' j hj)
theorem Agree.mono {m n : Nat} {a b : Key} (h : Agree n a b) (hmn : m ≤ n) : Agree m a b := fun j hj => h j (by omega)
theorem Agree.refl {n : Nat} (a : Key) : Agree n a a := fun _ _ => rfl

/-- The invariant of a qp-trie. -/
inductive WF : Node V → Prop
  | leaf {k : Key} {v : V} : k.length < 2147483648 → WF (.leaf k v)
  | branch {i bmp : Nat} {tw : List (Node V)} : tw.length = branchWeight bmp → 2 ≤ tw.length → (∀ c ∈ tw, WF c) →
      (∀ e ∈ toListL tw, ∀ e' ∈ toListL tw, Agree i e.1 e'.1) →
      (∀ (n : Nat) (c : Node V), tw[n]? = some c → ∀ e ∈ toList c, (bits bmp)[n]? = some (keybit i e.1)) →
      WF (.branch i bmp tw)

theorem WF.nonempty {t : Node V} (h : WF t) : ∃ e, e ∈ toList t := by
  induction h with
  | leaf => exact ⟨_, by simp [toList]; rfl⟩
  | @branch i bmp tw hl h2 hc ha hb ih =>
    match tw, h2 with
    | c :: _, _ =>
      obtain ⟨e, he⟩ := ih c (by simp)
      exact ⟨e, by simp [toList, toListL, he]⟩

theorem WF.twig {i bmp n : Nat} {tw : List (Node V)} (h : WF (.branch i bmp tw)) (hn : n < branchWeight bmp) :
    ∃ c, Trie.twig bmp tw n = .ok c ∧ tw[n]? = some c := by
  cases h with
  | branch hl h2 hc ha hb =>
    refine ⟨tw[n]'(by omega), ?_, List.getElem?_eq_getElem (by omega)⟩
    unfold Trie.twig Res.rd
    rw [if_pos hn, List.getElem?_eq_getElem (by omega)]

theorem twig_get {bmp n : Nat} {tw : List (Node V)} {c : Node V} (h : Trie.twig bmp tw n = .ok c) : tw[n]? = some c ∧ n < branchWeight bmp := by
  unfold Trie.twig Res.rd at h
  split at h
  · split at h
    · rename_i hn _ _ e; injection h with h; subst h; exact ⟨e, hn⟩
    · cases h
  · cases h

/-- A child branch has a greater index. -/
theorem WF.index_lt {i bmp : Nat} {tw : List (Node V)} {i' bmp' : Nat} {tw' : List (Node V)}
    (h : WF (.branch i bmp tw)) (hc : .branch i' bmp' tw' ∈ tw) : i < i' := by
  cases h with
  | branch hl h2 hwf ha hb =>
    obtain ⟨n, hn⟩ := List.getElem?_of_mem hc
    cases hwf _ hc with
    | branch hl' h2' hwf' ha' hb' =>
      -- two children of the child
      obtain ⟨c0, hc0⟩ : ∃ c, tw'[0]? = some c := ⟨tw'[0]'(by omega), List.getElem?_eq_getElem _⟩
      obtain ⟨c1, hc1⟩ : ∃ c, tw'[1]? = some c := ⟨tw'[1]'(by omega), List.getElem?_eq_getElem _⟩
      obtain ⟨e0, he0⟩ := (hwf' c0 (List.mem_of_getElem? hc0)).nonempty
      obtain ⟨e1, he1⟩ := (hwf' c1 (List.mem_of_getElem? hc1)).nonempty
      have m0 : e0 ∈ toListL tw' := (mem_toListL _ _).mpr ⟨c0, List.mem_of_getElem? hc0, he0⟩
      have m1 : e1 ∈ toListL tw' := (mem_toListL _ _).mpr ⟨c1, List.mem_of_getElem? hc1, he1⟩
      have b0 := hb' 0 c0 hc0 e0 he0
      have b1 := hb' 1 c1 hc1 e1 he1
      have hlt := bits_lt bmp' 0 1 _ _ (by omega) b0 b1
      have M0 : e0 ∈ toListL tw := (mem_toListL _ _).mpr ⟨_, hc, by simpa [toList] using m0⟩
      have M1 : e1 ∈ toListL tw := (mem_toListL _ _).mpr ⟨_, hc, by simpa [toList] using m1⟩
      rcases Nat.lt_trichotomy i i' with c | c | c
      · exact c
      · subst c
        have p0 := hb n _ hn e0 (by simpa [toList] using m0)
        have p1 := hb n _ hn e1 (by simpa [toList] using m1)
        rw [p0] at p1
        injection p1 with p1
        omega
      · have := ha e0 M0 e1 M1 i' c
        omega

/-- The keys under a well-formed node ascend. -/
theorem WF.sorted {t : Node V} (h : WF t) : (toList t).Pairwise (fun a b => KLt a.1 b.1) := by
  induction h with
  | leaf => simp [toList]
  | @branch i bmp tw hl h2 hc ha hb ih =>
    simp only [toList]
    -- generalize to a suffix of the children
    have key : ∀ (l : List (Node V)) (n : Nat), l = tw.drop n → (toListL l).Pairwise (fun a b => KLt a.1 b.1) := by
      intro l
      induction l with
      | nil => intro n _; simp [toListL]
      | cons c l ihl =>
        intro n hn
        have hcn : tw[n]? = some c := by
          have := congrArg List.head? hn
          simpa using this.symm
        have hdrop : l = tw.drop (n + 1) := by
          have := congrArg List.tail hn
          simpa [List.tail_drop] using this
        simp only [toListL]
        rw [List.pairwise_append]
        refine ⟨ih c (List.mem_of_getElem? hcn), ihl (n + 1) hdrop, ?_⟩
        intro a hma b hmb
        obtain ⟨c', hc', hmb'⟩ := (mem_toListL _ _).mp hmb
        obtain ⟨m, hm⟩ := List.getElem?_of_mem hc'
        rw [hdrop, List.getElem?_drop] at hm
        refine ⟨i, ha a ((mem_toListL _ _).mpr ⟨c, List.mem_of_getElem? hcn, hma⟩) b ((mem_toListL _ _).mpr ⟨c', List.mem_of_getElem? hm, hmb'⟩), ?_⟩
        exact bits_lt bmp n (n + 1 + m) _ _ (by omega) (hb n c hcn a hma) (hb _ c' hm b hmb')
    exact key tw 0 (by simp)

/-! ## Paths -/

/-- A path from the root to a node. -/
inductive IsPath (root : Node V) : Node V → List (Node V × Nat) → Prop
  | nil : IsPath root root []
  | cons {i bmp : Nat} {tw : List (Node V)} {ci : Nat} {t : Node V} {up : List (Node V × Nat)} : IsPath root (.branch i bmp tw) up → tw[ci]? = some t →
      IsPath root t ((.branch i bmp tw, ci) :: up)

/-- The entries to the left and to the right of a path. -/
def before : List (Node V × Nat) → List (Key × V)
  | [] => []
  | (.branch _ _ tw, ci) :: up => before up ++ toListL (tw.take ci)
  | (.leaf _ _, _) :: up => before up
def after : List (Node V × Nat) → List (Key × V)
  | [] => []
  | (.branch _ _ tw, ci) :: up => toListL (tw.drop (ci + 1)) ++ after up
  | (.leaf _ _, _) :: up => after up

theorem split_at {tw : List (Node V)} {ci : Nat} {t : Node V} (h : tw[ci]? = some t) :
    tw = tw.take ci ++ t :: tw.drop (ci + 1) := by
  obtain ⟨h1, h2⟩ := List.getElem?_eq_some_iff.mp h
  rw [← h2, ← List.drop_eq_getElem_cons h1, List.take_append_drop]

theorem toListL_split {tw : List (Node V)} {ci : Nat} {t : Node V} (h : tw[ci]? = some t) :
    toListL tw = toListL (tw.take ci) ++ toList t ++ toListL (tw.drop (ci + 1)) := by
  have := congrArg toListL (split_at h)
  rw [toListL_append] at this
  rw [this]
  simp [toListL]

theorem IsPath.toList {root t : Node V} {up : List (Node V × Nat)} (h : IsPath root t up) :
    toList root = before up ++ toList t ++ after up := by
  induction h with
  | nil => simp [before, after]
  | cons _ hci ih =>
    rw [ih]
    simp only [Trie.toList, before, after]
    rw [toListL_split hci]
    simp

theorem IsPath.plug {root t : Node V} {up : List (Node V × Nat)} (h : IsPath root t up) : plug t up = root := by
  induction h with
  | nil => rfl
  | @cons i bmp tw ci t up _ hci ih =>
    have : tw.set ci t = tw := by
      obtain ⟨h1, h2⟩ := List.getElem?_eq_some_iff.mp hci
      rw [← h2]; exact List.set_getElem_self h1
    simp only [Trie.plug, this, ih]

theorem IsPath.wf {root t : Node V} {up : List (Node V × Nat)} (h : IsPath root t up) (hw : WF root) : WF t := by
  induction h with
  | nil => exact hw
  | cons _ hci ih =>
    cases ih with
    | branch _ _ hc _ _ => exact hc _ (List.mem_of_getElem? hci)

theorem IsPath.frame {root t : Node V} {up : List (Node V × Nat)} (h : IsPath root t up) : ∀ f ∈ up, ∃ i bmp tw, f.1 = .branch i bmp tw := by
  induction h with
  | nil => simp
  | cons _ _ ih =>
    intro f hf
    rcases List.mem_cons.mp hf with rfl | hf
    · exact ⟨_, _, _, rfl⟩
    · exact ih f hf

/-- The nodes under a branch are deeper than everything above it. -/
theorem IsPath.index_lt {root : Node V} {i bmp : Nat} {tw : List (Node V)} {up : List (Node V × Nat)}
    (hw : WF root) (h : IsPath root (.branch i bmp tw) up) :
    ∀ i' bmp' tw' ci', (Node.branch i' bmp' tw', ci') ∈ up → i' < i := by
  generalize ht : Node.branch i bmp tw = t at h
  induction h generalizing i bmp tw with
  | nil => simp
  | @cons j b' w' cj t up hp hci ih =>
    subst ht
    have hlt := (hp.wf hw).index_lt (List.mem_of_getElem? hci)
    intro i' bmp' tw' ci' hm
    rcases List.mem_cons.mp hm with he | hm
    · injection he with he1 _
      injection he1 with he1 _ _
      omega
    · have := ih rfl i' bmp' tw' ci' hm; omega

/-- All keys under a node agree with each other at the indices of the branches above it. -/
theorem IsPath.agree {root t : Node V} {up : List (Node V × Nat)} (hw : WF root) (h : IsPath root t up) :
    ∀ i bmp tw ci, (Node.branch i bmp tw, ci) ∈ up → ∀ e ∈ Trie.toList t, ∀ e' ∈ Trie.toList t, Agree (i + 1) e.1 e'.1 := by
  induction h with
  | nil => simp
  | @cons j b' w' cj t up hp hci ih =>
    intro i bmp tw ci hm e he e' he'
    have hsub : ∀ e ∈ Trie.toList t, e ∈ Trie.toList (.branch j b' w') := by
      intro e he
      simp only [Trie.toList]
      exact (mem_toListL _ _).mpr ⟨t, List.mem_of_getElem? hci, he⟩
    rcases List.mem_cons.mp hm with hh | hm
    · injection hh with hh1 _
      injection hh1 with hh1 hh2 hh3
      subst hh1
      cases hp.wf hw with
      | branch hl h2 hc ha hb =>
        intro k hk
        by_cases hki : k < i
        · exact ha e (by simpa [Trie.toList] using hsub e he) e' (by simpa [Trie.toList] using hsub e' he') k hki
        · have : k = i := by omega
          subst this
          have p := hb cj t hci e he
          have q := hb cj t hci e' he'
          rw [p] at q
          injection q
    · exact ih i bmp tw ci hm e (hsub e he) e' (hsub e' he')

/-- Replacing the node at the end of a path by a well-formed one whose keys agree with the old
ones at every branch above keeps the trie well formed. -/
theorem IsPath.replace {root t : Node V} {up : List (Node V × Nat)} (hw : WF root) (h : IsPath root t up) :
    ∀ t' : Node V, WF t' →
    (∀ e' ∈ Trie.toList t', ∃ e ∈ Trie.toList t, ∀ i bmp tw ci, (Node.branch i bmp tw, ci) ∈ up → Agree (i + 1) e'.1 e.1) →
    WF (Trie.plug t' up) ∧ Trie.toList (Trie.plug t' up) = before up ++ Trie.toList t' ++ after up := by
  induction h with
  | nil => intro t' hw' _; simp [Trie.plug, before, after, hw']
  | @cons j b' w' cj t up hp hci ih =>
    intro t' hw' hk
    obtain ⟨hcj, hget⟩ := List.getElem?_eq_some_iff.mp hci
    have hset : (w'.set cj t')[cj]? = some t' := by simp [hcj]
    have hll : toListL (w'.set cj t') = toListL (w'.take cj) ++ Trie.toList t' ++ toListL (w'.drop (cj + 1)) := by
      rw [toListL_split hset, List.take_set_of_le (Nat.le_refl _), List.drop_set_of_lt (by omega)]
    have hmem : ∀ e ∈ toListL (w'.set cj t'), e ∈ toListL w' ∨ e ∈ Trie.toList t' := by
      intro e he
      rw [hll] at he
      rw [toListL_split hci]
      simp only [List.mem_append] at he ⊢
      rcases he with (he | he) | he
      · exact .inl (.inl (.inl he))
      · exact .inr he
      · exact .inl (.inr he)
    have hold : ∀ e' ∈ Trie.toList t', ∃ e ∈ toListL w', (∃ c, w'[cj]? = some c ∧ e ∈ Trie.toList c) ∧ ∀ i bmp tw ci, (Node.branch i bmp tw, ci) ∈ (Node.branch j b' w', cj) :: up → Agree (i + 1) e'.1 e.1 := by
      intro e' he'
      obtain ⟨e, he, hag⟩ := hk e' he'
      exact ⟨e, (mem_toListL _ _).mpr ⟨t, List.mem_of_getElem? hci, he⟩, ⟨t, hci, he⟩, hag⟩
    have hnew : WF (.branch j b' (w'.set cj t')) := by
      cases hp.wf hw with
      | branch hl h2 hc ha hb =>
        refine .branch (by simpa using hl) (by simpa using h2) ?_ ?_ ?_
        · intro c hcm
          rcases List.mem_or_eq_of_mem_set hcm with h | h
          · exact hc c h
          · rw [h]; exact hw'
        · have rep : ∀ e ∈ toListL (w'.set cj t'), ∃ e0 ∈ toListL w', Agree j e.1 e0.1 := by
            intro e he
            rcases hmem e he with h | h
            · exact ⟨e, h, Agree.refl _⟩
            · obtain ⟨e0, h0, _, hag⟩ := hold e h
              exact ⟨e0, h0, (hag j b' w' cj (by simp)).mono (by omega)⟩
          intro e he e' he'
          obtain ⟨e0, h0, g0⟩ := rep e he
          obtain ⟨e1, h1, g1⟩ := rep e' he'
          exact (g0.trans (ha e0 h0 e1 h1)).trans g1.symm
        · intro n c hn e he
          by_cases hcn : n = cj
          · subst hcn
            rw [hset] at hn
            injection hn with hn
            subst hn
            obtain ⟨e0, _, ⟨c0, hc0, hm0⟩, hag⟩ := hold e he
            have := hb n c0 hc0 e0 hm0
            rw [this, hag j b' w' n (by simp) j (by omega)]
          · rw [List.getElem?_set_ne (by omega)] at hn
            exact hb n c hn e he
    obtain ⟨r1, r2⟩ := ih (.branch j b' (w'.set cj t')) hnew (by
      intro e' he'
      simp only [Trie.toList] at he'
      rcases hmem e' he' with h | h
      · exact ⟨e', by simpa [Trie.toList] using h, fun _ _ _ _ _ => Agree.refl _⟩
      · obtain ⟨e, h0, _, hag⟩ := hold e' h
        exact ⟨e, by simpa [Trie.toList] using h0, fun i bmp tw ci hm => hag i bmp tw ci (by simp [hm])⟩)
    refine ⟨by simpa [Trie.plug] using r1, ?_⟩
    simp only [Trie.plug]
    rw [r2]
    simp only [Trie.toList, before, after]
    rw [hll]
    simp

/-- What lies to the left of a path is less, what lies to the right greater, than every key that
agrees with the keys at the end of the path at every branch above. -/
theorem IsPath.sides {root t : Node V} {up : List (Node V × Nat)} (hw : WF root) (h : IsPath root t up) (key : Key) :
    (∃ e ∈ Trie.toList t, ∀ i bmp tw ci, (Node.branch i bmp tw, ci) ∈ up → Agree (i + 1) key e.1) →
    (∀ e ∈ before up, KLt e.1 key) ∧ (∀ e ∈ after up, KLt key e.1) := by
  induction h with
  | nil => simp [before, after]
  | @cons j b' w' cj t up hp hci ih =>
    rintro ⟨e0, he0, hag⟩
    have hm0 : e0 ∈ toListL w' := (mem_toListL _ _).mpr ⟨t, List.mem_of_getElem? hci, he0⟩
    obtain ⟨i1, i2⟩ := ih ⟨e0, by simpa [Trie.toList] using hm0, fun i bmp tw ci hm => hag i bmp tw ci (by simp [hm])⟩
    have hj := hag j b' w' cj (by simp)
    cases hp.wf hw with
    | branch hl h2 hc ha hb =>
      have b0 := hb cj t hci e0 he0
      have bk : (bits b')[cj]? = some (keybit j key) := by rw [b0, hj j (by omega)]
      constructor
      · intro e he
        simp only [before, List.mem_append] at he
        rcases he with he | he
        · exact i1 e he
        · obtain ⟨c, hcm, hec⟩ := (mem_toListL _ _).mp he
          obtain ⟨n, hn⟩ := List.getElem?_of_mem hcm
          rw [List.getElem?_take] at hn
          split at hn
          · rename_i hlt
            have hme : e ∈ toListL w' := (mem_toListL _ _).mpr ⟨c, List.mem_of_getElem? hn, hec⟩
            refine ⟨j, fun k hk => ?_, bits_lt b' n cj _ _ hlt (hb n c hn e hec) bk⟩
            rw [ha e hme e0 hm0 k hk, hj k (by omega)]
          · cases hn
      · intro e he
        simp only [after, List.mem_append] at he
        rcases he with he | he
        · obtain ⟨c, hcm, hec⟩ := (mem_toListL _ _).mp he
          obtain ⟨n, hn⟩ := List.getElem?_of_mem hcm
          rw [List.getElem?_drop] at hn
          have hme : e ∈ toListL w' := (mem_toListL _ _).mpr ⟨c, List.mem_of_getElem? hn, hec⟩
          refine ⟨j, fun k hk => ?_, bits_lt b' cj (cj + 1 + n) _ _ (by omega) bk (hb _ c hn e hec)⟩
          rw [ha e hme e0 hm0 k hk, hj k (by omega)]
        · exact i2 e he

end Knot.Trie
