import Verif.Journal.Spec
/-!
# Lemmas: the entries and paths through them
-/
namespace Knot.Journal

variable {Z D : Type}

abbrev Ents (D : Type) := List (Nat × Entry D)

theorem get_erase (chs : Ents D) (k j : Nat) : get (erase chs k) j = if j = k then none else get chs j := by
  induction chs with
  | nil => simp [erase, get]
  | cons p l ih =>
    obtain ⟨i, e⟩ := p
    have hc : erase ((i, e) :: l) k = if i = k then erase l k else (i, e) :: erase l k := by
      by_cases h : i = k <;> simp [erase, h]
    rw [hc]
    by_cases h : i = k
    · rw [if_pos h, ih]
      simp only [get, h]
      grind
    · rw [if_neg h]
      simp only [get]
      grind

theorem get_put (chs : Ents D) (k j : Nat) (e : Entry D) :
    get (put chs k e) j = if j = k then some e else get chs j := by
  simp only [put, get, get_erase]
  grind

theorem get_append (a b : Ents D) (k : Nat) : get (a ++ b) k = (get a k).or (get b k) := by
  induction a with
  | nil => simp [get]
  | cons p a ih =>
    simp only [List.cons_append, get, ih]
    split <;> simp

theorem get_none (a : Ents D) (k : Nat) (h : k ∉ a.map (·.1)) : get a k = none := by
  induction a with
  | nil => rfl
  | cons p a ih =>
    simp only [List.map_cons, List.mem_cons, not_or] at h
    simp only [get]
    rw [if_neg (fun e => h.1 e.symm), ih h.2]

theorem get_mem (a : Ents D) (k : Nat) (e : Entry D) (h : get a k = some e) : (k, e) ∈ a := by
  induction a with
  | nil => cases h
  | cons p a ih =>
    simp only [get] at h
    by_cases q : p.1 = k
    · rw [if_pos q] at h; subst q; cases h; exact List.mem_cons_self
    · rw [if_neg q] at h; exact List.mem_cons_of_mem _ (ih h)

theorem length_erase (chs : Ents D) (k : Nat) (e : Entry D) (h : get chs k = some e) :
    (erase chs k).length + 1 ≤ chs.length := by
  induction chs with
  | nil => cases h
  | cons p l ih =>
    have hle : ∀ l : Ents D, (erase l k).length ≤ l.length := fun l => List.length_filter_le _ _
    by_cases q : p.1 = k
    · have : erase (p :: l) k = erase l k := by simp [erase, q]
      rw [this]
      have := hle l
      simp only [List.length_cons]; omega
    · have hc : erase (p :: l) k = p :: erase l k := by simp [erase, q]
      simp only [get, if_neg q] at h
      have := ih h
      rw [hc]
      simp only [List.length_cons]; omega

/-- The entries are exactly those of the list, whose keys are different. -/
structure Stores (chs : Ents D) (l : Ents D) : Prop where
  nodup : (l.map (·.1)).Nodup
  get : ∀ k, get chs k = get l k

theorem Stores.erase_head {chs l : Ents D} {k : Nat} {e : Entry D} (h : Stores chs ((k, e) :: l)) :
    Journal.get chs k = some e ∧ Stores (erase chs k) l := by
  have hn := List.nodup_cons.mp h.nodup
  refine ⟨by rw [h.get]; simp [Journal.get], hn.2, fun j => ?_⟩
  rw [get_erase, h.get]
  by_cases q : j = k
  · rw [if_pos q, q]
    exact (get_none _ _ hn.1).symm
  · rw [if_neg q]
    simp only [Journal.get]
    rw [if_neg (fun e => q e.symm)]

theorem Stores.length_le {chs l : Ents D} (h : Stores chs l) : l.length ≤ chs.length := by
  induction l generalizing chs with
  | nil => simp
  | cons p l ih =>
    obtain ⟨h1, h2⟩ := h.erase_head (k := p.1) (e := p.2)
    have := length_erase _ _ _ h1
    have := ih h2
    simp only [List.length_cons]; omega

theorem Stores.perm {chs l l' : Ents D} (h : Stores chs l) (hp : List.Perm l l') : Stores chs l' := by
  have hn := (hp.map (·.1)).nodup_iff.mp h.nodup
  refine ⟨hn, fun k => ?_⟩
  rw [h.get]
  have uniq : ∀ {a : Ents D} {e : Entry D}, (a.map (·.1)).Nodup → (k, e) ∈ a → Journal.get a k = some e := by
    intro a e ha hm
    induction a with
    | nil => cases hm
    | cons p a ih =>
      have ha' := List.nodup_cons.mp ha
      rcases List.mem_cons.mp hm with q | q
      · simp [Journal.get, ← q]
      · have : p.1 ≠ k := fun e' => ha'.1 (List.mem_map.mpr ⟨_, q, e'.symm⟩)
        simp only [Journal.get]
        rw [if_neg this]
        exact ih ha'.2 q
  cases hg : Journal.get l k with
  | some e => exact (uniq hn (hp.mem_iff.mp (get_mem _ _ _ hg))).symm
  | none =>
    cases hg' : Journal.get l' k with
    | none => rfl
    | some e =>
      rw [uniq h.nodup (hp.mem_iff.mpr (get_mem _ _ _ hg'))] at hg
      cases hg

/-! ## Paths -/

/-- The serials on a path. -/
def nodes (a : Nat) (l : Ents D) : List Nat := a :: l.map (·.2.to)

theorem linked_append {a c : Nat} {l1 l2 : Ents D} :
    Linked a (l1 ++ l2) c ↔ ∃ b, Linked a l1 b ∧ Linked b l2 c := by
  induction l1 generalizing a with
  | nil => simp [Linked]
  | cons p l1 ih =>
    obtain ⟨k, e⟩ := p
    simp only [List.cons_append, Linked, ih]
    constructor
    · rintro ⟨h1, h2, b, h3, h4⟩; exact ⟨b, ⟨h1, h2, h3⟩, h4⟩
    · rintro ⟨b, ⟨h1, h2, h3⟩, h4⟩; exact ⟨h1, h2, b, h3, h4⟩

theorem linked_end {a b b' : Nat} {l : Ents D} (h : Linked a l b) (h' : Linked a l b') : b = b' := by
  induction l generalizing a with
  | nil => exact h.symm.trans h'
  | cons p l ih => exact ih h.2.2 h'.2.2

theorem linked_last {a b : Nat} {l : Ents D} (h : Linked a l b) : b ∈ nodes a l := by
  induction l generalizing a with
  | nil => simp [nodes, Linked] at *; exact h.symm
  | cons p l ih =>
    have := ih h.2.2
    simp only [nodes, List.map_cons, List.mem_cons] at *
    rcases this with q | q
    · exact .inr (.inl q)
    · exact .inr (.inr q)

/-- The keys with the end are the nodes. -/
theorem linked_keys {a b : Nat} {l : Ents D} (h : Linked a l b) : nodes a l = l.map (·.1) ++ [b] := by
  induction l generalizing a with
  | nil => simp [nodes, Linked] at *; exact h
  | cons p l ih =>
    have := ih h.2.2
    simp only [nodes, List.map_cons, List.cons_append] at *
    rw [this, h.1]

theorem nodes_append {a b : Nat} {l1 l2 : Ents D} (h : Linked a l1 b) :
    nodes a (l1 ++ l2) = l1.map (·.1) ++ nodes b l2 := by
  induction l1 generalizing a with
  | nil => simp only [Linked] at h; subst h; rfl
  | cons p l1 ih =>
    have := ih h.2.2
    simp only [nodes, List.map_cons, List.cons_append, List.map_append] at *
    rw [this, h.1]

theorem foldl_linked {a b : Nat} {l : Ents D} (h : Linked a l b) : l.foldl (fun _ p => p.2.to) a = b := by
  induction l generalizing a with
  | nil => exact h
  | cons p l ih => exact ih h.2.2

theorem linked_eq_nil {a b : Nat} {l : Ents D} (h : Linked a l b) (hn : (nodes a l).Nodup) :
    a = b ↔ l = [] := by
  constructor
  · intro e
    cases l with
    | nil => rfl
    | cons p l =>
      have := linked_last h.2.2
      rw [← e] at this
      exact absurd this (List.nodup_cons.mp hn).1
  · rintro rfl; exact h

/-- Reading along a path up to its end. -/
theorem readFrom_path {chs : Ents D} {a b : Nat} {l : Ents D} (h : Linked a l b) (hn : (nodes a l).Nodup)
    (hg : ∀ k e, (k, e) ∈ l → get chs k = some e) (he : get chs b = none) {n : Nat} (hl : l.length ≤ n) :
    readFrom chs n a = .ok l := by
  induction l generalizing a n with
  | nil =>
    simp only [Linked] at h
    unfold readFrom; rw [h, he]
  | cons p l ih =>
    obtain ⟨k, e⟩ := p
    obtain ⟨h1, h2, h3⟩ := h
    subst h1
    unfold readFrom
    rw [hg k e List.mem_cons_self]
    have hne : e.to ≠ k := by
      intro q
      have := (List.nodup_cons.mp hn).1
      simp [← q] at this
    simp only
    rw [if_neg hne]
    cases n with
    | zero => simp at hl
    | succ n =>
      simp only
      rw [ih h3 (List.nodup_cons.mp hn).2 (fun k e hm => hg k e (List.mem_cons_of_mem _ hm))
        (by simpa using hl)]

/-! ## Deleting along a path -/

/-- journal_delete() deletes the beginning of the path up to a node. -/
theorem deleteRun_path {tofree todel stop : Nat} {chs : Ents D} {fuel fs fc a : Nat} {l rest m : Ents D}
    (h : Linked a l stop) (hn : (nodes a l).Nodup) (hs : Stores chs (l ++ (rest ++ m)))
    (hz : ∀ p ∈ l, 0 < p.2.size) (hf : l.length ≤ fuel) :
    ∃ l1 l2 b fs', l = l1 ++ l2 ∧ Linked a l1 b ∧ Linked b l2 stop ∧
      ∃ chs', deleteRun tofree todel stop fuel chs fs fc a = (chs', fs', fc + l1.length, b) ∧
      Stores chs' (l2 ++ (rest ++ m)) ∧ fs + l1.length ≤ fs' ∧ (l1 = [] → fs' = fs) ∧
      (l2 = [] ∨ (tofree ≤ fs' ∧ todel ≤ fc + l1.length)) := by
  induction l generalizing a chs fs fc fuel with
  | nil =>
    refine ⟨[], [], a, fs, rfl, rfl, h, chs, ?_, hs, by simp, fun _ => rfl, .inl rfl⟩
    cases fuel with
    | zero => rfl
    | succ fuel =>
      unfold deleteRun
      rw [if_neg (fun q => q.1 h)]; rfl
  | cons p l ih =>
    obtain ⟨k, e⟩ := p
    obtain ⟨h1, h2, h3⟩ := h
    subst h1
    cases fuel with
    | zero => simp at hf
    | succ fuel =>
      unfold deleteRun
      by_cases hc : k ≠ stop ∧ (fs < tofree ∨ fc < todel)
      · rw [if_pos hc]
        obtain ⟨g1, g2⟩ := hs.erase_head
        rw [g1]
        have hsz : 0 < e.size := hz (k, e) List.mem_cons_self
        simp only
        rw [if_neg (by omega)]
        obtain ⟨l1, l2, b, fs', i1, i2, i3, chs', i4, i5, i6, i7, i8⟩ :=
          ih h3 (List.nodup_cons.mp hn).2 g2 (fun p hp => hz p (List.mem_cons_of_mem _ hp))
            (by simpa using hf) (fs := fs + e.size) (fc := fc + 1)
        refine ⟨(k, e) :: l1, l2, b, fs', by rw [i1]; rfl, ⟨rfl, h2, i2⟩, i3, chs', ?_, i5, ?_, by simp, ?_⟩
        · rw [i4]
          have : fc + 1 + l1.length = fc + (l1.length + 1) := by omega
          rw [this]; rfl
        · simp only [List.length_cons]; omega
        · rcases i8 with q | q
          · exact .inl q
          · right; simp only [List.length_cons]; omega
      · rw [if_neg hc]
        have hks : k ≠ stop := by
          intro q
          have := linked_last h3
          rw [← q] at this
          exact absurd this (List.nodup_cons.mp hn).1
        refine ⟨[], (k, e) :: l, k, fs, rfl, rfl, ⟨rfl, h2, h3⟩, chs, rfl, hs, by simp, fun _ => rfl, .inr ?_⟩
        have : ¬ (fs < tofree ∨ fc < todel) := fun q => hc ⟨hks, q⟩
        simp only [List.length_nil]
        omega

end Knot.Journal
