import Verif.Answer.Spec
import Verif.Nsecchain.Props
import Verif.Nsecnext.Props
/-!
# Answers: finding names
-/
namespace Knot.Answer
open Dname (Name canonCmp commonSuffixLen)
open Nsecchain (Closed UnderCut)

/-! ## Suffixes -/

theorem suffix_linear {a b n : Name} (ha : a <:+ n) (hb : b <:+ n) (h : a.length ≤ b.length) : a <:+ b :=
  List.suffix_of_suffix_length_le ha hb h

theorem suffix_drop {a n : Name} (h : a <:+ n) : a = n.drop (n.length - a.length) := by
  obtain ⟨t, rfl⟩ := h
  simp

theorem closed_up {apex : Name} {names : List Name} (cl : Closed apex names) : ∀ {x y : Name}, x ∈ names →
    y <:+ x → apex <:+ y → y ∈ names := by
  intro x
  induction x with
  | nil =>
    intro y hx hy _
    rw [List.suffix_nil] at hy
    rw [hy]; exact hx
  | cons b t ih =>
    intro y hx hy ha
    rcases List.suffix_cons_iff.mp hy with e | hy'
    · rw [e]; exact hx
    · refine ih ?_ hy' ha
      refine cl.parents _ hx ?_
      intro e
      have h1 := ha.length_le
      have h2 := hy'.length_le
      rw [← e] at h1
      simp at h1; omega

/-- A name between a name above and a name is below the former. -/
theorem between {d p n : Name} (hd : d <:+ n) (h1 : d = p ∨ canonCmp d p = .lt) (h2 : canonCmp p n = .lt) : d <:+ p := by
  rcases h1 with e | h1
  · rw [e]; exact List.suffix_refl _
  rcases Nsecnext.canon_lt_cases d p h1 with ⟨t0, t, e⟩ | ⟨w, l, l', q, q', e1, e2, hl⟩
  · exact ⟨t ++ [t0], by simp [e]⟩
  · exfalso
    obtain ⟨s, hs⟩ := hd
    have : canonCmp n p = .lt := by
      rw [← hs, e1, e2, ← List.append_assoc]
      exact Nsecnext.canon_at hl _ _ _
    exact Nsecchain.canon_asymm h2 this

theorem climb_spec {apex : Name} (k : Nat) : ∀ (x : Name), apex <:+ x → apex.length ≤ k → k ≤ x.length →
    climb apex k x = .ok (x.drop (x.length - k)) := by
  intro x
  induction x with
  | nil => intro _ _ _; simp [climb]
  | cons b t ih =>
    intro hs ha hk
    unfold climb
    by_cases h : k < t.length + 1
    · rw [if_pos h]
      have hne : b :: t ≠ apex := by
        intro e
        rw [← e] at ha; simp at ha; omega
      rw [if_neg hne, ih _ ha (by omega)]
      · congr 1
        rw [show (b :: t).length - k = (t.length - k) + 1 by simp; omega]
        simp
      · rcases List.suffix_cons_iff.mp hs with e | h'
        · exact absurd e.symm hne
        · exact h'
    · rw [if_neg h]
      have : k = (b :: t).length := by simp at hk ⊢; omega
      rw [this]; simp

theorem find_spec {z : Zone} (wf : Wf z) (n : Name) :
    (¬ z.apex <:+ n ∧ findDname z n = .ok .out) ∨
    (z.apex <:+ n ∧ n ∈ z.names ∧ findDname z n = .ok (.found n)) ∨
    (z.apex <:+ n ∧ n ∉ z.names ∧ ∃ c, Encloser z c n ∧ findDname z n = .ok (.notFound c)) := by
  by_cases ha : z.apex <:+ n
  · right
    by_cases hn : n ∈ z.names
    · left
      refine ⟨ha, hn, ?_⟩
      simp [findDname, ha, hn]
    · right
      refine ⟨ha, hn, ?_⟩
      have hlt : canonCmp z.apex n = .lt := by
        obtain ⟨t, rfl⟩ := ha
        refine C04_parent_first _ _ ?_
        intro e
        rw [e] at hn; exact hn wf.apex
      have hex : ∃ p, (z.names.filter (fun x => canonCmp x n == .lt)).getLast? = some p := by
        cases e : (z.names.filter (fun x => canonCmp x n == .lt)).getLast? with
        | some p => exact ⟨p, rfl⟩
        | none =>
          rw [List.getLast?_eq_none_iff, List.filter_eq_nil_iff] at e
          exact absurd (by simpa using hlt) (e z.apex wf.apex)
      obtain ⟨p, hp⟩ := hex
      obtain ⟨ys, hys⟩ := List.getLast?_eq_some_iff.mp hp
      have hpm : p ∈ z.names.filter (fun x => canonCmp x n == .lt) := by rw [hys]; simp
      obtain ⟨hp1, hp2⟩ := List.mem_filter.mp hpm
      have hp2 : canonCmp p n = .lt := by simpa using hp2
      have hmax : ∀ d ∈ z.names, canonCmp d n = .lt → d = p ∨ canonCmp d p = .lt := by
        intro d hd hdn
        have hm : d ∈ z.names.filter (fun x => canonCmp x n == .lt) := List.mem_filter.mpr ⟨hd, by simpa using hdn⟩
        have hs := List.Pairwise.filter (fun x => canonCmp x n == .lt) wf.closed.sorted
        rw [hys] at hm hs
        rcases List.mem_append.mp hm with h | h
        · right
          exact (List.pairwise_append.mp hs).2.2 d h p (by simp)
        · left; simpa using h
      obtain ⟨k1, k2, k3, k4⟩ := C05_common_suffix_spec p n
      have hap := wf.closed.under p hp1
      have hka := k4 z.apex hap ha
      refine ⟨p.drop (p.length - commonSuffixLen p n), ⟨?_, ?_, ?_⟩, ?_⟩
      · refine closed_up wf.closed hp1 (List.drop_suffix _ _) ?_
        refine suffix_linear hap (List.drop_suffix _ _) ?_
        simp; omega
      · rw [k3]; exact List.drop_suffix _ _
      · intro d hd hdn
        have hne : d ≠ n := fun e => hn (e ▸ hd)
        have hdlt : canonCmp d n = .lt := by
          obtain ⟨t, rfl⟩ := hdn
          refine C04_parent_first _ _ ?_
          intro e; rw [e] at hne; exact hne rfl
        have hdp := between hdn (hmax d hd hdlt) hp2
        refine suffix_linear hdp (List.drop_suffix _ _) ?_
        have := k4 d hdp hdn
        simp; omega
      · simp only [findDname, ha, hn, not_true, if_false, hp, Option.some_or]
        rw [climb_spec _ _ hap hka k1]
        rfl
  · left
    exact ⟨ha, by simp [findDname, ha]⟩

/-! ## Marks -/

theorem has_iff {z : Zone} {x : Name} {t : Nat} : has (z.node x) t = true ↔ Owns z x t := by
  simp [has, Owns, or_assoc]

theorem count_iff {z : Zone} {x : Name} : Nsecchain.count (z.node x) = 0 ↔ ∀ v, ¬ Owns z x v := by
  unfold Nsecchain.count Owns
  constructor
  · intro h v
    have h1 : (z.node x).types = [] := List.length_eq_zero_iff.mp (by omega)
    have h2 : (z.node x).sigs = [] := by
      by_cases e : (z.node x).sigs = []
      · exact e
      · rw [if_neg e] at h; omega
    have h3 : (z.node x).nsec = [] := by
      by_cases e : (z.node x).nsec = []
      · exact e
      · rw [if_neg e] at h; omega
    simp [h1, h2, h3]
  · intro h
    have h1 : (z.node x).types = [] := by
      cases e : (z.node x).types with
      | nil => rfl
      | cons t l => exact absurd (.inl (by rw [e]; simp)) (h t)
    have h2 : (z.node x).sigs = [] := by
      cases e : (z.node x).sigs with
      | nil => rfl
      | cons t l => exact absurd (.inr (.inl ⟨rfl, by rw [e]; simp⟩)) (h 46)
    have h3 : (z.node x).nsec = [] := by
      cases e : (z.node x).nsec with
      | nil => rfl
      | cons t l => exact absurd (.inr (.inr ⟨rfl, by rw [e]; simp⟩)) (h 47)
    simp [h1, h2, h3]

theorem marks_spec {z : Zone} (wf : Wf z) {x : Name} (hx : x ∈ z.names) :
    ((z.node x).nonauth = true ↔ ∃ d, Deleg z d ∧ d <:+ x ∧ d ≠ x) ∧
    ((z.node x).deleg = true ↔ Deleg z x ∧ ∀ d, Deleg z d → d <:+ x → d = x) := by
  obtain ⟨raw, hraw⟩ := wf.marks
  obtain ⟨h1, h2⟩ := C19_flags z.apex z.names raw wf.closed
  have ht : ∀ y, (z.node y).types = (raw y).types := by
    intro y; rw [hraw, h2 y]
  have hu : UnderCut z.apex raw x ↔ ∃ d, Deleg z d ∧ d <:+ x ∧ d ≠ x := by
    have hax := wf.closed.under x hx
    constructor
    · rintro ⟨k, k1, k2, k3⟩
      have hal : z.apex <:+ x.drop k := suffix_linear hax (List.drop_suffix _ _) (by simp; omega)
      refine ⟨x.drop k, ⟨closed_up wf.closed hx (List.drop_suffix _ _) hal, ?_, by rw [ht]; exact k3⟩,
        List.drop_suffix _ _, ?_⟩
      · intro e
        have := congrArg List.length e
        simp at this; omega
      · intro e
        have := congrArg List.length e
        simp at this; omega
    · rintro ⟨d, ⟨d1, d2, d3⟩, d4, d5⟩
      have hl := d4.length_le
      have hl2 : d.length ≠ x.length := fun e => d5 (d4.eq_of_length e)
      have had := wf.closed.under d d1
      have hl3 := had.length_le
      have hl4 : z.apex.length ≠ d.length := fun e => d2 (had.eq_of_length e).symm
      refine ⟨x.length - d.length, by omega, by omega, ?_⟩
      rw [← suffix_drop d4, ← ht]; exact d3
  obtain ⟨h3, h4⟩ := h1 x hx
  rw [← hraw] at h3 h4
  refine ⟨h3.trans hu, h4.trans ?_⟩
  rw [hu]
  constructor
  · rintro ⟨a, b, c⟩
    refine ⟨⟨hx, a, by rw [ht]; exact b⟩, fun d hd hdx => ?_⟩
    by_cases e : d = x
    · exact e
    · exact absurd ⟨d, hd, hdx, e⟩ c
  · rintro ⟨⟨_, a, b⟩, c⟩
    refine ⟨a, by rw [← ht]; exact b, ?_⟩
    rintro ⟨d, hd, hdx, hne⟩
    exact hne (c d hd hdx)

/-- A delegation at or above a name: there is a topmost one. -/
theorem cut_exists {z : Zone} (n : Name) : (∃ d, Deleg z d ∧ d <:+ n) → ∃ d, Cut z d n := by
  suffices H : ∀ k d, Deleg z d → d <:+ n → d.length ≤ k → ∃ d, Cut z d n by
    rintro ⟨d, h1, h2⟩
    exact H d.length d h1 h2 (Nat.le_refl _)
  intro k
  induction k with
  | zero =>
    intro d h1 h2 h3
    refine ⟨d, h1, h2, fun d' _ h' => suffix_linear h2 h' (by omega)⟩
  | succ k ih =>
    intro d h1 h2 h3
    by_cases hc : ∃ d', Deleg z d' ∧ d' <:+ n ∧ d'.length < d.length
    · obtain ⟨d', a, b, c⟩ := hc
      exact ih d' a b (by omega)
    · refine ⟨d, h1, h2, fun d' h' h'' => suffix_linear h2 h'' ?_⟩
      rcases Nat.lt_or_ge d'.length d.length with h | h
      · exact absurd ⟨d', h', h'', h⟩ hc
      · exact h

theorem cut_unique {z : Zone} {d d' n : Name} (h : Cut z d n) (h' : Cut z d' n) : d = d' := by
  have h1 := h.2.2 d' h'.1 h'.2.1
  have h2 := h'.2.2 d h.1 h.2.1
  exact h1.eq_of_length (Nat.le_antisymm h1.length_le h2.length_le)

theorem encloser_unique {z : Zone} {c c' n : Name} (h : Encloser z c n) (h' : Encloser z c' n) : c = c' := by
  have h1 := h'.2.2 c h.1 h.2.1
  have h2 := h.2.2 c' h'.1 h'.2.1
  exact h1.eq_of_length (Nat.le_antisymm h1.length_le h2.length_le)

theorem deleg_iff_cut {z : Zone} (wf : Wf z) {x : Name} (hx : x ∈ z.names) :
    (z.node x).deleg = true ↔ Cut z x x := by
  rw [(marks_spec wf hx).2]
  constructor
  · rintro ⟨a, b⟩
    exact ⟨a, List.suffix_refl _, fun d h1 h2 => by rw [b d h1 h2]; exact List.suffix_refl _⟩
  · rintro ⟨a, _, b⟩
    exact ⟨a, fun d h1 h2 => h2.eq_of_length (Nat.le_antisymm h2.length_le (b d h1 h2).length_le)⟩

/-- The cut above a node is marked, and it is the first one marked on the way up. -/
theorem cut_marked {z : Zone} (wf : Wf z) {d x : Name} (h : Cut z d x) : (z.node d).deleg = true := by
  rw [(marks_spec wf h.1.1).2]
  refine ⟨h.1, fun d' h1 h2 => ?_⟩
  have h3 := h.2.2 d' h1 (h2.trans h.2.1)
  exact h2.eq_of_length (Nat.le_antisymm h2.length_le h3.length_le)

theorem above {z : Zone} (wf : Wf z) {x d : Name} (hx : x ∈ z.names) (h : Cut z d x) :
    (z.node x).deleg = true ∧ d = x ∨ (z.node x).nonauth = true ∧ (z.node x).deleg = false ∧ d ≠ x := by
  by_cases e : d = x
  · left
    rw [deleg_iff_cut wf hx]
    exact ⟨e ▸ h, e⟩
  · right
    refine ⟨(marks_spec wf hx).1.mpr ⟨d, h.1, h.2.1, e⟩, ?_, e⟩
    cases hd : (z.node x).deleg with
    | false => rfl
    | true =>
      have := (deleg_iff_cut wf hx).mp hd
      exact absurd (cut_unique h ⟨this.1, this.2.1, this.2.2⟩) e

theorem cut_step {z : Zone} {d x : Name} {b : Dname.Label} (h : Cut z d (b :: x)) (hne : d ≠ b :: x) : Cut z d x := by
  have hs : d <:+ x := by
    rcases List.suffix_cons_iff.mp h.2.1 with e | h'
    · exact absurd e hne
    · exact h'
  exact ⟨h.1, hs, fun d' h1 h2 => h.2.2 d' h1 (h2.trans (List.suffix_cons _ _))⟩

theorem delegation_spec {z : Zone} (wf : Wf z) : ∀ {x d : Name}, x ∈ z.names → Cut z d x → delegation z x = .ok d := by
  intro x
  induction x with
  | nil =>
    intro d hx h
    rcases above wf hx h with ⟨h1, h2⟩ | ⟨_, _, h3⟩
    · simp [delegation, h1, h2]
    · have := h.2.1
      rw [List.suffix_nil] at this
      exact absurd this h3
  | cons b t ih =>
    intro d hx h
    rcases above wf hx h with ⟨h1, h2⟩ | ⟨_, h2, h3⟩
    · simp [delegation, h1, h2]
    · have hne : b :: t ≠ z.apex := by
        intro e
        have hd := wf.closed.under d h.1.1
        have := h.2.1.length_le
        rw [e] at this
        exact h.1.2.1 (hd.eq_of_length (Nat.le_antisymm hd.length_le this)).symm
      unfold delegation
      rw [if_neg (by simp [h2]), if_neg hne]
      exact ih (wf.closed.parents _ hx hne) (cut_step h h3)

theorem authEncloser_cut {z : Zone} (wf : Wf z) : ∀ {x d : Name}, x ∈ z.names → Cut z d x → authEncloser z x = .ok d := by
  have hc : ∀ {x}, Deleg z x → Nsecchain.count (z.node x) ≠ 0 := by
    intro x hx h0
    exact count_iff.mp h0 2 (.inl hx.2.2)
  intro x
  induction x with
  | nil =>
    intro d hx h
    rcases above wf hx h with ⟨h1, h2⟩ | ⟨_, _, h3⟩
    · have hn : (z.node []).nonauth = false := by
        rw [Bool.eq_false_iff]; intro hn
        obtain ⟨d', _, a, b⟩ := (marks_spec wf hx).1.mp hn
        rw [List.suffix_nil] at a; exact b a
      have := hc h.1
      rw [h2] at this
      simp [authEncloser, hn, this, h2]
    · have := h.2.1
      rw [List.suffix_nil] at this
      exact absurd this h3
  | cons b t ih =>
    intro d hx h
    rcases above wf hx h with ⟨h1, h2⟩ | ⟨h1, h2, h3⟩
    · have hn : (z.node (b :: t)).nonauth = false := by
        rw [Bool.eq_false_iff]; intro hn
        obtain ⟨d', a, a', a''⟩ := (marks_spec wf hx).1.mp hn
        exact a'' (((marks_spec wf hx).2.mp h1).2 d' a a')
      have := hc h.1
      rw [h2] at this
      unfold authEncloser
      rw [if_neg (by simp [hn, this]), h2]
    · have hne : b :: t ≠ z.apex := by
        intro e
        have hd := wf.closed.under d h.1.1
        have := h.2.1.length_le
        rw [e] at this
        exact h.1.2.1 (hd.eq_of_length (Nat.le_antisymm hd.length_le this)).symm
      unfold authEncloser
      rw [if_pos (.inr h1), if_neg hne]
      exact ih (wf.closed.parents _ hx hne) (cut_step h h3)

theorem authEncloser_none {z : Zone} (wf : Wf z) : ∀ {x : Name}, x ∈ z.names → (∀ d, ¬ Cut z d x) →
    ∃ y, authEncloser z x = .ok y ∧ (z.node y).deleg = false := by
  have hap : ∀ {x}, x = z.apex → Nsecchain.count (z.node x) ≠ 0 := by
    intro x e h0
    rw [e] at h0
    exact count_iff.mp h0 6 (.inl wf.soa)
  have hdel : ∀ {x}, x ∈ z.names → (∀ d, ¬ Cut z d x) → (z.node x).deleg = false ∧ (z.node x).nonauth = false := by
    intro x hx h
    constructor
    · rw [Bool.eq_false_iff]; intro h1
      exact h x ((deleg_iff_cut wf hx).mp h1)
    · rw [Bool.eq_false_iff]; intro h1
      obtain ⟨d, a, b, _⟩ := (marks_spec wf hx).1.mp h1
      obtain ⟨d', hd'⟩ := cut_exists x ⟨d, a, b⟩
      exact h d' hd'
  intro x
  induction x with
  | nil =>
    intro hx h
    have e : z.apex = [] := by
      have := wf.closed.under _ hx
      rwa [List.suffix_nil] at this
    have := hap e.symm
    refine ⟨[], ?_, (hdel hx h).1⟩
    simp [authEncloser, (hdel hx h).2, this]
  | cons b t ih =>
    intro hx h
    by_cases hc : Nsecchain.count (z.node (b :: t)) = 0
    · have hne : b :: t ≠ z.apex := fun e => hap e hc
      unfold authEncloser
      rw [if_pos (.inl hc), if_neg hne]
      refine ih (wf.closed.parents _ hx hne) fun d hd => ?_
      obtain ⟨d', hd'⟩ := cut_exists (b :: t) ⟨d, hd.1, hd.2.1.trans (List.suffix_cons _ _)⟩
      exact h d' hd'
    · refine ⟨b :: t, ?_, (hdel hx h).1⟩
      unfold authEncloser
      rw [if_neg (by simp [hc, (hdel hx h).2])]

end Knot.Answer
