import Verif.Adjust.Spec
/-! # Lemmas for C54: names and flags -/
namespace Knot.Adjust

/-! ## Names -/

theorem name_irrefl (a : Name) : ¬ a < a := List.lt_irrefl a

theorem name_trans {a b c : Name} (h1 : a < b) (h2 : b < c) : a < c := List.lt_trans h1 h2

theorem name_asymm {a b : Name} (h : a < b) : ¬ b < a := fun h2 => name_irrefl a (name_trans h h2)

theorem name_tri (a b : Name) : a < b ∨ a = b ∨ b < a := by
  rcases List.le_total a b with h | h
  · by_cases h2 : a < b
    · exact .inl h2
    · exact .inr (.inl (List.le_antisymm h (List.not_lt.mp h2)))
  · by_cases h2 : b < a
    · exact .inr (.inr h2)
    · exact .inr (.inl (List.le_antisymm (List.not_lt.mp h2) h))

theorem prefix_lt {m n : Name} (h : m <+: n) (hne : m ≠ n) : m < n := by
  induction m generalizing n with
  | nil =>
    cases n with
    | nil => exact absurd rfl hne
    | cons b n => exact List.nil_lt_cons b n
  | cons a m ih =>
    cases n with
    | nil => simp at h
    | cons b n =>
      rw [List.cons_prefix_cons] at h
      rw [List.cons_lt_cons_iff]
      right
      refine ⟨h.1, ih h.2 ?_⟩
      intro he
      apply hne
      rw [h.1, he]

theorem dropLast_ne {n : Name} (h : n ≠ []) : n.dropLast ≠ n := by
  intro he
  have := congrArg List.length he
  rw [List.length_dropLast] at this
  cases n with
  | nil => exact h rfl
  | cons a l => simp at this

theorem prefix_dropLast {m n : Name} (h : m <+: n) (hne : m ≠ n) : m <+: n.dropLast := by
  obtain ⟨t, rfl⟩ := h
  rcases List.eq_nil_or_concat t with ht | ⟨t', a, ht⟩
  · subst ht; simp at hne
  · subst ht
    rw [List.concat_eq_append, ← List.append_assoc, List.dropLast_concat]
    exact List.prefix_append _ _

/-! ## Setting of a flag up to the apex -/

theorem put_same {α : Type} (f : Name → α) (n : Name) (a : α) : put f n a n = a := by
  unfold put; rw [if_pos rfl]

theorem put_other {α : Type} {f : Name → α} {n m : Name} {a : α} (h : m ≠ n) : put f n a m = f m := by
  unfold put; rw [if_neg h]

/-- A flag that is set at a name is set at its ancestors, along the ancestors of `n` with at most `k`
labels. -/
def Up (get : Fl → Bool) (fl : Name → Fl) (n : Name) (k : Nat) : Prop :=
  ∀ i, i < k → get (fl (n.take (i + 1))) = true → get (fl (n.take i)) = true

theorem setUp_spec {get : Fl → Bool} {set : Fl → Fl} (hset : ∀ f, get (set f) = true) (n : Name) :
    ∀ k fl, k ≤ n.length → Up get fl n k →
      ∀ m, setUp get set n k fl m =
        if m <+: n ∧ m.length ≤ k ∧ get (fl m) = false then set (fl m) else fl m := by
  intro k
  induction k with
  | zero =>
    intro fl _ _ m
    unfold setUp
    by_cases hg : get (fl (n.take 0)) = true
    · rw [if_pos hg]
      split
      · rename_i h
        have : m = [] := List.length_eq_zero_iff.mp (by omega)
        subst this
        rw [List.take_zero] at hg
        rw [hg] at h; simp at h
      · rfl
    · rw [if_neg hg]
      dsimp only
      simp only [List.take_zero] at hg ⊢
      by_cases hm : m = []
      · subst hm
        rw [put_same, if_pos ⟨List.nil_prefix, by simp, by simpa using hg⟩]
      · rw [put_other hm, if_neg]
        rintro ⟨_, h, _⟩
        exact hm (List.length_eq_zero_iff.mp (by omega))
  | succ k ih =>
    intro fl hk hup m
    have hlen : (n.take (k + 1)).length = k + 1 := by rw [List.length_take]; omega
    have hpre : ∀ m : Name, m <+: n → m.length = k + 1 → m = n.take (k + 1) := by
      intro m hm hl
      have := List.prefix_iff_eq_take.mp hm
      rw [hl] at this; exact this
    unfold setUp
    by_cases hg : get (fl (n.take (k + 1))) = true
    · rw [if_pos hg]
      split
      · rename_i h
        exfalso
        have hall : ∀ i, i ≤ k + 1 → get (fl (n.take (k + 1 - i))) = true := by
          intro i
          induction i with
          | zero => intro _; exact hg
          | succ i ih2 =>
            intro hi
            have h1 := ih2 (by omega)
            have h2 := hup (k + 1 - (i + 1)) (by omega)
            rw [show k + 1 - (i + 1) + 1 = k + 1 - i from by omega] at h2
            exact h2 h1
        have := hall (k + 1 - m.length) (by omega)
        rw [show k + 1 - (k + 1 - m.length) = m.length from by omega,
          ← List.prefix_iff_eq_take.mp h.1] at this
        rw [this] at h; simp at h
      · rfl
    · rw [if_neg hg]
      dsimp only
      have hother : ∀ i, i ≤ k → n.take i ≠ n.take (k + 1) := by
        intro i hi he
        have := congrArg List.length he
        rw [hlen, List.length_take] at this
        omega
      rw [ih _ (by omega)]
      · by_cases hm : m = n.take (k + 1)
        · subst hm
          rw [put_same, if_neg (by rw [hlen]; omega),
            if_pos ⟨List.take_prefix _ _, by omega, by simpa using hg⟩]
        · rw [put_other hm]
          by_cases hc : m <+: n ∧ m.length ≤ k ∧ get (fl m) = false
          · rw [if_pos hc, if_pos ⟨hc.1, by omega, hc.2.2⟩]
          · rw [if_neg hc, if_neg]
            rintro ⟨h1, h2, h3⟩
            apply hc
            refine ⟨h1, ?_, h3⟩
            have : m.length ≠ k + 1 := fun h => hm (hpre m h1 h)
            omega
      · intro i hi h
        rw [put_other (hother _ (by omega))] at h ⊢
        exact hup i (by omega) h

/-! ## The types of a node -/

theorem hasType_iff (nd : Node) (t : Nat) : hasType nd t = true ↔ ∃ r ∈ nd.rrs, r.type = t := by
  unfold hasType
  rw [List.any_eq_true]
  simp

theorem nonDnssec_iff (nd : Node) :
    nonDnssec nd = true ↔ ∃ r ∈ nd.rrs, r.type ≠ 47 ∧ r.type ≠ 50 ∧ r.type ≠ 46 := by
  unfold nonDnssec
  rw [List.any_eq_true]
  simp [tNSEC, tNSEC3, tRRSIG, and_assoc]

theorem sorted_inj {z : Zone} (h : z.Pairwise (fun a b => a.name < b.name)) {a b : Node} (ha : a ∈ z)
    (hb : b ∈ z) (he : a.name = b.name) : a = b := by
  induction z with
  | nil => cases ha
  | cons c z ih =>
    rw [List.pairwise_cons] at h
    rcases List.mem_cons.mp ha with ha | ha <;> rcases List.mem_cons.mp hb with hb | hb
    · rw [ha, hb]
    · have := h.1 b hb; rw [← ha, he] at this; exact absurd this (name_irrefl _)
    · have := h.1 a ha; rw [← hb, he] at this; exact absurd this (name_irrefl _)
    · exact ih h.2 ha hb

theorem has_iff {z : Zone} (h : z.Pairwise (fun a b => a.name < b.name)) {nd : Node} (hn : nd ∈ z) (t : Nat) :
    Has z nd.name t ↔ hasType nd t = true := by
  rw [hasType_iff]
  constructor
  · rintro ⟨nd', h1, h2, h3⟩
    rw [sorted_inj h h1 hn h2] at h3; exact h3
  · intro h3; exact ⟨nd, hn, rfl, h3⟩

theorem data_iff {z : Zone} (h : z.Pairwise (fun a b => a.name < b.name)) {nd : Node} (hn : nd ∈ z) :
    Data z nd.name ↔ nonDnssec nd = true := by
  rw [nonDnssec_iff]
  constructor
  · rintro ⟨t, h1, h2⟩
    rw [has_iff h hn, hasType_iff] at h1
    obtain ⟨r, hr, ht⟩ := h1
    exact ⟨r, hr, by rw [ht]; exact h2⟩
  · rintro ⟨r, hr, h2⟩
    exact ⟨r.type, (has_iff h hn _).mpr ((hasType_iff _ _).mpr ⟨r, hr, rfl⟩), h2⟩

theorem cut_iff {z : Zone} (h : z.Pairwise (fun a b => a.name < b.name)) {nd : Node} (hn : nd ∈ z) :
    Cut z nd.name ↔ (hasType nd tNS && decide (nd.name ≠ [])) = true := by
  unfold Cut
  rw [has_iff h hn, Bool.and_eq_true, decide_eq_true_iff]
  exact and_comm

/-- A node is below a delegation iff its parent is, or is one. -/
theorem below_iff {z : Zone} {n : Name} (hn : n ≠ []) :
    Below z n ↔ Below z n.dropLast ∨ Cut z n.dropLast := by
  constructor
  · rintro ⟨m, h1, h2, h3⟩
    by_cases he : m = n.dropLast
    · right; rw [← he]; exact h1
    · left; exact ⟨m, h1, prefix_dropLast h2 h3, he⟩
  · rintro (⟨m, h1, h2, h3⟩ | h)
    · refine ⟨m, h1, h2.trans (List.dropLast_prefix n), ?_⟩
      intro he
      have h4 := congrArg List.length he
      have h5 := h2.length_le
      rw [List.length_dropLast] at h5
      have : n.length ≠ 0 := fun h => hn (List.length_eq_zero_iff.mp h)
      omega
    · exact ⟨_, h, List.dropLast_prefix n, dropLast_ne hn⟩

theorem not_below_apex (z : Zone) : ¬ Below z [] := by
  rintro ⟨m, _, h2, h3⟩
  exact h3 (List.prefix_nil.mp h2)

end Knot.Adjust
