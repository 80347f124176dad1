import Verif.Answer.Lemmas5
/-!
# Answers: the specification has exactly one answer
-/
namespace Knot.Answer
open Dname (Name)

theorem source_unique {z : Zone} {s s' n : Name} (h : Source z s n) (h' : Source z s' n) : s = s' := by
  obtain ⟨h1, h2⟩ := h
  obtain ⟨h3, h4⟩ := h'
  rcases h2 with e | ⟨a, c, b, e⟩ <;> rcases h4 with e' | ⟨a', c', b', e'⟩
  · rw [e, e']
  · exact absurd (e ▸ h1) a'
  · exact absurd (e' ▸ h3) a
  · rw [e, e', encloser_unique b b']

theorem source_apex {z : Zone} (wf : Wf z) {s n : Name} (h : Source z s n) : z.apex <:+ n := by
  obtain ⟨h1, e | ⟨_, c, b, _⟩⟩ := h
  · rw [← e]; exact wf.closed.under s h1
  · exact (wf.closed.under c b.1).trans b.2.1

theorem match_unique {z : Zone} {t u u' : Nat} {s : Name} (h : Match z t s u) (h' : Match z t s u') : u = u' := by
  unfold Match at h h'
  split at h
  · next e => rw [if_pos e] at h'; rw [h.2, h'.2]
  · next e => rw [if_neg e] at h'; rw [h.1, h'.1]

theorem auth_not_refer {z : Zone} {t : Nat} {s d : Name} (h : Auth z t s) (hc : Cut z d s) (hn : ¬ (d = s ∧ t = 43)) : False :=
  hn (h d hc.1 hc.2.1)

theorem lookup_unique {z : Zone} (wf : Wf z) {t : Nat} {n : Name} {o o' : Outcome} (h : Lookup z t n o)
    (h' : Lookup z t n o') : o = o' := by
  cases h with
  | out a =>
    cases h' with
    | out => rfl
    | referral b => exact absurd (source_apex wf b) a
    | alias b => exact absurd (source_apex wf b) a
    | data b => exact absurd (source_apex wf b) a
    | nodata b => exact absurd (source_apex wf b) a
    | below _ b => exact absurd ((wf.closed.under _ b.1.1).trans b.2.1) a
    | dname _ _ b => exact absurd ((wf.closed.under _ b.1).trans b.2.1) a
    | nxdomain _ _ b => exact absurd ((wf.closed.under _ b.1).trans b.2.1) a
  | referral a b c =>
    cases h' with
    | out x => exact absurd (source_apex wf a) x
    | referral x y _ => rw [source_unique a x] at b; rw [cut_unique b y]
    | alias x y => rw [source_unique a x] at b c; exact (auth_not_refer y b c).elim
    | data x y => rw [source_unique a x] at b c; exact (auth_not_refer y b c).elim
    | nodata x y => rw [source_unique a x] at b c; exact (auth_not_refer y b c).elim
    | below x => exact absurd a (x _)
    | dname x => exact absurd a (x _)
    | nxdomain x => exact absurd a (x _)
  | alias a b c d =>
    cases h' with
    | out x => exact absurd (source_apex wf a) x
    | referral x y w => rw [source_unique a x] at b; exact (auth_not_refer b y w).elim
    | alias x => rw [source_unique a x]
    | data x _ y => rw [source_unique a x] at c; exact absurd ⟨c, d⟩ y
    | nodata x _ y => rw [source_unique a x] at c; exact absurd ⟨c, d⟩ y
    | below x => exact absurd a (x _)
    | dname x => exact absurd a (x _)
    | nxdomain x => exact absurd a (x _)
  | data a b c d =>
    cases h' with
    | out x => exact absurd (source_apex wf a) x
    | referral x y w => rw [source_unique a x] at b; exact (auth_not_refer b y w).elim
    | alias x _ y w => rw [source_unique a x] at c; exact absurd ⟨y, w⟩ c
    | data x _ _ y => rw [source_unique a x] at d ⊢; rw [match_unique d y]
    | nodata x _ _ y => rw [source_unique a x] at d; exact absurd d (y _)
    | below x => exact absurd a (x _)
    | dname x => exact absurd a (x _)
    | nxdomain x => exact absurd a (x _)
  | nodata a b c d =>
    cases h' with
    | out x => exact absurd (source_apex wf a) x
    | referral x y w => rw [source_unique a x] at b; exact (auth_not_refer b y w).elim
    | alias x _ y w => rw [source_unique a x] at c; exact absurd ⟨y, w⟩ c
    | data x _ _ y => rw [source_unique a x] at d; exact absurd y (d _)
    | nodata => rfl
    | below x => exact absurd a (x _)
    | dname x => exact absurd a (x _)
    | nxdomain x => exact absurd a (x _)
  | below a b =>
    cases h' with
    | out x => exact absurd ((wf.closed.under _ b.1.1).trans b.2.1) x
    | referral x => exact absurd x (a _)
    | alias x => exact absurd x (a _)
    | data x => exact absurd x (a _)
    | nodata x => exact absurd x (a _)
    | below _ x => rw [cut_unique b x]
    | dname _ x => exact absurd b (x _)
    | nxdomain _ x => exact absurd b (x _)
  | dname a b c d =>
    cases h' with
    | out x => exact absurd ((wf.closed.under _ c.1).trans c.2.1) x
    | referral x => exact absurd x (a _)
    | alias x => exact absurd x (a _)
    | data x => exact absurd x (a _)
    | nodata x => exact absurd x (a _)
    | below _ x => exact absurd x (b _)
    | dname _ _ x => rw [encloser_unique c x]
    | nxdomain _ _ x y => rw [encloser_unique c x] at d; exact absurd d y
  | nxdomain a b c d =>
    cases h' with
    | out x => exact absurd ((wf.closed.under _ c.1).trans c.2.1) x
    | referral x => exact absurd x (a _)
    | alias x => exact absurd x (a _)
    | data x => exact absurd x (a _)
    | nodata x => exact absurd x (a _)
    | below _ x => exact absurd x (b _)
    | dname _ _ x y => rw [encloser_unique c x] at d; exact absurd y d
    | nxdomain => rfl

theorem lookup_total {z : Zone} (wf : Wf z) (t : Nat) (n : Name) : ∃ o, Lookup z t n o := by
  have src : ∀ s, Source z s n → ∃ o, Lookup z t n o := by
    intro s hs
    by_cases hr : ∃ d, Cut z d s ∧ ¬ (d = s ∧ t = 43)
    · obtain ⟨d, h1, h2⟩ := hr
      exact ⟨_, .referral hs h1 h2⟩
    · have ha := (auth_iff t).mp hr
      by_cases hc : Owns z s 5 ∧ ¬ Direct t
      · exact ⟨_, .alias hs ha hc.1 hc.2⟩
      · by_cases hm : ∃ u, Match z t s u
        · obtain ⟨u, hm⟩ := hm
          exact ⟨_, .data hs ha hc hm⟩
        · exact ⟨_, .nodata hs ha hc fun u h => hm ⟨u, h⟩⟩
  rcases find_spec wf n with ⟨h1, _⟩ | ⟨_, h2, _⟩ | ⟨_, h2, c, h3, _⟩
  · exact ⟨_, .out h1⟩
  · exact src n ⟨h2, .inl rfl⟩
  · by_cases hs : ∃ s, Source z s n
    · obtain ⟨s, hs⟩ := hs
      exact src s hs
    · have hs : ∀ s, ¬ Source z s n := fun s h => hs ⟨s, h⟩
      by_cases hc : ∃ d, Cut z d n
      · obtain ⟨d, hc⟩ := hc
        exact ⟨_, .below hs hc⟩
      · have hc : ∀ d, ¬ Cut z d n := fun d h => hc ⟨d, h⟩
        by_cases hd : Owns z c 39
        · exact ⟨_, .dname hs hc h3 hd⟩
        · exact ⟨_, .nxdomain hs hc h3 hd⟩

/-- A name at or below a delegation leads to a referral to the topmost one, but DS at it. -/
theorem lookup_cut {z : Zone} (_ : Wf z) {t : Nat} {n d : Name} (h : Cut z d n) (hn : ¬ (d = n ∧ t = 43)) :
    Lookup z t n (.referral d) := by
  by_cases hs : ∃ s, Source z s n
  · obtain ⟨s, hs⟩ := hs
    rcases hs.2 with e | ⟨a, c, b, e⟩
    · rw [e] at hs
      exact .referral hs h hn
    · have hcc := (cut_encloser b).mp h
      have hds : Cut z d s := by
        rw [e]
        refine ⟨hcc.1, hcc.2.1.trans (List.suffix_cons _ _), fun d' x y => ?_⟩
        rcases List.suffix_cons_iff.mp y with e' | y'
        · rw [e']; exact hcc.2.1.trans (List.suffix_cons _ _)
        · exact hcc.2.2 d' x y'
      refine .referral hs hds ?_
      rintro ⟨e', _⟩
      have := hcc.2.1.length_le
      rw [e', e] at this
      simp at this
      omega
  · exact .below (fun s h => hs ⟨s, h⟩) h

/-- A name that does not lead on has no chain. -/
theorem path_end {z : Zone} (wf : Wf z) {t : Nat} {n : Name} {o : Outcome} (h : Lookup z t n o)
    (h1 : ∀ s, o ≠ .alias s) (h2 : ∀ c, o ≠ .dname c) {ls : List Link} {m : Name} (hp : Path z t n ls m) : ls = [] ∧ n = m := by
  cases ls with
  | nil => exact ⟨rfl, hp⟩
  | cons l ls =>
    obtain ⟨e, hs, _⟩ := hp
    cases hs with
    | cname hl =>
      simp only at e
      rw [e] at hl
      exact absurd (lookup_unique wf h hl) (h1 _)
    | dname hl =>
      simp only at e
      rw [e] at hl
      exact absurd (lookup_unique wf h hl) (h2 _)

end Knot.Answer
