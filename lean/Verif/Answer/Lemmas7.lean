import Verif.Answer.Lemmas6
/-!
# Answers: the specification has exactly one answer
-/
namespace Knot.Answer
open Dname (Name)

theorem step_lookup {z : Zone} {t : Nat} {l : Link} (h : Step z t l) :
    (l.type = 5 ∧ Lookup z t l.owner (.alias l.source)) ∨ (l.type = 39 ∧ Lookup z t l.owner (.dname l.source) ∧
      Fits (subst l.source (z.target l.source 39) l.owner)) := by
  cases h with
  | cname h => exact .inl ⟨rfl, h⟩
  | dname h f => exact .inr ⟨rfl, h, f⟩

theorem step_unique {z : Zone} (wf : Wf z) {t : Nat} {l l' : Link} (h : Step z t l) (h' : Step z t l') (e : l.owner = l'.owner) :
    l = l' := by
  cases h with
  | cname a =>
    cases h' with
    | cname b =>
      simp only at e
      rw [e] at a
      have := lookup_unique wf a b
      simp only [Outcome.alias.injEq] at this
      rw [e, this]
    | dname b =>
      simp only at e
      rw [e] at a
      cases lookup_unique wf a b
  | dname a =>
    cases h' with
    | cname b =>
      simp only at e
      rw [e] at a
      cases lookup_unique wf a b
    | dname b =>
      simp only at e
      rw [e] at a
      have := lookup_unique wf a b
      simp only [Outcome.dname.injEq] at this
      rw [e, this]

theorem path_fork {z : Zone} (wf : Wf z) {t : Nat} : ∀ {ls ls' : List Link} {n m m' : Name}, Path z t n ls m → Path z t n ls' m' →
    (ls = ls' ∧ m = m') ∨ (∃ l B, ls' = ls ++ l :: B ∧ Step z t l ∧ l.owner = m) ∨
      (∃ l B, ls = ls' ++ l :: B ∧ Step z t l ∧ l.owner = m') := by
  intro ls
  induction ls with
  | nil =>
    intro ls' n m m' h h'
    cases ls' with
    | nil => exact .inl ⟨rfl, (Eq.symm h).trans h'⟩
    | cons l B => exact .inr (.inl ⟨l, B, rfl, h'.2.1, h'.1.trans h⟩)
  | cons a ls ih =>
    intro ls' n m m' h h'
    cases ls' with
    | nil => exact .inr (.inr ⟨a, ls, rfl, h.2.1, h.1.trans h'⟩)
    | cons b ls' =>
      have e : a = b := step_unique wf h.2.1 h'.2.1 (h.1.trans h'.1.symm)
      subst e
      rcases ih h.2.2 h'.2.2 with ⟨e, e'⟩ | ⟨l, B, e, x⟩ | ⟨l, B, e, x⟩
      · exact .inl ⟨by rw [e], e'⟩
      · exact .inr (.inl ⟨l, B, by rw [e]; rfl, x⟩)
      · exact .inr (.inr ⟨l, B, by rw [e]; rfl, x⟩)

theorem step_not {z : Zone} (wf : Wf z) {t : Nat} {l : Link} {o : Outcome} (h : Step z t l) (ho : Lookup z t l.owner o)
    (h1 : ∀ s, o ≠ .alias s) (h2 : ∀ c, o ≠ .dname c) : False := by
  rcases step_lookup h with ⟨_, a⟩ | ⟨_, a, _⟩
  · exact h1 _ (lookup_unique wf ho a)
  · exact h2 _ (lookup_unique wf ho a)

/-- A chain that ends at a name does not go on from it. -/
theorem ends_stop {z : Zone} (wf : Wf z) {t : Nat} {ls B : List Link} {m : Name} {l : Link} {a σ rc au}
    (he : Ends z t ls m a σ rc au) (hs : Step z t l) (ho : l.owner = m) (hf : Fresh t (ls ++ l :: B))
    (hl : (ls ++ l :: B).length ≤ 5) : False := by
  have hag := hf.1 ls l B rfl
  subst ho
  cases he with
  | data h => exact step_not wf hs h (by simp) (by simp)
  | nodata h => exact step_not wf hs h (by simp) (by simp)
  | nxdomain h => exact step_not wf hs h (by simp) (by simp)
  | referral h => exact step_not wf hs h (by simp) (by simp)
  | out h => exact step_not wf hs h (by simp) (by simp)
  | long h hn _ =>
    rcases step_lookup hs with ⟨_, x⟩ | ⟨_, x, y⟩
    · cases lookup_unique wf h x
    · have := lookup_unique wf h x
      simp only [Outcome.dname.injEq] at this
      rw [this] at hn; exact hn y
  | limit h => simp at hl; omega
  | made h => have := hf.2 h; simp at this
  | loop h1 h2 h3 =>
    have := step_unique wf h1 hs h2
    rw [this] at h3; exact hag h3
  | wild h1 h2 h3 =>
    have := step_unique wf h1 hs h2
    rw [this] at h3; exact hag h3

/-- What is decided by the name alone. -/
theorem ends_unique {z : Zone} (wf : Wf z) {t : Nat} {ls : List Link} {m : Name} {a a' σ σ' rc rc' au au'}
    (h : Ends z t ls m a σ rc au) (h' : Ends z t ls m a' σ' rc' au') : a = a' ∧ σ = σ' ∧ rc = rc' ∧ au = au' := by
  -- ends of names that lead on
  have on : ∀ {l : Link} {o : Outcome}, Step z t l → l.owner = m → Lookup z t m o → (∀ s, o ≠ .alias s) → (∀ c, o ≠ .dname c) → False := by
    intro l o h1 h2 h3 h4 h5
    rw [← h2] at h3
    exact step_not wf h1 h3 h4 h5
  cases h with
  | data x =>
    cases h' with
    | data y => have := lookup_unique wf x y; simp only [Outcome.data.injEq] at this; simp [this]
    | nodata y => cases lookup_unique wf x y
    | nxdomain y => cases lookup_unique wf x y
    | referral y => cases lookup_unique wf x y
    | out y => cases lookup_unique wf x y
    | long y => cases lookup_unique wf x y
    | limit _ y w => obtain ⟨s, e | e⟩ := w <;> rw [e] at y <;> cases lookup_unique wf x y
    | made _ y w => exact (on y w x (by simp) (by simp)).elim
    | loop y w => exact (on y w x (by simp) (by simp)).elim
    | wild y w => exact (on y w x (by simp) (by simp)).elim
  | nodata x =>
    cases h' with
    | data y => cases lookup_unique wf x y
    | nodata y => simp
    | nxdomain y => cases lookup_unique wf x y
    | referral y => cases lookup_unique wf x y
    | out y => cases lookup_unique wf x y
    | long y => cases lookup_unique wf x y
    | limit _ y w => obtain ⟨s, e | e⟩ := w <;> rw [e] at y <;> cases lookup_unique wf x y
    | made _ y w => exact (on y w x (by simp) (by simp)).elim
    | loop y w => exact (on y w x (by simp) (by simp)).elim
    | wild y w => exact (on y w x (by simp) (by simp)).elim
  | nxdomain x =>
    cases h' with
    | data y => cases lookup_unique wf x y
    | nodata y => cases lookup_unique wf x y
    | nxdomain y => simp
    | referral y => cases lookup_unique wf x y
    | out y => cases lookup_unique wf x y
    | long y => cases lookup_unique wf x y
    | limit _ y w => obtain ⟨s, e | e⟩ := w <;> rw [e] at y <;> cases lookup_unique wf x y
    | made _ y w => exact (on y w x (by simp) (by simp)).elim
    | loop y w => exact (on y w x (by simp) (by simp)).elim
    | wild y w => exact (on y w x (by simp) (by simp)).elim
  | referral x =>
    cases h' with
    | data y => cases lookup_unique wf x y
    | nodata y => cases lookup_unique wf x y
    | nxdomain y => cases lookup_unique wf x y
    | referral y => have := lookup_unique wf x y; simp only [Outcome.referral.injEq] at this; simp [this]
    | out y => cases lookup_unique wf x y
    | long y => cases lookup_unique wf x y
    | limit _ y w => obtain ⟨s, e | e⟩ := w <;> rw [e] at y <;> cases lookup_unique wf x y
    | made _ y w => exact (on y w x (by simp) (by simp)).elim
    | loop y w => exact (on y w x (by simp) (by simp)).elim
    | wild y w => exact (on y w x (by simp) (by simp)).elim
  | out x =>
    cases h' with
    | data y => cases lookup_unique wf x y
    | nodata y => cases lookup_unique wf x y
    | nxdomain y => cases lookup_unique wf x y
    | referral y => cases lookup_unique wf x y
    | out y => simp
    | long y => cases lookup_unique wf x y
    | limit _ y w => obtain ⟨s, e | e⟩ := w <;> rw [e] at y <;> cases lookup_unique wf x y
    | made _ y w => exact (on y w x (by simp) (by simp)).elim
    | loop y w => exact (on y w x (by simp) (by simp)).elim
    | wild y w => exact (on y w x (by simp) (by simp)).elim
  | long x xf xl =>
    -- a name too long is no link
    have nostep : ∀ {l : Link}, Step z t l → l.owner = m → False := by
      intro l h1 h2
      rw [← h2] at x
      rcases step_lookup h1 with ⟨_, y⟩ | ⟨_, y, w⟩
      · cases lookup_unique wf x y
      · have := lookup_unique wf x y
        simp only [Outcome.dname.injEq] at this
        rw [this, ← h2] at xf; exact xf w
    cases h' with
    | data y => cases lookup_unique wf x y
    | nodata y => cases lookup_unique wf x y
    | nxdomain y => cases lookup_unique wf x y
    | referral y => cases lookup_unique wf x y
    | out y => cases lookup_unique wf x y
    | long y => have := lookup_unique wf x y; simp only [Outcome.dname.injEq] at this; simp [this]
    | limit y => omega
    | made _ y w => exact (nostep y w).elim
    | loop y w => exact (nostep y w).elim
    | wild y w => exact (nostep y w).elim
  | limit x y w =>
    cases h' with
    | data p => obtain ⟨s, e | e⟩ := w <;> rw [e] at y <;> cases lookup_unique wf y p
    | nodata p => obtain ⟨s, e | e⟩ := w <;> rw [e] at y <;> cases lookup_unique wf y p
    | nxdomain p => obtain ⟨s, e | e⟩ := w <;> rw [e] at y <;> cases lookup_unique wf y p
    | referral p => obtain ⟨s, e | e⟩ := w <;> rw [e] at y <;> cases lookup_unique wf y p
    | out p => obtain ⟨s, e | e⟩ := w <;> rw [e] at y <;> cases lookup_unique wf y p
    | long _ _ p => omega
    | limit => simp
    | made _ _ _ _ p => omega
    | loop _ _ _ _ p => omega
    | wild _ _ _ _ _ p => omega
  | made x1 x2 x3 x4 x5 =>
    have same : ∀ {l'}, Step z t l' → l'.owner = m → l' = _ := fun y1 y2 => step_unique wf y1 x2 (y2.trans x3.symm)
    cases h' with
    | data y => exact (on x2 x3 y (by simp) (by simp)).elim
    | nodata y => exact (on x2 x3 y (by simp) (by simp)).elim
    | nxdomain y => exact (on x2 x3 y (by simp) (by simp)).elim
    | referral y => exact (on x2 x3 y (by simp) (by simp)).elim
    | out y => exact (on x2 x3 y (by simp) (by simp)).elim
    | long y yf =>
      rw [← x3] at y yf
      rcases step_lookup x2 with ⟨_, p⟩ | ⟨_, p, w⟩
      · cases lookup_unique wf y p
      · have := lookup_unique wf y p
        simp only [Outcome.dname.injEq] at this
        rw [this] at yf; exact absurd w yf
    | limit y => omega
    | made _ y1 y2 => rw [same y1 y2]; simp
    | loop y1 y2 y3 y4 =>
      rw [same y1 y2] at y3 y4
      obtain ⟨_, _, _, p | ⟨p, _⟩⟩ := y3
      · exact absurd p y4
      · omega
    | wild y1 y2 _ _ y3 =>
      rw [same y1 y2] at y3
      rcases y3 with p | p
      · exact absurd x1 p
      · exact absurd x4 p
  | loop x1 x2 x3 x4 x5 =>
    have same : ∀ {l'}, Step z t l' → l'.owner = m → l' = _ := fun y1 y2 => step_unique wf y1 x1 (y2.trans x2.symm)
    cases h' with
    | data y => exact (on x1 x2 y (by simp) (by simp)).elim
    | nodata y => exact (on x1 x2 y (by simp) (by simp)).elim
    | nxdomain y => exact (on x1 x2 y (by simp) (by simp)).elim
    | referral y => exact (on x1 x2 y (by simp) (by simp)).elim
    | out y => exact (on x1 x2 y (by simp) (by simp)).elim
    | long y yf =>
      rw [← x2] at y yf
      rcases step_lookup x1 with ⟨_, p⟩ | ⟨_, p, w⟩
      · cases lookup_unique wf y p
      · have := lookup_unique wf y p
        simp only [Outcome.dname.injEq] at this
        rw [this] at yf; exact absurd w yf
    | limit y => omega
    | made _ y1 y2 y3 =>
      rw [same y1 y2] at y3
      obtain ⟨_, _, _, p | ⟨p, _⟩⟩ := x3
      · exact absurd p x4
      · omega
    | loop => simp
    | wild y1 y2 _ y3 => rw [same y1 y2] at y3; exact absurd y3 x4
  | wild x1 x2 x3 x4 x5 x6 =>
    have same : ∀ {l'}, Step z t l' → l'.owner = m → l' = _ := fun y1 y2 => step_unique wf y1 x1 (y2.trans x2.symm)
    cases h' with
    | data y => exact (on x1 x2 y (by simp) (by simp)).elim
    | nodata y => exact (on x1 x2 y (by simp) (by simp)).elim
    | nxdomain y => exact (on x1 x2 y (by simp) (by simp)).elim
    | referral y => exact (on x1 x2 y (by simp) (by simp)).elim
    | out y => exact (on x1 x2 y (by simp) (by simp)).elim
    | long y yf =>
      rw [← x2] at y yf
      rcases step_lookup x1 with ⟨_, p⟩ | ⟨_, p, w⟩
      · cases lookup_unique wf y p
      · have := lookup_unique wf y p
        simp only [Outcome.dname.injEq] at this
        rw [this] at yf; exact absurd w yf
    | limit y => omega
    | made y0 y1 y2 y3 =>
      rw [same y1 y2] at y3
      rcases x5 with p | p
      · exact absurd y0 p
      · exact absurd y3 p
    | loop y1 y2 _ y3 => rw [same y1 y2] at y3; exact absurd x4 y3
    | wild y1 y2 => rw [same y1 y2]; simp

theorem correct_unique {z : Zone} (wf : Wf z) {t : Nat} {n : Name} {r r' : Resp} (h : Correct z t n r) (h' : Correct z t n r') :
    r = r' := by
  obtain ⟨ls, m, a1, a2, a3, a4, a5⟩ := h
  obtain ⟨ls', m', b1, b2, b3, b4, b5⟩ := h'
  have hls : ls = ls' ∧ m = m' := by
    rcases path_fork wf a1 b1 with h | ⟨l, B, e, hs, ho⟩ | ⟨l, B, e, hs, ho⟩
    · exact h
    · rw [e] at b2 b3
      exact (ends_stop wf a4 hs ho b2 b3).elim
    · rw [e] at a2 a3
      exact (ends_stop wf b4 hs ho a2 a3).elim
  obtain ⟨e1, e2⟩ := hls
  subst e1; subst e2
  obtain ⟨c1, c2, c3, c4⟩ := ends_unique wf a4 b4
  have c5 : r.aa = r'.aa := by
    rw [c2] at a5
    have := a5.trans b5.symm
    cases hx : r.aa <;> cases hy : r'.aa <;> simp [hx, hy] at this ⊢
  cases r; cases r'
  simp only at c1 c2 c3 c4 c5
  simp [c1, c2, c3, c4, c5]

end Knot.Answer
