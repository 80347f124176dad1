import Verif.Nsecproof.Lemmas5
/-!
# NSEC proofs: another zone with the records
-/
namespace Knot.Nsecproof
open Dname (Name canonCmp lowerName)
open Nsecchain (Included present lastIn noNsec)
open Answer

theorem agree_there {z z' : Zone} {r : Resp} {p : Denial} (ag : Agrees z z' r p) {x : Name} (h : There r.answer p.nsec x) :
    x ∈ z'.names ∧ (z'.node x).nsec = (z.node x).nsec := by
  rcases h with h | ⟨o, h⟩
  · exact ag.nsec x h
  · obtain ⟨a, _, _, _, b⟩ := ag.answer o x 47 h
    exact ⟨a, b rfl⟩

/-- No delegation above a name that a wildcard with authoritative data answers for. -/
theorem wild_deleg {z : Zone} {t : Nat} {s m : Name} (h : Source z s m) (hne : s ≠ m) (ha : Auth z t s) :
    ∀ d, Deleg z d → ¬ d <:+ m := by
  intro d hd hdm
  rcases h.2 with e | ⟨hm, c, he, e⟩
  · exact hne e
  · have hdc := he.2.2 d hd.1 hdm
    have hds : d <:+ s := by rw [e]; exact hdc.trans (List.suffix_cons _ _)
    obtain ⟨e', _⟩ := ha d hd hds
    have := hdc.length_le
    rw [e', e] at this
    simp at this
    omega

theorem source_move {z z' : Zone} {t : Nat} {s m : Name} (hs : Signed z) (hs' : Signed z') {r : Resp} {p : Denial}
    (ag : Agrees z z' r p) (h : Source z s m) (ha : Auth z t s) (hm' : s ∈ z'.names)
    (hw : s ≠ m → ∃ p0 q0, Gap z p0 q0 m ∧ There r.answer p.nsec p0) : Source z' s m := by
  by_cases hne : s = m
  · exact ⟨hm', .inl hne⟩
  · obtain ⟨p0, q0, g, ht⟩ := hw hne
    obtain ⟨b1, b2⟩ := agree_there ag ht
    exact source_common (common hs hs' ag.apex g (wild_deleg h hne ha) b1 b2) h hne hm'

theorem auth_any {z : Zone} {t u : Nat} {s : Name} (h : Auth z t s) (ht : t ≠ 43) : Auth z u s :=
  fun d h1 h2 => absurd (h d h1 h2).2 ht

theorem step_move {z z' : Zone} {t : Nat} (hs : Signed z) (hs' : Signed z') {r : Resp} {p : Denial} (ag : Agrees z z' r p)
    {l : Link} (h : Step z t l) (hr : ∃ o, .rr o l.source l.type ∈ r.answer)
    (hw : l.type = 5 → l.source ≠ l.owner → ∃ p0 q0, Gap z p0 q0 l.owner ∧ There r.answer p.nsec p0) : Step z' t l := by
  obtain ⟨o, hr⟩ := hr
  cases h with
  | cname h =>
    rename_i n s
    cases h with
    | alias h1 h2 h3 h4 =>
      obtain ⟨a1, a2, a3, a4, _⟩ := ag.answer _ _ _ hr
      simp only at a1 a2 a3 a4
      rw [← a4]
      exact .cname (.alias (source_move hs hs' ag h1 h2 a1 (hw rfl)) (auth_any a3 (by omega)) a2 h4)
  | dname h hf =>
    rename_i n c
    obtain ⟨a1, a2, a3, a4, _⟩ := ag.answer _ _ _ hr
    simp only at a1 a2 a3 a4
    rw [← a4] at hf ⊢
    refine .dname ?_ hf
    cases h with
    | dname h1 h2 h3 h4 =>
      have ht : 39 ∈ (z'.node c).types := by
        rcases a2 with h | h | h
        · exact h
        · omega
        · omega
      have hdn := hs'.dname c a1 a3 ht
      have hne : n ≠ c := fun e => h1 n ⟨e ▸ h3.1, .inl rfl⟩
      have hn' : n ∉ z'.names := fun h => hne (hdn n h h3.2.1)
      have he' : Encloser z' c n := by
        refine ⟨a1, h3.2.1, fun d hd hdn' => ?_⟩
        rcases Nat.le_total d.length c.length with hl | hl
        · exact suffix_linear hdn' h3.2.1 hl
        · have := hdn d hd (suffix_linear h3.2.1 hdn' hl)
          rw [this]; exact List.suffix_refl _
      refine .dname ?_ ?_ he' a2
      · rintro s ⟨b1, e | ⟨_, c', b3, e⟩⟩
        · exact hn' (e ▸ b1)
        · have hc : c' = c := encloser_unique b3 he'
          rw [hc] at e
          have := hdn s b1 (by rw [e]; exact List.suffix_cons _ _)
          rw [e] at this
          have := congrArg List.length this
          simp at this
      · rintro d ⟨b1, b2, _⟩
        have := a3 d b1 (he'.2.2 d b1.1 b2)
        omega

theorem ends_records {z : Zone} {t : Nat} {ls : List Link} {m : Name} {a : List Rec} {σ : State} {rc : Nat}
    {au : Option (Name × Nat)} (h : Ends z t ls m a σ rc au) : ∀ x ∈ records ls, x ∈ a := by
  intro x hx
  cases h with
  | data => simp [hx]
  | nodata => exact hx
  | nxdomain => exact hx
  | referral => exact hx
  | out => exact hx
  | long => split <;> simp [hx]
  | limit => exact hx
  | made => exact mem_extend.mpr (.inl hx)
  | loop => exact hx
  | wild => exact mem_extend.mpr (.inl hx)

theorem link_record {ls : List Link} {l : Link} (h : l ∈ ls) (ht : l.type = 5 ∨ l.type = 39) :
    ∃ o, .rr o l.source l.type ∈ records ls := by
  rcases ht with ht | ht
  · exact ⟨l.owner, mem_records.mpr ⟨l, h, by rw [ht]; simp⟩⟩
  · exact ⟨l.source, mem_records.mpr ⟨l, h, by rw [ht]; simp⟩⟩

theorem path_move {z z' : Zone} {t : Nat} : ∀ {ls : List Link} {n m : Name}, (∀ l ∈ ls, Step z t l → Step z' t l) →
    Path z t n ls m → Path z' t n ls m := by
  intro ls
  induction ls with
  | nil => intro n m _ h; exact h
  | cons l ls ih =>
    intro n m h hp
    exact ⟨hp.1, h l (by simp) hp.2.1, ih (fun x hx => h x (by simp [hx])) hp.2.2⟩

theorem path_steps {z : Zone} {t : Nat} : ∀ {ls : List Link} {n m : Name}, Path z t n ls m → ∀ l ∈ ls, Step z t l ∧
    ∃ ls', Path z t n ls' l.owner := by
  intro ls
  induction ls with
  | nil => intro n m _ l h; simp at h
  | cons a ls ih =>
    intro n m hp l hl
    rcases List.mem_cons.mp hl with e | hl
    · subst e
      exact ⟨hp.2.1, [], hp.1.symm⟩
    · obtain ⟨h1, ls', h2⟩ := ih hp.2.2 l hl
      exact ⟨h1, a :: ls', hp.1, hp.2.1, h2⟩

end Knot.Nsecproof
