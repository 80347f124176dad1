import Verif.Nsecproof.Lemmas
/-!
# NSEC proofs: names around a gap
-/
namespace Knot.Nsecproof
open Dname (Name canonCmp lowerName)
open Nsecchain (Included present)
open Answer

theorem owns_included {z : Zone} {x : Name} (hn : (z.node x).nonauth = false) {u : Nat} (h : Owns z x u) : Included (z.node x) := by
  refine ⟨hn, ?_⟩
  rcases h with h | h | h
  · exact .inl (fun e => by rw [e] at h; simp at h)
  · exact .inr (.inl h.2)
  · exact .inr (.inr h.2)

theorem included_owns {z : Zone} {x : Name} (h : Included (z.node x)) : ∃ u, Owns z x u := by
  rcases h.2 with h | h | h
  · cases e : (z.node x).types with
    | nil => exact absurd e h
    | cons a l => exact ⟨a, .inl (by rw [e]; simp)⟩
  · exact ⟨46, .inr (.inl ⟨rfl, h⟩)⟩
  · exact ⟨47, .inr (.inr ⟨rfl, h⟩)⟩

theorem cut_included {z : Zone} (wf : Wf z) {d n : Name} (h : Cut z d n) : Included (z.node d) := by
  refine owns_included ?_ (.inl h.1.2.2 : Owns z d 2)
  cases e : (z.node d).nonauth with
  | false => rfl
  | true =>
    obtain ⟨d', h1, h2, h3⟩ := (marks_spec wf h.1.1).1.mp e
    have := h.2.2 d' h1 (h2.trans h.2.1)
    exact absurd (List.IsSuffix.eq_of_length h2 (Nat.le_antisymm h2.length_le this.length_le)) h3

theorem nonauth_false {z : Zone} (wf : Wf z) {x : Name} (hx : x ∈ z.names) (h : ∀ d, Deleg z d → d <:+ x → d = x) :
    (z.node x).nonauth = false := by
  cases e : (z.node x).nonauth with
  | false => rfl
  | true =>
    obtain ⟨d, h1, h2, h3⟩ := (marks_spec wf hx).1.mp e
    exact absurd (h d h1 h2) h3

/-- A delegation above is the name before. -/
theorem gap_deleg {z : Zone} (hs : Signed z) {p q m : Name} (g : Gap z p q m) {d : Name} (hd : Deleg z d) (hdm : d <:+ m) :
    Deleg z p ∧ p <:+ m := by
  obtain ⟨c, hc⟩ := cut_exists m ⟨d, hd, hdm⟩
  have hi := cut_included hs.wf hc
  have hne : c ≠ m := fun e => g.ni (e ▸ hc.1.1) (e ▸ hi)
  have hcm := lt_suffix hc.2.1 hne
  rcases g.split c hc.1.1 hi with h | ⟨_, h, _⟩
  · have hcp := between hc.2.1 h g.lt
    have : c = p := by
      by_cases e : c = p
      · exact e
      · have := (marks_spec hs.wf g.pm).1.mpr ⟨c, hc.1, hcp, e⟩
        rw [g.pi.1] at this; cases this
    exact ⟨this ▸ hc.1, this ▸ hc.2.1⟩
  · exact absurd h (lt_asymm hcm)

/-- Something in the chain at or below an authoritative name. -/
theorem included_below {z : Zone} (hs : Signed z) {x : Name} (hx : x ∈ z.names) (hn : (z.node x).nonauth = false) :
    ∃ y ∈ z.names, Included (z.node y) ∧ x <:+ y := by
  by_cases ho : ∃ u, Owns z x u
  · obtain ⟨u, hu⟩ := ho
    exact ⟨x, hx, owns_included hn hu, List.suffix_refl _⟩
  · obtain ⟨y, hy, hxy, u, hu⟩ := hs.empty x hx (fun u h => ho ⟨u, h⟩)
    cases e : (z.node y).nonauth with
    | false => exact ⟨y, hy, owns_included e hu, hxy⟩
    | true =>
      obtain ⟨d, h1, h2, h3⟩ := (marks_spec hs.wf hy).1.mp e
      obtain ⟨c, hc⟩ := cut_exists y ⟨d, h1, h2⟩
      refine ⟨c, hc.1.1, cut_included hs.wf hc, ?_⟩
      rcases Nat.le_total x.length c.length with hl | hl
      · exact suffix_linear hxy hc.2.1 hl
      · have hcx := suffix_linear hc.2.1 hxy hl
        by_cases hcx' : c = x
        · exact absurd ⟨2, .inl (hcx' ▸ hc.1.2.2)⟩ ho
        · have := (marks_spec hs.wf hx).1.mpr ⟨c, hc.1, hcx, hcx'⟩
          rw [hn] at this; cases this

/-- A name that exists at or above a name in a gap is at or above one of the neighbours. -/
theorem gap_up {z : Zone} (hs : Signed z) {p q m : Name} (g : Gap z p q m) (hd : ∀ d, Deleg z d → ¬ d <:+ m) {c : Name}
    (hc : c ∈ z.names) (hcm : c <:+ m) : c <:+ p ∨ c <:+ q := by
  have hn := nonauth_false hs.wf hc (fun d h1 h2 => absurd (h2.trans hcm) (hd d h1))
  obtain ⟨y, hy, hyi, hcy⟩ := included_below hs hc hn
  have hle : ∀ {a b : Name}, a <:+ b → a = b ∨ lt a b := fun {a b} h => by
    by_cases e : a = b
    · exact .inl e
    · exact .inr (lt_suffix h e)
  rcases g.split y hy hyi with h | ⟨h1, h2, h3⟩
  · left
    refine between hcm ?_ g.lt
    rcases hle hcy with e | e
    · rw [e]; exact h
    · rcases h with h | h
      · exact .inr (h ▸ e)
      · exact .inr (lt_trans e h)
  · right
    rcases h3 with h3 | h3
    · exact h3 ▸ hcy
    · refine between hcy ?_ h3
      rcases hle hcm with e | e
      · exact .inr (e ▸ h1)
      · exact .inr (lt_trans e h1)

/-- What two zones with the same NSEC have in common. -/
structure Common (z z' : Zone) (m : Name) : Prop where
  names : ∀ c, c <:+ m → (c ∈ z'.names ↔ c ∈ z.names)
  deleg : ∀ d, Deleg z' d → ¬ d <:+ m
  dname : ∀ c, c <:+ m → c ∈ z'.names → Owns z' c 39 → Owns z c 39
  owns : m ∈ z'.names → ∀ u, ¬ Owns z' m u

theorem common {z z' : Zone} (hs : Signed z) (hs' : Signed z') (ha : z'.apex = z.apex) {p q m : Name} (g : Gap z p q m)
    (hd : ∀ d, Deleg z d → ¬ d <:+ m) (hp : p ∈ z'.names) (hn : (z'.node p).nsec = (z.node p).nsec) : Common z z' m := by
  have g' := gap_transfer hs' ha g hp hn
  have h0 : (z.node p).nsec ≠ [] := by
    obtain ⟨x, hx, _⟩ := g.link
    rw [hx]; simp
  have hd' : ∀ d, Deleg z' d → ¬ d <:+ m := by
    intro d h1 h2
    obtain ⟨a, b⟩ := gap_deleg hs' g' h1 h2
    exact hd p ((deleg_same hs hs' ha g.pm hp h0 hn).mp a) b
  refine ⟨fun c hcm => ⟨fun hc => ?_, fun hc => ?_⟩, hd', ?_, ?_⟩
  · have hu := hs'.wf.closed.under c hc
    rw [ha] at hu
    rcases gap_up hs' g' hd' hc hcm with h | h
    · exact closed_up hs.wf.closed g.pm h hu
    · exact closed_up hs.wf.closed g.qm h hu
  · have hu := hs.wf.closed.under c hc
    rw [← ha] at hu
    rcases gap_up hs g hd hc hcm with h | h
    · exact closed_up hs'.wf.closed g'.pm h hu
    · exact closed_up hs'.wf.closed g'.qm h hu
  · intro c hcm hc ho
    have ht : 39 ∈ (z'.node c).types := by
      rcases ho with h | h | h
      · exact h
      · omega
      · omega
    have hau : Auth z' 39 c := fun d h1 h2 => absurd (h2.trans hcm) (hd' d h1)
    have hdn := hs'.dname c hc hau ht
    have hcp : c = p := by
      rcases gap_up hs' g' hd' hc hcm with h | h
      · exact (hdn p hp h).symm
      · have hqc := hdn q g'.qm h
        rcases g.q_or with h' | h'
        · rw [hqc] at h'
          by_cases e : c = m
          · exact absurd (e ▸ h') lt_irrefl
          · exact absurd h' (lt_asymm (lt_suffix hcm e))
        · have : c <:+ p := by
            rw [← hqc, h', ← ha]
            exact hs'.wf.closed.under p hp
          exact (hdn p hp this).symm
    rw [hcp] at ho ⊢
    refine (owns_same hs hs' ha g.pm hp h0 hn (fun h => ?_) 39).mp ho
    exact hd p h (hcp ▸ hcm)
  · intro hm u hu
    exact g'.ni hm (owns_included (nonauth_false hs'.wf hm (fun d h1 h2 => absurd h2 (hd' d h1))) hu)

theorem encloser_common {z z' : Zone} {m c : Name} (hc : Common z z' m) (h : Encloser z c m) : Encloser z' c m :=
  ⟨(hc.names c h.2.1).mpr h.1, h.2.1, fun d hd hdm => h.2.2 d ((hc.names d hdm).mp hd) hdm⟩

/-! ## What follows -/

/-- The wildcard that answers for a name. -/
theorem source_common {z z' : Zone} {m s : Name} (hc : Common z z' m) (h : Source z s m) (hne : s ≠ m) (hs : s ∈ z'.names) :
    Source z' s m := by
  rcases h.2 with e | ⟨hm, c, he, e⟩
  · exact absurd e hne
  · exact ⟨hs, .inr ⟨fun h' => hm ((hc.names m (List.suffix_refl _)).mp h'), c, encloser_common hc he, e⟩⟩

theorem nxdomain_common {z z' : Zone} {t : Nat} {m c : Name} (hc : Common z z' m) (hw : Common z z' ([42] :: c))
    (hsrc : ∀ s, ¬ Source z s m) (he : Encloser z c m) (ho : ¬ Owns z c 39) : Lookup z' t m .nxdomain := by
  have he' := encloser_common hc he
  refine .nxdomain (c := c) ?_ (fun d h => hc.deleg d h.1 h.2.1) he' (fun h => ho (hc.dname c he.2.1 he'.1 h))
  have hm : m ∉ z.names := fun h => hsrc m ⟨h, .inl rfl⟩
  rintro s ⟨h1, e | ⟨h2, c', h3, e⟩⟩
  · exact hm ((hc.names m (List.suffix_refl _)).mp (e ▸ h1))
  · have : c' = c := encloser_unique h3 he'
    subst this
    have := (hw.names _ (List.suffix_refl _)).mp (e ▸ h1)
    exact hsrc _ ⟨this, .inr ⟨hm, c', he, rfl⟩⟩

/-- A name without records. -/
theorem empty_common {z z' : Zone} {t : Nat} {m : Name} (hc : Common z z' m) (hm : m ∈ z.names) : Lookup z' t m .nodata := by
  have hm' := (hc.names m (List.suffix_refl _)).mpr hm
  refine .nodata (s := m) ⟨hm', .inl rfl⟩ (fun d h1 h2 => absurd h2 (hc.deleg d h1)) (fun h => hc.owns hm' 5 h.1) ?_
  intro u hu
  unfold Match at hu
  split at hu
  · obtain ⟨⟨v, hv⟩, _⟩ := hu
    exact hc.owns hm' v hv
  · exact hc.owns hm' t hu.2

/-- The NSEC of the node that answers. -/
theorem nodata_common {z z' : Zone} (hs : Signed z) (hs' : Signed z') (ha : z'.apex = z.apex) {t : Nat} {m s : Name}
    (hm : s ∈ z.names) (hm' : s ∈ z'.names) (h0 : (z.node s).nsec ≠ []) (hn : (z'.node s).nsec = (z.node s).nsec)
    (hsrc : Source z' s m) (hau : Auth z t s) (hc : ¬ (Owns z s 5 ∧ ¬ Direct t)) (ht : t ≠ 255) (hno : ¬ Owns z s t) :
    Lookup z' t m .nodata := by
  have hi' := nsec_included hs' hm' (hn ▸ h0)
  have htop : ∀ d, Deleg z' d → d <:+ s → d = s := by
    intro d h1 h2
    by_cases e : d = s
    · exact e
    · have := (marks_spec hs'.wf hm').1.mpr ⟨d, h1, h2, e⟩
      rw [hi'.1] at this; cases this
  have hau' : Auth z' t s := by
    intro d h1 h2
    have e := htop d h1 h2
    refine ⟨e, ?_⟩
    rw [e] at h1
    exact (hau s ((deleg_same hs hs' ha hm hm' h0 hn).mp h1) (List.suffix_refl _)).2
  have hown : ¬ Owns z' s t := by
    by_cases hd : Deleg z s
    · have h43 := (hau s hd (List.suffix_refl _)).2
      subst h43
      intro h
      have h : 43 ∈ (z'.node s).types := by
        rcases h with h | h | h
        · exact h
        · omega
        · omega
      rw [← present_ds, present_same hs hs' hm hm' h0 hn (by omega), present_ds] at h
      exact hno (.inl h)
    · exact fun h => hno ((owns_same hs hs' ha hm hm' h0 hn hd t).mp h)
  refine .nodata hsrc hau' ?_ ?_
  · rintro ⟨h5, hdir⟩
    by_cases hd : Deleg z s
    · have hd' := (deleg_same hs hs' ha hm hm' h0 hn).mpr hd
      have hau5 : Auth z' 43 s := fun d h1 h2 => ⟨htop d h1 h2, rfl⟩
      have h5' : 5 ∈ (z'.node s).types := by
        rcases h5 with h | h | h
        · exact h
        · omega
        · omega
      have := hs'.cname s hm' hau5 h5' 2 hd'.2.2
      omega
    · exact hc ⟨(owns_same hs hs' ha hm hm' h0 hn hd 5).mp h5, hdir⟩
  · intro u hu
    unfold Match at hu
    rw [if_neg ht] at hu
    exact hown hu.2

end Knot.Nsecproof
