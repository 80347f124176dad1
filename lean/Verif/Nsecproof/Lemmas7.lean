import Verif.Nsecproof.Lemmas6
/-!
# NSEC proofs: what the response has, what it says
-/
namespace Knot.Nsecproof
open Dname (Name canonCmp lowerName)
open Nsecchain (Included present lastIn noNsec)
open Answer

/-- A name that fits on the wire. -/
def Wire (n : Name) : Prop := (∀ l ∈ n, 1 ≤ l.length) ∧ size n ≤ 255

/-- The records that prove how the search ended. -/
structure Known (z : Zone) (t : Nat) (m : Name) (σ : State) (ans : List Rec) (p : Denial) : Prop where
  miss : σ = .miss → ∀ c, Encloser z c m → ∃ p0 q0 p1 q1, Gap z p0 q0 m ∧ There ans p.nsec p0 ∧
    Gap z p1 q1 ([42] :: c) ∧ There ans p.nsec p1
  full : σ = .nodata → ∀ s u, Source z s m → Owns z s u → There ans p.nsec s
  empty : σ = .nodata → ∀ s, Source z s m → (∀ u, ¬ Owns z s u) → ∃ p0 q0, Gap z p0 q0 m ∧ There ans p.nsec p0
  deleg : σ = .deleg → ∀ d, Lookup z t m (.referral d) → (43 ∈ (z.node d).types → p.ds = some d) ∧
    (43 ∉ (z.node d).types → p.ds = none ∧ There ans p.nsec d)

theorem referral_deleg {z : Zone} {t : Nat} {m d : Name} (h : Lookup z t m (.referral d)) : ∃ n, Cut z d n := by
  cases h with
  | referral _ h _ => exact ⟨_, h⟩
  | below _ h => exact ⟨_, h⟩

theorem ends_cases {z : Zone} {t : Nat} {ls : List Link} {m : Name} {ans : List Rec} {σ : State} {rc : Nat}
    {au : Option (Name × Nat)} (h : Ends z t ls m ans σ rc au) : σ ≠ .follow ∧
    (σ = .miss → Lookup z t m .nxdomain) ∧
    (σ = .nodata → Lookup z t m .nodata) ∧
    (σ = .deleg → ∃ d, au = some (d, 2) ∧ Lookup z t m (.referral d)) := by
  cases h with
  | nxdomain h => exact ⟨by simp, fun _ => h, by simp, by simp⟩
  | nodata h => exact ⟨by simp, by simp, fun _ => h, by simp⟩
  | referral h => exact ⟨by simp, by simp, by simp, fun _ => ⟨_, rfl, h⟩⟩
  | _ => exact ⟨by simp, by simp, by simp, by simp⟩

theorem prove_spec {z : Zone} (hs : Signed z) {q : Req} {n : Name} {ls : List Link} {m : Name} {st : St} {σ : State}
    (hm : σ ≠ .hit → Wire m) (f : Fin z q n ls m st σ) (hnf : σ ≠ .follow) :
    ∃ p, prove z (st, σ) = .ok p ∧ Known z q.type m σ st.answer p := by
  have hname := f.name hnf
  rcases f.spec with ⟨a, _⟩ | ⟨a, b⟩ | ⟨a, b⟩ | ⟨a, b⟩ | ⟨a, x, d, b1, b2, b3⟩
  · exact absurd a hnf
  · subst a
    exact ⟨_, rfl, by simp, by simp, by simp, by simp⟩
  · subst a
    obtain ⟨hm1, hm2⟩ := hm (by simp)
    obtain ⟨c, h1, h3⟩ : ∃ c, (∀ s, ¬ Source z s m) ∧ Encloser z c m := by
      cases (ends_cases b).2.1 rfl with
      | nxdomain h1 h2 h3 h4 => exact ⟨_, h1, h3⟩
    have hmn : m ∉ z.names := fun h => h1 m ⟨h, .inl rfl⟩
    obtain ⟨l, p0, q0, p1, q1, k1, k2, k3, k4, k5⟩ := nxdomain_spec hs st.answer hmn h3
      (fun h => h1 _ ⟨h, .inr ⟨hmn, c, h3, rfl⟩⟩) hm2 hm1
    refine ⟨⟨l, none⟩, ?_, fun _ c' hc' => ?_, by simp, by simp, by simp⟩
    · unfold prove
      simp only [hname, k1, Res.bind_ok]
    · rw [encloser_unique hc' h3]
      exact ⟨p0, q0, p1, q1, k2, k3, k4, k5⟩
  · subst a
    obtain ⟨s, e1, e2⟩ := f.node rfl
    have hl : Lookup z q.type m .nodata := (ends_cases b).2.2.1 rfl
    have ha : Auth z q.type s := by
      cases hl with
      | nodata h1 h2 h3 h4 => rw [source_unique e2 h1]; exact h2
    have hna := auth_nonauth hs.wf e2.1 ha
    by_cases ho : ∃ u, Owns z s u
    · obtain ⟨u, hu⟩ := ho
      obtain ⟨l, k1, k2⟩ := nodata_full hs st.answer (n := m) e2.1 (owns_included hna hu)
      refine ⟨⟨l, none⟩, ?_, by simp, fun _ s' u' h1 _ => ?_, fun _ s' h1 h2 => ?_, by simp⟩
      · unfold prove
        simp only [hname, e1, k1, Res.bind_ok]
      · rw [source_unique h1 e2]; exact k2
      · rw [source_unique h1 e2] at h2; exact absurd hu (h2 u)
    · have hni : m ∈ z.names → ¬ Included (z.node m) := by
        intro hmn hi
        have : s = m := source_unique e2 ⟨hmn, .inl rfl⟩
        exact ho (this ▸ included_owns hi)
      obtain ⟨l, p0, q0, k1, k2, k3⟩ := nodata_empty hs st.answer (x := s) (source_apex hs.wf e2) hni (fun u h => ho ⟨u, h⟩)
      refine ⟨⟨l, none⟩, ?_, by simp, fun _ s' u' h1 h2 => ?_, fun _ s' h1 h2 => ⟨p0, q0, k2, k3⟩, by simp⟩
      · unfold prove
        simp only [hname, e1, k1, Res.bind_ok]
      · rw [source_unique h1 e2] at h2; exact absurd ⟨u', h2⟩ ho
  · subst a
    have hl : Lookup z q.type m (.referral d) := by
      obtain ⟨d', e, h⟩ := (ends_cases b3).2.2.2 rfl
      cases e
      exact h
    obtain ⟨n0, hc⟩ := referral_deleg hl
    have hi := cut_included hs.wf hc
    by_cases h43 : 43 ∈ (z.node d).types
    · refine ⟨⟨[], some d⟩, ?_, by simp, by simp, by simp, fun _ d' hd' => ?_⟩
      · unfold prove
        simp only [b1, b2, Res.bind_ok, dpSecurity, if_pos h43]
      · have : d = d' := by simpa using lookup_unique hs.wf hl hd'
        rw [← this]
        simp [h43]
    · obtain ⟨l, k1, k2⟩ := nodata_full hs st.answer (n := st.name) hc.1.1 hi
      refine ⟨⟨l, none⟩, ?_, by simp, by simp, by simp, fun _ d' hd' => ?_⟩
      · unfold prove
        simp only [b1, b2, Res.bind_ok, dpSecurity, if_neg h43, k1]
      · have : d = d' := by simpa using lookup_unique hs.wf hl hd'
        rw [← this]
        simp [h43, k2]

/-- Everything about a search. -/
structure Whole (z : Zone) (q : Req) (n : Name) (ls : List Link) (m : Name) (st : St) (r : Resp) (p : Denial) : Prop where
  den : denial z q n = .ok p
  ans : answer z q n = .ok r
  path : Path z q.type n ls m
  fresh : Fresh q.type ls
  len : ls.length ≤ 5
  fin : Fin z q n ls m st r.state
  same : r.answer = st.answer
  ends : Ends z q.type ls m r.answer r.state r.rcode r.authority
  aa : r.aa = false ↔ ls = [] ∧ r.state = .deleg
  known : Known z q.type m r.state r.answer p
  wilds : ∀ w x, (w, x) ∈ st.wild → ¬ Wild x → Wild w → ∃ p0 q0, Gap z p0 q0 x ∧ There r.answer p.nsec p0

theorem whole {z : Zone} (hs : Signed z) {q : Req} (hu : Unlimited q) {n : Name} (hn : z.apex <:+ n)
    (hreg : Regular z q.type n) (hwire : ∀ ls m, Path z q.type n ls m → Wire m) :
    ∃ ls m st r p, Whole z q n ls m st r p := by
  obtain ⟨ls, m, st, σ, r, _, h1, h2, h3, h4, h5, h6, h7, h8, h9, h10⟩ :=
    solve_fin hs.wf hu hn (fun ls m h => (hreg ls m h).2) (fun ls m h => (hreg ls m h).1)
  have hnf : σ ≠ .follow :=
    h8 ▸ (ends_cases h9).1
  obtain ⟨p, k1, k2⟩ := prove_spec hs (fun _ => hwire ls m h3) h6 hnf
  obtain ⟨l, w1, w2, w3⟩ := wildcards_spec hs st.answer st.wild p.nsec (fun w x hw => by
    obtain ⟨a, b, _⟩ := h6.trail.items (w, x) hw
    refine ⟨a, fun c d e => ?_⟩
    have : w = x := b e
    exact absurd (this ▸ d) c)
  refine ⟨ls, m, st, r, ⟨l, p.ds⟩, ?_, h2, h3, h4, h5, h8 ▸ h6, h7, h9, h10, ?_, ?_⟩
  · rw [h1, k1]
    simp only [Res.bind_ok, w1]
  · rw [h8, h7]
    refine ⟨fun a c hc => ?_, fun a s u b c => (k2.full a s u b c).mono w2, fun a s b c => ?_, fun a d hd => ?_⟩
    · obtain ⟨p0, q0, p1, q1, x1, x2, x3, x4⟩ := k2.miss a c hc
      exact ⟨p0, q0, p1, q1, x1, x2.mono w2, x3, x4.mono w2⟩
    · obtain ⟨p0, q0, x1, x2⟩ := k2.empty a s b c
      exact ⟨p0, q0, x1, x2.mono w2⟩
    · obtain ⟨x1, x2⟩ := k2.deleg a d hd
      exact ⟨x1, fun h => ⟨(x2 h).1, (x2 h).2.mono w2⟩⟩
  · rw [h7]; exact w3

theorem extend_record {acc : List Rec} {l : Link} (ht : l.type = 5 ∨ l.type = 39) :
    ∃ o, .rr o l.source l.type ∈ extend acc l := by
  unfold extend
  rcases ht with ht | ht
  · rw [if_neg (by omega), ht]; exact ⟨l.owner, by simp⟩
  · rw [if_pos ht, ht]
    refine ⟨l.source, ?_⟩
    split <;> simp [*]

theorem lookup_cut' {z : Zone} (hs : Signed z) {t : Nat} {d m : Name} (hd : Deleg z d) (hna : (z.node d).nonauth = false)
    (hdm : d <:+ m) (hn : ¬ (d = m ∧ t = 43)) : Lookup z t m (.referral d) := by
  refine lookup_cut hs.wf ⟨hd, hdm, fun d' h1 h2 => ?_⟩ hn
  rcases Nat.le_total d.length d'.length with hl | hl
  · exact suffix_linear hdm h2 hl
  · have h3 := suffix_linear h2 hdm hl
    by_cases e : d' = d
    · rw [e]; exact List.suffix_refl _
    · have := (marks_spec hs.wf hd.1).1.mpr ⟨d', h1, h3, e⟩
      rw [hna] at this; cases this

theorem says {z z' : Zone} (hs : Signed z) (hs' : Signed z') {q : Req} {n : Name} (ht : q.type ≠ 255)
    (hreg : Regular z q.type n) (hpl : Plain z q.type n) {ls : List Link} {m : Name} {st : St} {r : Resp}
    {p : Denial} (w : Whole z q n ls m st r p) (hnd : ∀ l ∈ ls, l.type = 39 → ¬ Wild l.source) (ag : Agrees z z' r p) :
    Path z' q.type n ls m ∧ (Ends z' q.type ls m r.answer r.state r.rcode r.authority ∨
      ls.length = 5 ∧ r.answer = records ls ∧ r.state = .hit) := by
  have hgap : ∀ s x, (s, x) ∈ st.wild → Source z s x → s ≠ x → (∃ ls', Path z q.type n ls' x) →
      ∃ p0 q0, Gap z p0 q0 x ∧ There r.answer p.nsec p0 := by
    intro s x h1 h2 h3 ⟨ls', h4⟩
    exact w.wilds s x h1 (hpl ls' x s h4 h2 h3).1 (source_wild h2 h3)
  have hsteps := path_steps w.path
  have halias : ∀ {l : Link}, Step z q.type l → l.type = 5 → Source z l.source l.owner := by
    intro l h h5
    cases h with
    | cname h => cases h with | alias h1 => exact h1
    | dname => simp at h5
  have htype : ∀ {l : Link}, Step z q.type l → l.type = 5 ∨ l.type = 39 := fun h => by cases h <;> simp
  have hpath : Path z' q.type n ls m := by
    refine path_move (z := z) (fun l hl h => ?_) w.path
    refine step_move hs hs' ag h ?_ (fun h5 hne => ?_)
    · obtain ⟨o, ho⟩ := link_record hl (htype h)
      exact ⟨o, ends_records w.ends _ ho⟩
    · have hsrc := halias h h5
      exact hgap _ _ (w.fin.trail.seen l hl h5 (source_wild hsrc hne)) hsrc hne (hsteps l hl).2
  have hlast : ∀ {s}, Source z s m → Auth z q.type s ∨ (z.node s).nonauth = false → ¬ Alias z q.type s → s ≠ m →
      ∃ p0 q0, Gap z p0 q0 m ∧ There r.answer p.nsec p0 := by
    intro s h1 h2 h3 h4
    have hna : (z.node s).nonauth = false := h2.elim (auth_nonauth hs.wf h1.1) id
    rcases w.fin.last s h1 h4 hna with h | ⟨l, hl, hls⟩
    · exact hgap s m h h1 h4 ⟨ls, w.path⟩
    · exfalso
      have hst := (hsteps l hl).1
      cases hst with
      | cname h =>
        simp only at hls
        cases h with
        | alias a1 a2 a3 a4 => exact h3 ⟨hls ▸ a3, a4⟩
      | dname h =>
        cases h with
        | dname a1 a2 a3 a4 => exact hnd _ hl rfl (hls ▸ source_wild h1 h4)
  have hmove : ∀ {l : Link}, Step z q.type l → l.owner = m → ls.length < 5 → (∃ o, .rr o l.source l.type ∈ r.answer) →
      Step z' q.type l := by
    intro l h ho hlen hr
    refine step_move hs hs' ag h hr (fun h5 hne => ?_)
    have hsrc := halias h h5
    have hal : Lookup z q.type m (.alias l.source) := by
      cases h with
      | cname h => simp only at ho; exact ho ▸ h
      | dname => simp at h5
    refine hgap _ _ ?_ hsrc hne ⟨ls, by rw [ho]; exact w.path⟩
    rw [ho]
    exact w.fin.alias _ hal (source_wild hsrc hne) hlen
  refine ⟨hpath, ?_⟩
  have hcorrect : Ends z' q.type ls m r.answer r.state r.rcode r.authority →
      Ends z' q.type ls m r.answer r.state r.rcode r.authority ∨ ls.length = 5 ∧ r.answer = records ls ∧ r.state = .hit := .inl
  have hk := w.known
  have he := w.ends
  have hag := ag.answer
  obtain ⟨rs, raa, rrc, ra, rau⟩ := r
  simp only at he hk hag hcorrect hlast hmove
  cases he with
  | data h =>
    rename_i s u
    refine hcorrect (.data ?_)
    cases h with
    | data h1 h2 h3 h4 =>
      obtain ⟨a1, a2, a3, _, _⟩ := hag m s u (by simp)
      unfold Match at h4
      rw [if_neg ht] at h4
      obtain ⟨e, h4⟩ := h4
      subst e
      have hsrc' := source_move hs hs' ag h1 h2 a1 (hlast h1 (.inl h2) h3)
      refine .data hsrc' a3 ?_ (by unfold Match; rw [if_neg ht]; exact ⟨rfl, a2⟩)
      rintro ⟨h5, hdir⟩
      have h5' : 5 ∈ (z'.node s).types := by
        rcases h5 with h | h | h
        · exact h
        · omega
        · omega
      have := hs'.cname s a1 (fun d b1 b2 => ⟨(a3 d b1 b2).1, rfl⟩) h5'
      rcases a2 with h | h | h
      · exact hdir (.inl (this _ h))
      · exact hdir (.inr (.inl h.1))
      · exact hdir (.inr (.inr (.inl h.1)))
  | nodata h =>
    refine hcorrect ?_
    rw [← ag.apex]
    refine .nodata ?_
    cases h with
    | nodata h1 h2 h3 h4 =>
      rename_i s
      have hno : ¬ Owns z s q.type := fun h => h4 q.type (by unfold Match; rw [if_neg ht]; exact ⟨rfl, h⟩)
      by_cases ho : ∃ u, Owns z s u
      · obtain ⟨u, hu⟩ := ho
        have hthere := hk.full rfl s u h1 hu
        obtain ⟨b1, b2⟩ := agree_there ag hthere
        have hi := owns_included (auth_nonauth hs.wf h1.1 h2) hu
        have h0 : (z.node s).nsec ≠ [] := by
          obtain ⟨_, x, hx, _⟩ := next_spec hs h1.1 hi
          rw [hx]; simp
        exact nodata_common hs hs' ag.apex h1.1 b1 h0 b2
          (source_move hs hs' ag h1 h2 b1 (hlast h1 (.inl h2) h3)) h2 h3 ht hno
      · have hsm : s = m := by
          by_cases e : s = m
          · exact e
          · exact absurd (hpl ls m s w.path h1 e).2 ho
        obtain ⟨p0, q0, g, hth⟩ := hk.empty rfl s h1 (fun u h => ho ⟨u, h⟩)
        obtain ⟨b1, b2⟩ := agree_there ag hth
        refine empty_common (common hs hs' ag.apex g (fun d hd hdm => ?_) b1 b2) (hsm ▸ h1.1)
        obtain ⟨e, _⟩ := h2 d hd (hsm ▸ hdm)
        exact ho ⟨2, .inl (e ▸ hd.2.2)⟩
  | nxdomain h =>
    refine hcorrect ?_
    rw [← ag.apex]
    refine .nxdomain ?_
    cases h with
    | nxdomain h1 h2 h3 h4 =>
      rename_i c
      obtain ⟨p0, q0, p1, q1, g0, t0, g1, t1⟩ := hk.miss rfl c h3
      obtain ⟨b1, b2⟩ := agree_there ag t0
      obtain ⟨b3, b4⟩ := agree_there ag t1
      have hd : ∀ d, Deleg z d → ¬ d <:+ m := by
        intro d hd hdm
        obtain ⟨x, hx⟩ := cut_exists m ⟨d, hd, hdm⟩
        exact h2 x hx
      refine nxdomain_common (common hs hs' ag.apex g0 hd b1 b2) (common hs hs' ag.apex g1 (fun d hd' hdm => ?_) b3 b4) h1 h3 h4
      by_cases e : d = [42] :: c
      · exact h1 d ⟨hd'.1, .inr ⟨fun h => h1 m ⟨h, .inl rfl⟩, c, h3, e⟩⟩
      · have : d <:+ c := by
          rcases List.suffix_cons_iff.mp hdm with h | h
          · exact absurd h e
          · exact h
        exact hd d hd' (this.trans h3.2.1)
  | referral h =>
    rename_i d
    refine hcorrect (.referral ?_)
    obtain ⟨k1, k2⟩ := hk.deleg rfl d h
    obtain ⟨n0, hc0⟩ := referral_deleg h
    have hi := cut_included hs.wf hc0
    have hd' : Deleg z' d ∧ (z'.node d).nonauth = false := by
      by_cases h43 : 43 ∈ (z.node d).types
      · obtain ⟨a1, a2, a3⟩ := ag.ds d (k1 h43)
        refine ⟨⟨a1, by rw [ag.apex]; exact hc0.1.2.1, hs'.ds d a1 a2 (by rw [ag.apex]; exact hc0.1.2.1)⟩, ?_⟩
        exact nonauth_false hs'.wf a1 (fun x hx hxd => (a3 x hx hxd).1)
      · obtain ⟨b1, b2⟩ := agree_there ag (k2 h43).2
        have h0 : (z.node d).nsec ≠ [] := by
          obtain ⟨_, x, hx, _⟩ := next_spec hs hc0.1.1 hi
          rw [hx]; simp
        exact ⟨(deleg_same hs hs' ag.apex hc0.1.1 b1 h0 b2).mpr hc0.1, (nsec_included hs' b1 (b2 ▸ h0)).1⟩
    cases h with
    | below h1 h2 => exact lookup_cut' hs' hd'.1 hd'.2 h2.2.1 (fun e => h1 m ⟨e.1 ▸ h2.1.1, .inl rfl⟩)
    | referral h1 h2 h3 =>
      rename_i s
      by_cases hdm : d <:+ m
      · refine lookup_cut' hs' hd'.1 hd'.2 hdm (fun e => h3 ⟨?_, e.2⟩)
        have : s = m := source_unique h1 ⟨e.1 ▸ h2.1.1, .inl rfl⟩
        rw [e.1, this]
      · rcases h1.2 with e | ⟨hm, c, hen, e⟩
        · exact absurd (e ▸ h2.2.1) hdm
        · have hds : d = s := by
            rcases List.suffix_cons_iff.mp (e ▸ h2.2.1) with h | h
            · rw [e]; exact h
            · exact absurd (h.trans hen.2.1) hdm
          have hsm : s ≠ m := fun h => hm (h ▸ h1.1)
          have hau : Auth z 43 s := fun x hx hxs => by
            refine ⟨?_, rfl⟩
            have := h2.2.2 x hx hxs
            rw [hds] at this
            exact List.IsSuffix.eq_of_length hxs (Nat.le_antisymm hxs.length_le this.length_le)
          have hna := auth_nonauth hs.wf h1.1 hau
          have hsrc' : Source z' s m := by
            refine source_move hs hs' ag h1 hau (hds ▸ hd'.1.1) (fun _ => ?_)
            refine hlast h1 (.inr hna) (fun hal => ?_) hsm
            have h5 : 5 ∈ (z.node s).types := by
              rcases hal.1 with h | h | h
              · exact h
              · omega
              · omega
            have := hs.cname s h1.1 hau h5 2 (hds ▸ h2.1.2.2)
            omega
          refine .referral hsrc' ⟨hd'.1, by rw [hds]; exact List.suffix_refl _, fun x hx hxs => ?_⟩ h3
          by_cases ex : x = d
          · rw [ex]; exact List.suffix_refl _
          · have := (marks_spec hs'.wf hd'.1.1).1.mpr ⟨x, hx, hds ▸ hxs, ex⟩
            rw [hd'.2] at this; cases this
  | out h =>
    refine hcorrect (.out (.out ?_))
    cases h with
    | out h => rw [ag.apex]; exact h
  | long h1 h2 h3 => exact absurd ((hreg ls m w.path).1 _ h1) h2
  | limit h1 h2 h3 => exact .inr ⟨h1, rfl, rfl⟩
  | made h1 h2 h3 h4 h5 => exact hcorrect (.made h1 (hmove h2 h3 h5 (extend_record (.inr h4))) h3 h4 h5)
  | loop h1 h2 h3 h4 h5 =>
    refine hcorrect (.loop (hmove h1 h2 h5 ?_) h2 h3 h4 h5)
    obtain ⟨l', hl', e1, e2 | ⟨e2, e3⟩⟩ := h3
    · exact absurd e2 h4
    · obtain ⟨o, ho⟩ := link_record hl' (.inl e3)
      rw [e1, e3, ← e2] at ho
      exact ⟨o, ho⟩
  | wild h1 h2 h3 h4 h5 h6 =>
    exact hcorrect (.wild (hmove h1 h2 h6 (extend_record (htype h1))) h2 h3 h4 h5 h6)

theorem ends_data {z : Zone} {t : Nat} {n s : Name} {u : Nat} {aa : List Rec} {σ : State} {rc : Nat}
    {au : Option (Name × Nat)} (h : Ends z t [] n aa σ rc au) (ha : aa = [.rr n s u]) (hc : rc = 0) :
    Lookup z t n (.data s u) := by
  cases h with
  | data h =>
    simp only [records, List.foldl_nil, List.nil_append, List.cons.injEq, Rec.rr.injEq, true_and, and_true] at ha
    rw [← ha.1, ← ha.2]; exact h
  | long => omega
  | limit h => simp at h
  | made h1 h2 h3 h4 h5 => simp [extend, h4, records] at ha
  | loop h1 h2 h3 => obtain ⟨_, h, _⟩ := h3; simp at h
  | wild h1 h2 h3 => obtain ⟨_, h, _⟩ := h3; simp at h
  | _ => simp [records] at ha

theorem ends_lookup {z z' : Zone} {t : Nat} {n : Name} {r : Resp} {o : Outcome} (h : Lookup z t n o)
    (ho : Ends z t [] n r.answer r.state r.rcode r.authority)
    (he : Ends z' t [] n r.answer r.state r.rcode r.authority) (wf : Wf z) (h1 : ∀ s, o ≠ .alias s)
    (h2 : ∀ c, o ≠ .dname c) (h3 : o ≠ .out) : Lookup z' t n o := by
  obtain ⟨_, a1, a2, a3⟩ := ends_cases he
  obtain ⟨rs, raa, rrc, ra, rau⟩ := r
  simp only at ho he a1 a2 a3
  cases ho with
  | data h' => rw [lookup_unique wf h h']; exact ends_data he rfl rfl
  | nodata h' => rw [lookup_unique wf h h']; exact a2 rfl
  | nxdomain h' => rw [lookup_unique wf h h']; exact a1 rfl
  | referral h' =>
    rw [lookup_unique wf h h']
    obtain ⟨d, e, hd⟩ := a3 rfl
    cases e; exact hd
  | out h' => exact absurd (lookup_unique wf h h') h3
  | long h' => exact absurd (lookup_unique wf h h') (h2 _)
  | limit h => simp at h
  | made _ hl hm _ _ => 
    cases hl with
    | cname h' => simp only at hm; subst hm; exact absurd (lookup_unique wf h h') (h1 _)
    | dname h' => simp only at hm; subst hm; exact absurd (lookup_unique wf h h') (h2 _)
  | loop _ _ h3 => obtain ⟨_, h, _⟩ := h3; simp at h
  | wild _ _ h3 => obtain ⟨_, h, _⟩ := h3; simp at h

end Knot.Nsecproof
