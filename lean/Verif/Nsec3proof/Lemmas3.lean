import Verif.Nsec3proof.Lemmas2
/-!
# NSEC3 proofs: another zone with the records
-/
namespace Knot.Nsec3proof
open Dname (Name Label)
open Answer
open Nsecproof (Fin Wire ends_cases referral_deleg path_steps source_wild wild_deleg auth_any ends_records link_record path_move
  extend_record)

theorem listed_move {z z' : Zone3} (hs : Signed z) (hs' : Signed z') {r : Resp} {p : Denial} (ag : Agrees z z' r p) {t : Nat} {n : Name}
    (ap : Apart z z' t n) {x : Name} (hl : Listed z x) (hx : z.hash x ∈ p.nsec3) :
    x ∈ z'.names ∧ Auth z'.toZone 43 x ∧ ∃ l, Bitmap z x l ∧ Bitmap z' x l := by
  obtain ⟨rr, hr⟩ := Option.ne_none_iff_exists'.mp hl.2.2
  have hr' : z'.nsec3 (z.hash x) = some rr := by rw [ag.nsec3 _ hx]; exact hr
  obtain ⟨y, h1, h2, h3, h4⟩ := hs'.chain.listed _ _ hr'
  obtain ⟨w, k1, k2, k3, k4⟩ := hs.chain.listed _ _ hr
  rw [ag.hash] at h3
  have e1 := ap.inj y x (.inr (.inl h1)) (.inl hl.1) h3
  have e2 := ap.inj w x (.inl k1) (.inl hl.1) k3
  subst e1; subst e2
  exact ⟨h1, h2, _, k4, h4⟩

theorem bitmap_type {z : Zone3} {x : Name} {l : List Nat} (h : Bitmap z x l) {t : Nat} (ht : t = 2 ∨ t = 43) :
    t ∈ l ↔ t ∈ (z.node x).types := by
  rw [h t]
  constructor
  · rintro (h | h)
    · exact h.1
    · omega
  · exact fun h => .inl ⟨h, fun _ => ht⟩

theorem deleg_same {z z' : Zone3} (ha : z'.apex = z.apex) {x : Name} (hx : x ∈ z.names) (hx' : x ∈ z'.names) {l : List Nat}
    (h : Bitmap z x l) (h' : Bitmap z' x l) : Deleg z'.toZone x ↔ Deleg z.toZone x := by
  unfold Deleg
  rw [ha, ← bitmap_type h (.inl rfl), ← bitmap_type h' (.inl rfl)]
  simp [hx, hx']

theorem owns_same {z z' : Zone3} (hs : Signed z) (hs' : Signed z') (ha : z'.apex = z.apex) {x : Name} (hx : x ∈ z.names)
    (hx' : x ∈ z'.names) {l : List Nat} (h : Bitmap z x l) (h' : Bitmap z' x l) (hd : ¬ Deleg z.toZone x) (t : Nat) :
    Owns z'.toZone x t ↔ Owns z.toZone x t := by
  have hd' : ¬ Deleg z'.toZone x := fun k => hd ((deleg_same ha hx hx' h h').mp k)
  have h1 : Owns z.toZone x t ↔ t ∈ l := by
    rw [h t]
    simp only [Owns, hd, false_implies, and_true, hs.plan.nsec x hx]
    simp
  have h2 : Owns z'.toZone x t ↔ t ∈ l := by
    rw [h' t]
    simp only [Owns, hd', false_implies, and_true, hs'.plan.nsec x hx']
    simp
  rw [h1, h2]

theorem cov_move {z z' : Zone3} (hs' : Signed z') {r : Resp} {p : Denial} (ag : Agrees z z' r p) {x : Name} (h : Cov z p.nsec3 x)
    (hx : x ∈ z'.names) (ha : Auth z'.toZone 43 x) : Insecure z' x ∧
      ∃ h ∈ p.nsec3, ∃ r, z'.nsec3 h = some r ∧ r.optout = true ∧ Covers h r.next (z'.hash x) := by
  obtain ⟨k, hk, rr, h1, h2⟩ := h
  have h1' : z'.nsec3 k = some rr := by rw [ag.nsec3 _ hk]; exact h1
  have h2' : Covers k rr.next (z'.hash x) := by rw [ag.hash]; exact h2
  have hn := (hs'.chain.links _ _ h1').2 _ h2'
  obtain ⟨a, b⟩ := hs'.chain.all x hx ha hn
  exact ⟨a, k, hk, rr, h1', b _ _ h1' h2', h2'⟩

theorem not_auth {z : Zone} {x : Name} (h : ¬ Auth z 43 x) : ∃ d, Deleg z d ∧ d <:+ x ∧ d ≠ x := by
  apply Classical.byContradiction
  intro hn
  refine h (fun d h1 h2 => ⟨?_, rfl⟩)
  apply Classical.byContradiction
  intro h3
  exact hn ⟨d, h1, h2, h3⟩

theorem suffix_strict {d l : Name} {a : Label} (h : d <:+ a :: l) (hne : d ≠ a :: l) : d <:+ l :=
  (List.suffix_cons_iff.mp h).resolve_left hne

theorem source_move {z z' : Zone3} (hs : Signed z) (hs' : Signed z') {r : Resp} {p : Denial} (ag : Agrees z z' r p) {t : Nat} {n : Name}
    {ls : List Link} {m s e : Name} {l : Label} (hp : Path z.toZone t n ls m) (hn : Near z p.nsec3 e l m)
    (h : Source z.toZone s m) (hne : s ≠ m) (hm' : s ∈ z'.names) (ha : Auth z'.toZone 43 s) :
    Source z'.toZone s m ∨ ∃ x, OptOut z z' t n p x ∧ x ∈ z'.names := by
  rcases h.2 with e0 | ⟨hm, c, hc, e0⟩
  · exact absurd e0 hne
  · have hec : e <:+ c := hc.2.2 e hn.listed.1 (List.IsSuffix.trans (List.suffix_cons l e) hn.suf)
    by_cases hx : l :: e ∈ z'.names
    · right
      refine ⟨l :: e, ?_, hx⟩
      have hax : Auth z'.toZone 43 (l :: e) := by
        apply Classical.byContradiction
        intro h
        obtain ⟨d, h1, h2, h3⟩ := not_auth h
        have hde := suffix_strict h2 h3
        have hds : d <:+ s := by rw [e0]; exact (hde.trans hec).trans (List.suffix_cons _ _)
        have := (ha d h1 hds).1
        have h4 := (hde.trans hec).length_le
        rw [this, e0] at h4
        simp at h4
        omega
      obtain ⟨a, b⟩ := cov_move hs' ag hn.cov hx hax
      exact ⟨⟨ls, m, hp, .inl hn.suf⟩, b, a⟩
    · left
      have hap : z'.apex <:+ e := by rw [ag.apex]; exact hs.plan.wf.closed.under e hn.listed.1
      have hup : ∀ d ∈ z'.names, d <:+ m → d <:+ e := by
        intro d hd hdm
        rcases Nat.lt_or_ge e.length d.length with hl | hl
        · exfalso
          have : (l :: e) <:+ d := suffix_linear hn.suf hdm (by simp; omega)
          exact hx (closed_up hs'.plan.wf.closed hd this (hap.trans (List.suffix_cons _ _)))
        · exact suffix_linear hdm (List.IsSuffix.trans (List.suffix_cons l e) hn.suf) hl
      have hc' : c ∈ z'.names := by
        refine closed_up hs'.plan.wf.closed hm' (by rw [e0]; exact List.suffix_cons _ _) ?_
        rw [ag.apex]; exact hs.plan.wf.closed.under c hc.1
      have hce := hup c hc' hc.2.1
      have : e = c := List.IsSuffix.eq_of_length hec (Nat.le_antisymm hec.length_le hce.length_le)
      subst this
      refine ⟨hm', .inr ⟨fun h => ?_, e, ⟨hc', hc.2.1, hup⟩, e0⟩⟩
      have h1 := (hup m h (List.suffix_refl _)).length_le
      have h2 := hn.suf.length_le
      simp at h2
      omega

/-- Where the next closer name is one of the zone. -/
theorem opt_move {z z' : Zone3} (hs : Signed z) (hs' : Signed z') {r : Resp} {p : Denial} (ag : Agrees z z' r p) {t : Nat} {n : Name}
    (ap : Apart z z' t n) {ls : List Link} {m e : Name} {l : Label} (hp : Path z.toZone t n ls m) (hn : Near z p.nsec3 e l m)
    (he : z.hash e ∈ p.nsec3) (hx : l :: e ∈ z.names) (ha : Auth z.toZone 43 (l :: e)) : OptOut z z' t n p (l :: e) := by
  refine ⟨⟨ls, m, hp, .inl hn.suf⟩, ?_, ?_⟩
  · obtain ⟨k, hk, rr, h1, h2⟩ := hn.cov
    have hnn := (hs.chain.links _ _ h1).2 _ h2
    exact ⟨k, hk, rr, by rw [ag.nsec3 _ hk]; exact h1, (hs.chain.all _ hx ha hnn).2 _ _ h1 h2, by rw [ag.hash]; exact h2⟩
  · obtain ⟨k1, k2, bl, k3, k4⟩ := listed_move hs hs' ag ap hn.listed he
    by_cases hx' : l :: e ∈ z'.names
    · refine (cov_move hs' ag hn.cov hx' ?_).1
      apply Classical.byContradiction
      intro h
      obtain ⟨d, h1, h2, h3⟩ := not_auth h
      have hde := suffix_strict h2 h3
      have := (k2 d h1 hde).1
      subst this
      have := (ha d ((deleg_same ag.apex hn.listed.1 k1 k3 k4).mp h1) (List.suffix_cons _ _)).1
      have := congrArg List.length this
      simp at this
    · intro y hy hxy _
      refine absurd (closed_up hs'.plan.wf.closed hy hxy ?_) hx'
      exact (hs'.plan.wf.closed.under _ k1).trans (List.suffix_cons _ _)

theorem nxdomain_move {z z' : Zone3} (hs : Signed z) (hs' : Signed z') {r : Resp} {p : Denial} (ag : Agrees z z' r p) {t : Nat} {n : Name}
    (ap : Apart z z' t n) {ls : List Link} {m e : Name} {l : Label} (hp : Path z.toZone t n ls m) (hn : Near z p.nsec3 e l m)
    (he : z.hash e ∈ p.nsec3) (hw : Cov z p.nsec3 ([42] :: e)) (h : Lookup z.toZone t m .nxdomain) :
    Lookup z'.toZone t m .nxdomain ∨ ∃ x, OptOut z z' t n p x ∧ x ∈ z'.names := by
  obtain ⟨k1, k2, bl, k3, k4⟩ := listed_move hs hs' ag ap hn.listed he
  have hem : e <:+ m := List.IsSuffix.trans (List.suffix_cons l e) hn.suf
  cases h with
  | nxdomain h1 h2 h3 h4 =>
  rename_i c
  have hcutz : ∀ d, Deleg z.toZone d → ¬ d <:+ m := by
    intro d hd hdm
    obtain ⟨x, hx⟩ := cut_exists m ⟨d, hd, hdm⟩
    exact h2 x hx
  have hde : ∀ d, Deleg z'.toZone d → ¬ d <:+ e := by
    intro d hd hds
    have := (k2 d hd hds).1
    subst this
    exact hcutz d ((deleg_same ag.apex hn.listed.1 k1 k3 k4).mp hd) hem
  have hauth : ∀ a : Label, Auth z'.toZone 43 (a :: e) := by
    intro a
    apply Classical.byContradiction
    intro h
    obtain ⟨d, h1, h2, h3⟩ := not_auth h
    exact hde d h1 (suffix_strict h2 h3)
  by_cases hx : l :: e ∈ z'.names
  · right
    obtain ⟨a, b⟩ := cov_move hs' ag hn.cov hx (hauth l)
    exact ⟨l :: e, ⟨⟨ls, m, hp, .inl hn.suf⟩, b, a⟩, hx⟩
  by_cases hx2 : ([42] : Label) :: e ∈ z'.names
  · right
    obtain ⟨a, b⟩ := cov_move hs' ag hw hx2 (hauth [42])
    exact ⟨[42] :: e, ⟨⟨ls, m, hp, .inr ⟨e, hem, rfl⟩⟩, b, a⟩, hx2⟩
  left
  have hup : ∀ d ∈ z'.names, d <:+ m → d <:+ e := by
    intro d hd hdm
    rcases Nat.lt_or_ge e.length d.length with hl | hl
    · exfalso
      have : (l :: e) <:+ d := suffix_linear hn.suf hdm (by simp; omega)
      exact hx (closed_up hs'.plan.wf.closed hd this ((hs'.plan.wf.closed.under e k1).trans (List.suffix_cons _ _)))
    · exact suffix_linear hdm hem hl
  have hm' : m ∉ z'.names := by
    intro h
    have h1 := (hup m h (List.suffix_refl _)).length_le
    have h2 := hn.suf.length_le
    simp at h2
    omega
  have hen : Encloser z'.toZone e m := ⟨k1, hem, hup⟩
  have hnd : ¬ Deleg z.toZone e := fun h => hcutz e h hem
  refine .nxdomain (source_or hm' hen hx2) (fun d hd => hde d hd.1 (hup d hd.1.1 hd.2.1)) hen (fun h39 => h4 ?_)
  have h39z := (owns_same hs hs' ag.apex hn.listed.1 k1 k3 k4 hnd 39).mp h39
  have h39t : 39 ∈ (z.node e).types := by
    rcases h39z with h | h | h
    · exact h
    · omega
    · omega
  have hce := hs.plan.dname e hn.listed.1 (fun d h1 h2 => absurd (h2.trans hem) (hcutz d h1)) h39t c h3.1
    (h3.2.2 e hn.listed.1 hem)
  rw [hce]; exact h39z

/-- The record of the node that answers. -/
theorem nodata_move {z z' : Zone3} (hs : Signed z) (hs' : Signed z') (ha : z'.apex = z.apex) {t : Nat} {m s : Name}
    (hm : s ∈ z.names) (hm' : s ∈ z'.names) (hau' : Auth z'.toZone 43 s) {l : List Nat} (hb : Bitmap z s l) (hb' : Bitmap z' s l)
    (hsrc : Source z'.toZone s m) (hau : Auth z.toZone t s) (hc : ¬ (Owns z.toZone s 5 ∧ ¬ Direct t)) (ht : t ≠ 255)
    (hno : ¬ Owns z.toZone s t) : Lookup z'.toZone t m .nodata := by
  have hds := deleg_same ha hm hm' hb hb'
  have hau2 : Auth z'.toZone t s := by
    intro d h1 h2
    have e := (hau' d h1 h2).1
    subst e
    exact ⟨rfl, (hau d (hds.mp h1) (List.suffix_refl _)).2⟩
  refine .nodata hsrc hau2 ?_ ?_
  · rintro ⟨h5, hdir⟩
    by_cases hd : Deleg z.toZone s
    · have h5' : 5 ∈ (z'.node s).types := by
        rcases h5 with h | h | h
        · exact h
        · omega
        · omega
      have := hs'.plan.cname s hm' hau' h5' 2 (hds.mpr hd).2.2
      omega
    · exact hc ⟨(owns_same hs hs' ha hm hm' hb hb' hd 5).mp h5, hdir⟩
  · intro u hu
    unfold Match at hu
    rw [if_neg ht] at hu
    by_cases hd : Deleg z.toZone s
    · have h43 := (hau s hd (List.suffix_refl _)).2
      subst h43
      have h : 43 ∈ (z'.node s).types := by
        rcases hu.2 with h | h | h
        · exact h
        · omega
        · omega
      rw [← bitmap_type hb' (.inr rfl), bitmap_type hb (.inr rfl)] at h
      exact hno (.inl h)
    · exact hno ((owns_same hs hs' ha hm hm' hb hb' hd t).mp hu.2)

theorem step_move {z z' : Zone3} {t : Nat} (hs : Signed z) (hs' : Signed z') {r : Resp} {p : Denial} (ag : Agrees z z' r p) {n : Name}
    {l : Link} (h : Step z.toZone t l) (hr : ∃ o, .rr o l.source l.type ∈ r.answer) {ls : List Link}
    (hp : Path z.toZone t n ls l.owner) (hw : l.type = 5 → l.source ≠ l.owner → ∃ e k, Near z p.nsec3 e k l.owner) :
    Step z'.toZone t l ∨ ∃ x, OptOut z z' t n p x ∧ x ∈ z'.names := by
  obtain ⟨o, hr⟩ := hr
  cases h with
  | cname h =>
    rename_i n s
    cases h with
    | alias h1 h2 h3 h4 =>
      obtain ⟨a1, a2, a3, a4⟩ := ag.answer _ _ _ hr
      simp only at a1 a2 a3 a4 hw hp
      rw [← a4]
      have hfin : Source z'.toZone s n → Step z'.toZone t ⟨n, s, 5, z'.target s 5⟩ := fun h =>
        .cname (.alias h (auth_any a3 (by omega)) a2 h4)
      by_cases hne : s = n
      · exact .inl (hfin ⟨a1, .inl hne⟩)
      · obtain ⟨e, k, hk⟩ := hw trivial hne
        exact (source_move hs hs' ag hp hk h1 hne a1 (auth_43 a3)).imp hfin id
  | dname h hf =>
    rename_i n c
    left
    obtain ⟨a1, a2, a3, a4⟩ := ag.answer _ _ _ hr
    simp only at a1 a2 a3 a4
    rw [← a4] at hf ⊢
    refine .dname ?_ hf
    cases h with
    | dname h1 h2 h3 h4 =>
      have ht : 39 ∈ (z'.node c).types := by
        rcases a2 with h | h | h
        · exact h
        · omega
        · omega
      have hdn := hs'.plan.dname c a1 a3 ht
      have hne : n ≠ c := fun e => h1 n ⟨e ▸ h3.1, .inl rfl⟩
      have hn' : n ∉ z'.names := fun h => hne (hdn n h h3.2.1)
      have he' : Encloser z'.toZone c n := by
        refine ⟨a1, h3.2.1, fun d hd hdn' => ?_⟩
        rcases Nat.le_total d.length c.length with hl | hl
        · exact suffix_linear hdn' h3.2.1 hl
        · have := hdn d hd (suffix_linear h3.2.1 hdn' hl)
          rw [this]; exact List.suffix_refl _
      refine .dname ?_ ?_ he' a2
      · rintro s ⟨b1, e | ⟨_, c', b3, e⟩⟩
        · exact hn' (e ▸ b1)
        · have hc : c' = c := encloser_unique b3 he'
          rw [hc] at e
          have := hdn s b1 (by rw [e]; exact List.suffix_cons _ _)
          rw [e] at this
          have := congrArg List.length this
          simp at this
      · rintro d ⟨b1, b2, _⟩
        have := a3 d b1 (he'.2.2 d b1.1 b2)
        omega

theorem lookup_cut' {z : Zone} (wf : Wf z) {t : Nat} {d m : Name} (hd : Deleg z d) (ha : Auth z 43 d)
    (hdm : d <:+ m) (hn : ¬ (d = m ∧ t = 43)) : Lookup z t m (.referral d) := by
  refine lookup_cut wf ⟨hd, hdm, fun d' h1 h2 => ?_⟩ hn
  rcases Nat.le_total d.length d'.length with hl | hl
  · exact suffix_linear hdm h2 hl
  · rw [(ha d' h1 (suffix_linear h2 hdm hl)).1]; exact List.suffix_refl _

/-- What the response says holds in the other zone, or there is a difference under opt-out. -/
theorem says {z z' : Zone3} (hs : Signed z) (hs' : Signed z') {q : Req} {n : Name} (ht : q.type ≠ 255)
    (hreg : Regular z.toZone q.type n) (hpl : Plain z q.type n) {ls : List Link} {m : Name} {st : St} {r : Resp}
    {p : Denial} (w : Whole z q n ls m st r p) (hnd : ∀ l ∈ ls, l.type = 39 → ¬ Wild l.source) (ag : Agrees z z' r p)
    (ap : Apart z z' q.type n)
    (hno : ¬ ∃ x, OptOut z z' q.type n p x ∧ (r.state = .nodata ∨ r.state = .deleg ∨ x ∈ z'.names)) :
    Path z'.toZone q.type n ls m ∧ (Ends z'.toZone q.type ls m r.answer r.state r.rcode r.authority ∨
      ls.length = 5 ∧ r.answer = records ls ∧ r.state = .hit) := by
  have hno1 : ¬ ∃ x, OptOut z z' q.type n p x ∧ x ∈ z'.names := fun ⟨x, a, b⟩ => hno ⟨x, a, .inr (.inr b)⟩
  have hgap : ∀ s x, (s, x) ∈ st.wild → Source z.toZone s x → s ≠ x → (∃ ls', Path z.toZone q.type n ls' x) →
      ∃ e k, Near z p.nsec3 e k x := by
    intro s x h1 h2 h3 ⟨ls', h4⟩
    exact w.wilds s x h1 (hpl ls' x s h4 h2 h3).1 (source_wild h2 h3)
  have hsteps := path_steps w.path
  have halias : ∀ {l : Link}, Step z.toZone q.type l → l.type = 5 → Source z.toZone l.source l.owner := by
    intro l h h5
    cases h with
    | cname h => cases h with | alias h1 => exact h1
    | dname => simp at h5
  have htype : ∀ {l : Link}, Step z.toZone q.type l → l.type = 5 ∨ l.type = 39 := fun h => by cases h <;> simp
  have hpath : Path z'.toZone q.type n ls m := by
    refine path_move (z := z.toZone) (fun l hl h => ?_) w.path
    obtain ⟨lo, hlo⟩ := (hsteps l hl).2
    refine (step_move hs hs' ag h ?_ hlo (fun h5 hne => ?_)).resolve_right hno1
    · obtain ⟨o, ho⟩ := link_record hl (htype h)
      exact ⟨o, ends_records w.ends _ ho⟩
    · have hsrc := halias h h5
      exact hgap _ _ (w.fin.trail.seen l hl h5 (source_wild hsrc hne)) hsrc hne (hsteps l hl).2
  have hlast : ∀ {s}, Source z.toZone s m → Auth z.toZone 43 s → ¬ (Owns z.toZone s 5 ∧ ¬ Direct q.type) → s ≠ m →
      ∃ e k, Near z p.nsec3 e k m := by
    intro s h1 h2 h3 h4
    rcases w.fin.last s h1 h4 (auth_nonauth hs.plan.wf h1.1 h2) with h | ⟨l, hl, hls⟩
    · exact hgap s m h h1 h4 ⟨ls, w.path⟩
    · exfalso
      have hst := (hsteps l hl).1
      cases hst with
      | cname h =>
        simp only at hls
        cases h with
        | alias a1 a2 a3 a4 => exact h3 ⟨hls ▸ a3, a4⟩
      | dname h =>
        cases h with
        | dname a1 a2 a3 a4 => exact hnd _ hl rfl (hls ▸ source_wild h1 h4)
  have hsource : ∀ {s}, Source z.toZone s m → Auth z.toZone 43 s → ¬ (Owns z.toZone s 5 ∧ ¬ Direct q.type) → s ∈ z'.names →
      Auth z'.toZone 43 s → Source z'.toZone s m := by
    intro s h1 h2 h3 h4 h5
    by_cases hne : s = m
    · exact ⟨h4, .inl hne⟩
    · obtain ⟨e, k, hk⟩ := hlast h1 h2 h3 hne
      exact (source_move hs hs' ag w.path hk h1 hne h4 h5).resolve_right hno1
  have hmove : ∀ {l : Link}, Step z.toZone q.type l → l.owner = m → ls.length < 5 → (∃ o, .rr o l.source l.type ∈ r.answer) →
      Step z'.toZone q.type l := by
    intro l h ho hlen hr
    have hpo : Path z.toZone q.type n ls l.owner := by rw [ho]; exact w.path
    refine (step_move hs hs' ag h hr hpo (fun h5 hne => ?_)).resolve_right hno1
    have hsrc := halias h h5
    have hal : Lookup z.toZone q.type m (.alias l.source) := by
      cases h with
      | cname h => simp only at ho; exact ho ▸ h
      | dname => simp at h5
    refine hgap _ _ ?_ hsrc hne ⟨ls, hpo⟩
    rw [ho]
    exact w.fin.alias _ hal (source_wild hsrc hne) hlen
  refine ⟨hpath, ?_⟩
  have hcorrect : Ends z'.toZone q.type ls m r.answer r.state r.rcode r.authority →
      Ends z'.toZone q.type ls m r.answer r.state r.rcode r.authority ∨ ls.length = 5 ∧ r.answer = records ls ∧ r.state = .hit := .inl
  have hk := w.known
  have he := w.ends
  have hag := ag.answer
  obtain ⟨rs, raa, rrc, ra, rau⟩ := r
  simp only at he hk hag hcorrect hlast hmove hno
  cases he with
  | data h =>
    rename_i s u
    refine hcorrect (.data ?_)
    cases h with
    | data h1 h2 h3 h4 =>
      obtain ⟨a1, a2, a3, _⟩ := hag m s u (by simp)
      unfold Match at h4
      rw [if_neg ht] at h4
      obtain ⟨e, h4⟩ := h4
      subst e
      refine .data (hsource h1 (auth_43 h2) h3 a1 (auth_43 a3)) a3 ?_ (by unfold Match; rw [if_neg ht]; exact ⟨rfl, a2⟩)
      rintro ⟨h5, hdir⟩
      have h5' : 5 ∈ (z'.node s).types := by
        rcases h5 with h | h | h
        · exact h
        · omega
        · omega
      have := hs'.plan.cname s a1 (auth_43 a3) h5'
      rcases a2 with h | h | h
      · exact hdir (.inl (this _ h))
      · exact hdir (.inr (.inl h.1))
      · exact hdir (.inr (.inr (.inl h.1)))
  | nodata h =>
    refine hcorrect ?_
    rw [← ag.apex]
    refine .nodata ?_
    cases h with
    | nodata h1 h2 h3 h4 =>
      rename_i s
      have hnown : ¬ Owns z.toZone s q.type := fun h => h4 q.type (by unfold Match; rw [if_neg ht]; exact ⟨rfl, h⟩)
      obtain ⟨k1, k2⟩ := hk.nodata rfl s h1
      by_cases hl : Listed z s
      · obtain ⟨b1, b2, l, b3, b4⟩ := listed_move hs hs' ag ap hl (k1 hl)
        exact nodata_move hs hs' ag.apex h1.1 b1 b2 b3 b4 (hsource h1 (auth_43 h2) h3 b1 b2) h2 h3 ht hnown
      · exfalso
        have hsm : s = m := by
          by_cases e : s = m
          · exact e
          · exact absurd ((hpl ls m s w.path h1 e).2 (auth_43 h2)) hl
        subst hsm
        obtain ⟨e, l, c1, c2⟩ := k2 hl
        have hx : l :: e ∈ z.names := closed_up hs.plan.wf.closed h1.1 c2.suf
          ((hs.plan.wf.closed.under e c2.listed.1).trans (List.suffix_cons _ _))
        exact hno ⟨_, opt_move hs hs' ag ap w.path c2 c1 hx (auth_le (auth_43 h2) c2.suf), .inl rfl⟩
  | nxdomain h =>
    refine hcorrect ?_
    rw [← ag.apex]
    obtain ⟨e, l, c1, c2, c3⟩ := hk.miss rfl
    exact .nxdomain ((nxdomain_move hs hs' ag ap w.path c2 c1 c3 h).resolve_right hno1)
  | referral h =>
    rename_i d
    refine hcorrect (.referral ?_)
    obtain ⟨k1, k2⟩ := hk.deleg rfl d h
    obtain ⟨n0, hc0⟩ := referral_deleg h
    have hd0 := cut_auth hc0
    have hdz : Listed z d ∨ 43 ∈ (z.node d).types := by
      apply Classical.byContradiction
      intro hn
      have h43 : 43 ∉ (z.node d).types := fun h => hn (.inr h)
      have hl : ¬ Listed z d := fun h => hn (.inl h)
      obtain ⟨_, _, k3⟩ := k2 h43
      obtain ⟨e, l, c1, c2⟩ := k3 hl
      have hem : e <:+ m := List.IsSuffix.trans (List.suffix_cons l e) c2.suf
      have hdm : d <:+ m := by
        cases h with
        | below h1 h2 => exact h2.2.1
        | referral h1 h2 h3 =>
          rename_i s
          apply Classical.byContradiction
          intro hndm
          by_cases e0 : s = m
          · exact hndm (e0 ▸ h2.2.1)
          · have hds : d ≠ s := by
              rintro rfl
              exact hl ((hpl ls m d w.path h1 e0).2 hd0)
            rcases h1.2 with e1 | ⟨_, c, hen, e1⟩
            · exact e0 e1
            · exact hndm ((suffix_strict (e1 ▸ h2.2.1) (e1 ▸ hds)).trans hen.2.1)
      have hxd : (l :: e) <:+ d := by
        rcases Nat.lt_or_ge e.length d.length with hlt | hge
        · exact suffix_linear c2.suf hdm (by simp; omega)
        · have hde := suffix_linear hdm hem hge
          have := (c2.listed.2.1 d hc0.1 hde).1
          exact absurd (this ▸ c2.listed) hl
      have hx : l :: e ∈ z.names := closed_up hs.plan.wf.closed hc0.1.1 hxd
        ((hs.plan.wf.closed.under e c2.listed.1).trans (List.suffix_cons _ _))
      exact hno ⟨_, opt_move hs hs' ag ap w.path c2 c1 hx (auth_le hd0 hxd), .inr (.inl rfl)⟩
    have hd' : Deleg z'.toZone d ∧ Auth z'.toZone 43 d := by
      by_cases h43 : 43 ∈ (z.node d).types
      · obtain ⟨a1, a2, a3⟩ := ag.ds d (k1 h43)
        exact ⟨⟨a1, by rw [ag.apex]; exact hc0.1.2.1, hs'.plan.ds d a1 a2 (by rw [ag.apex]; exact hc0.1.2.1)⟩, a3⟩
      · have hl := hdz.resolve_right h43
        obtain ⟨b1, b2, l, b3, b4⟩ := listed_move hs hs' ag ap hl ((k2 h43).2.1 hl)
        exact ⟨(deleg_same ag.apex hc0.1.1 b1 b3 b4).mpr hc0.1, b2⟩
    cases h with
    | below h1 h2 => exact lookup_cut' hs'.plan.wf hd'.1 hd'.2 h2.2.1 (fun e => h1 m ⟨e.1 ▸ h2.1.1, .inl rfl⟩)
    | referral h1 h2 h3 =>
      rename_i s
      by_cases hdm : d <:+ m
      · refine lookup_cut' hs'.plan.wf hd'.1 hd'.2 hdm (fun e => h3 ⟨?_, e.2⟩)
        have : s = m := source_unique h1 ⟨e.1 ▸ h2.1.1, .inl rfl⟩
        rw [e.1, this]
      · rcases h1.2 with e | ⟨hm, c, hen, e⟩
        · exact absurd (e ▸ h2.2.1) hdm
        · have hds : d = s := by
            rcases List.suffix_cons_iff.mp (e ▸ h2.2.1) with h | h
            · rw [e]; exact h
            · exact absurd (h.trans hen.2.1) hdm
          subst hds
          have hnal : ¬ (Owns z.toZone d 5 ∧ ¬ Direct q.type) := by
            intro hal
            have h5 : 5 ∈ (z.node d).types := by
              rcases hal.1 with h | h | h
              · exact h
              · omega
              · omega
            have := hs.plan.cname d h1.1 hd0 h5 2 h2.1.2.2
            omega
          refine .referral (hsource h1 hd0 hnal hd'.1.1 hd'.2) ⟨hd'.1, List.suffix_refl _, fun x hx hxs => ?_⟩ h3
          rw [(hd'.2 x hx hxs).1]; exact List.suffix_refl _
  | out h =>
    refine hcorrect (.out (.out ?_))
    cases h with
    | out h => rw [ag.apex]; exact h
  | long h1 h2 h3 => exact absurd ((hreg ls m w.path).1 _ h1) h2
  | limit h1 h2 h3 => exact .inr ⟨h1, rfl, rfl⟩
  | made h1 h2 h3 h4 h5 => exact hcorrect (.made h1 (hmove h2 h3 h5 (extend_record (.inr h4))) h3 h4 h5)
  | loop h1 h2 h3 h4 h5 =>
    refine hcorrect (.loop (hmove h1 h2 h5 ?_) h2 h3 h4 h5)
    obtain ⟨l', hl', e1, e2 | ⟨e2, e3⟩⟩ := h3
    · exact absurd e2 h4
    · obtain ⟨o, ho⟩ := link_record hl' (.inl e3)
      rw [e1, e3, ← e2] at ho
      exact ⟨o, ho⟩
  | wild h1 h2 h3 h4 h5 h6 =>
    exact hcorrect (.wild (hmove h1 h2 h6 (extend_record (htype h1))) h2 h3 h4 h5 h6)

end Knot.Nsec3proof
