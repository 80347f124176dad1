import Verif.Nsec3proof.Lemmas
import Verif.Nsecproof.Lemmas8
/-!
# NSEC3 proofs: what the response has
-/
namespace Knot.Nsec3proof
open Dname (Name Label)
open Answer
open Nsecproof (Fin Wire ends_cases referral_deleg path_steps)

/-- The records that prove how the search ended. -/
structure Known (z : Zone3) (t : Nat) (m : Name) (σ : State) (p : Denial) : Prop where
  miss : σ = .miss → ∃ e l, z.hash e ∈ p.nsec3 ∧ Near z p.nsec3 e l m ∧ Cov z p.nsec3 ([42] :: e)
  nodata : σ = .nodata → ∀ s, Source z.toZone s m → (Listed z s → z.hash s ∈ p.nsec3) ∧
    (¬ Listed z s → ∃ e l, z.hash e ∈ p.nsec3 ∧ Near z p.nsec3 e l m)
  deleg : σ = .deleg → ∀ d, Lookup z.toZone t m (.referral d) → (43 ∈ (z.node d).types → p.ds = some d) ∧
    (43 ∉ (z.node d).types → p.ds = none ∧ (Listed z d → z.hash d ∈ p.nsec3) ∧
      (¬ Listed z d → ∃ e l, z.hash e ∈ p.nsec3 ∧ Near z p.nsec3 e l m))

theorem cut_auth {z : Zone} {d n : Name} (h : Cut z d n) : Auth z 43 d := by
  intro d' h1 h2
  have h3 := h.2.2 d' h1 (h2.trans h.2.1)
  exact ⟨List.IsSuffix.eq_of_length h2 (Nat.le_antisymm h2.length_le h3.length_le), rfl⟩

theorem auth_43 {z : Zone} {t : Nat} {s : Name} (h : Auth z t s) : Auth z 43 s := fun d h1 h2 => ⟨(h d h1 h2).1, rfl⟩

theorem prove_spec {z : Zone3} (hs : Signed z) {A : Name → Prop} (hA : Sep z A) {q : Req} {n : Name} {ls : List Link} {m : Name}
    {st : St} {σ : State} (hm : Wire m) (hn : ∀ x, x <:+ m → A x) (hw : ∀ x, x <:+ m → A ([42] :: x))
    (hcpe : Lookup z.toZone q.type m .nxdomain → ∀ e, Provable z e m → ¬ Listed z ([42] :: e))
    (f : Fin z.toZone q n ls m st σ) (hnf : σ ≠ .follow) :
    ∃ p, prove z (st, σ) = .ok p ∧ Known z q.type m σ p := by
  have hname := f.name hnf
  rcases f.spec with ⟨a, _⟩ | ⟨a, b⟩ | ⟨a, b⟩ | ⟨a, b⟩ | ⟨a, x, d, b1, b2, b3⟩
  · exact absurd a hnf
  · subst a
    exact ⟨_, rfl, by simp, by simp, by simp⟩
  · subst a
    have hl := (ends_cases b).2.1 rfl
    have hc := hcpe hl
    obtain ⟨c, h1, h3⟩ : ∃ c, (∀ s, ¬ Source z.toZone s m) ∧ Encloser z.toZone c m := by
      cases hl with
      | nxdomain h1 h2 h3 h4 => exact ⟨_, h1, h3⟩
    have hmn : m ∉ z.names := fun h => h1 m ⟨h, .inl rfl⟩
    obtain ⟨l', e, l, k1, k2⟩ := nxdomain_spec hs hA hn hw hmn h3 hc hm.2 hm.1
    refine ⟨⟨l', none⟩, ?_, fun _ => ⟨e, l, k2⟩, by simp, by simp⟩
    unfold prove
    simp only [hname, k1, Res.bind_ok]
  · subst a
    obtain ⟨s, e1, e2⟩ := f.node rfl
    have hl : Lookup z.toZone q.type m .nodata := (ends_cases b).2.2.1 rfl
    have ha : Auth z.toZone q.type s := by
      cases hl with
      | nodata h1 h2 h3 h4 => rw [source_unique e2 h1]; exact h2
    obtain ⟨l', k1, k2, k3⟩ := nodata_spec hs hA hn (source_apex hs.plan.wf e2) e2.1 (auth_43 ha) (by
      intro h hlm
      have := source_unique e2 ⟨hlm.1, .inl rfl⟩
      subst this
      rcases h with h | h
      · exact h.2 h.1
      · exact h hlm)
    refine ⟨⟨l', none⟩, ?_, by simp, fun _ s' h1 => ?_, by simp⟩
    · unfold prove
      simp only [hname, e1, k1, Res.bind_ok]
    · rw [source_unique h1 e2]
      exact ⟨k2, fun h => k3 (.inr h)⟩
  · subst a
    have hl : Lookup z.toZone q.type m (.referral d) := by
      obtain ⟨d', e, h⟩ := (ends_cases b3).2.2.2 rfl
      cases e
      exact h
    obtain ⟨n0, hc⟩ := referral_deleg hl
    by_cases h43 : 43 ∈ (z.node d).types
    · refine ⟨⟨[], some d⟩, ?_, by simp, by simp, fun _ d' hd' => ?_⟩
      · unfold prove
        simp only [b1, b2, Res.bind_ok, dpSecurity, if_pos h43]
      · have : d = d' := by simpa using lookup_unique hs.plan.wf hl hd'
        rw [← this]
        simp [h43]
    · have hap : z.apex <:+ m := by
        cases hl with
        | referral h1 _ _ => exact source_apex hs.plan.wf h1
        | below h1 h2 => exact (hs.plan.wf.closed.under d hc.1.1).trans h2.2.1
      obtain ⟨l', k1, k2, k3⟩ := nodata_spec hs hA hn hap hc.1.1 (cut_auth hc) (by
        intro h hlm
        have : d = m := by
          cases hl with
          | referral h1 h2 _ =>
            have := source_unique h1 ⟨hlm.1, .inl rfl⟩
            subst this
            exact (hlm.2.1 d h2.1 h2.2.1).1
          | below h1 h2 => exact absurd ⟨hlm.1, .inl rfl⟩ (h1 m)
        subst this
        rcases h with h | h
        · exact h.2 h.1
        · exact h hlm)
      refine ⟨⟨l', none⟩, ?_, by simp, by simp, fun _ d' hd' => ?_⟩
      · unfold prove
        simp only [b1, b2, Res.bind_ok, dpSecurity, if_neg h43, hname, k1]
      · have : d = d' := by simpa using lookup_unique hs.plan.wf hl hd'
        rw [← this]
        simp only [h43, not_false_eq_true, true_and, false_implies, forall_const]
        exact ⟨k2, fun h => k3 (.inr h)⟩

/-- Everything about a search. -/
structure Whole (z : Zone3) (q : Req) (n : Name) (ls : List Link) (m : Name) (st : St) (r : Resp) (p : Denial) : Prop where
  den : denial z q n = .ok p
  ans : answer z.toZone q n = .ok r
  path : Path z.toZone q.type n ls m
  fresh : Fresh q.type ls
  len : ls.length ≤ 5
  fin : Fin z.toZone q n ls m st r.state
  same : r.answer = st.answer
  ends : Ends z.toZone q.type ls m r.answer r.state r.rcode r.authority
  aa : r.aa = false ↔ ls = [] ∧ r.state = .deleg
  known : Known z q.type m r.state p
  wilds : ∀ w x, (w, x) ∈ st.wild → ¬ Wild x → Wild w → ∃ e l, Near z p.nsec3 e l x

theorem whole {z : Zone3} (hs : Signed z) {q : Req} (hu : Unlimited q) {n : Name} (hn : z.apex <:+ n)
    (hreg : Regular z.toZone q.type n) (hwire : ∀ ls m, Path z.toZone q.type n ls m → Wire m) (hap : Apart z z q.type n)
    (hcpe : NoWildCpe z q.type n) (hnd : Nsecproof.NoWildDname z.toZone q.type n) :
    ∃ ls m st r p, Whole z q n ls m st r p := by
  obtain ⟨ls, m, st, σ, r, ⟨r0, s1, s2⟩, _, h2, h3, h4, h5, h6, h7, h8, h9, h10⟩ :=
    Nsecproof.solve_fin hs.plan.wf hu hn (fun ls m h => (hreg ls m h).2) (fun ls m h => (hreg ls m h).1)
  have hA := hap.sep
  have hsuf : ∀ {ls m}, Path z.toZone q.type n ls m → ∀ x, x <:+ m → Asked z z q.type n x :=
    fun hp x hx => .inr (.inr ⟨_, _, hp, .inl hx⟩)
  have hnf : σ ≠ .follow := h8 ▸ (ends_cases h9).1
  obtain ⟨p, k1, k2⟩ := prove_spec hs hA (hwire ls m h3) (hsuf h3)
    (fun x hx => .inr (.inr ⟨_, _, h3, .inr ⟨x, hx, rfl⟩⟩)) (hcpe ls m h3) h6 hnf
  obtain ⟨l, w1, w2, w3⟩ := wildcards_spec hs hA st.wild p.nsec3 (fun w x hw h1 h2 => by
    obtain ⟨_, _, c, ls', d⟩ := h6.trail.items (w, x) hw
    refine ⟨?_, hsuf d⟩
    rcases c with c | c
    · exact c
    · exfalso
      have hst : Step z.toZone q.type ⟨x, w, 39, subst w (z.target w 39) x⟩ := .dname c ((hreg ls' x d).1 w c)
      exact hnd _ _ (path_snoc d hst rfl) _ (List.mem_append.mpr (.inr (List.mem_singleton.mpr rfl))) rfl h2)
  refine ⟨ls, m, st, r, ⟨l, p.ds⟩, ?_, h2, h3, h4, h5, h8 ▸ h6, h7, h9, h10, ?_, w3⟩
  · unfold denial
    rw [s1]
    simp only [Res.bind_ok]
    rw [s2]
    simp only [Res.bind_ok, k1, w1]
  · rw [h8]
    refine ⟨fun a => ?_, fun a s b => ?_, fun a d hd => ?_⟩
    · obtain ⟨e, l, x1, x2, x3⟩ := k2.miss a
      exact ⟨e, l, w2 _ x1, x2.mono w2, x3.mono w2⟩
    · obtain ⟨x1, x2⟩ := k2.nodata a s b
      refine ⟨fun h => w2 _ (x1 h), fun h => ?_⟩
      obtain ⟨e, l, y1, y2⟩ := x2 h
      exact ⟨e, l, w2 _ y1, y2.mono w2⟩
    · obtain ⟨x1, x2⟩ := k2.deleg a d hd
      refine ⟨x1, fun h => ?_⟩
      obtain ⟨y1, y2, y3⟩ := x2 h
      refine ⟨y1, fun h => w2 _ (y2 h), fun h => ?_⟩
      obtain ⟨e, l, v1, v2⟩ := y3 h
      exact ⟨e, l, w2 _ v1, v2.mono w2⟩

/-! ## The records are those of the zone -/

/-- NSEC3 records of the zone, each once. -/
def Own (z : Zone3) (l : List Nat) : Prop := l.Nodup ∧ ∀ h ∈ l, h ∈ z.tree

theorem own_nil (z : Zone3) : Own z [] := ⟨by simp, by simp⟩

theorem own_put {z : Zone3} {acc : List Nat} {o : Option Nat} (h : Own z acc) (hx : ∀ x, o = some x → x ∈ z.tree) :
    Own z (putNsec3 acc o) := by
  unfold putNsec3
  split
  · exact h
  · next x =>
    split
    · exact h
    · next h2 =>
      simp only [List.contains_iff_mem] at h2
      refine ⟨?_, fun y hy => ?_⟩
      · rw [List.nodup_append]
        refine ⟨h.1, by simp, fun a ha b hb => ?_⟩
        simp only [List.mem_singleton] at hb
        rintro rfl
        exact h2 (hb ▸ ha)
      · rcases List.mem_append.mp hy with k | k
        · exact h.2 y k
        · simp only [List.mem_singleton] at k
          rw [k]; exact hx x rfl

theorem get_mem {z : Zone3} {x : Name} : ∀ y, nsec3Get z x = some y → y ∈ z.tree := by
  intro y h
  unfold nsec3Get at h
  split at h
  · next h' => cases h; simpa using h'
  · cases h

theorem find_mem {z : Zone3} {h : Nat} {b : Bool} {o : Option Nat} (hf : findNsec3 z h = .ok (b, o)) :
    ∀ y, o = some y → y ∈ z.tree := by
  intro y hy
  unfold findNsec3 at hf
  split at hf
  · cases hf
  · simp only [Res.ok.injEq, Prod.mk.injEq] at hf
    have := List.mem_of_find?_eq_some (hf.2.trans hy)
    simp only [List.mem_append, List.mem_reverse, List.mem_filter] at this
    rcases this with h | h <;> exact h.1

theorem own_covering {z : Zone3} {acc l : List Nat} {x : Name} (h : Own z acc) (hl : putCovering z acc x = .ok l) : Own z l := by
  unfold putCovering at hl
  split at hl
  · cases hl; exact h
  · cases e : findNsec3 z (z.hash x) with
    | ok r =>
      rw [e] at hl
      obtain ⟨b, o⟩ := r
      simp only [Res.bind_ok] at hl
      split at hl
      · cases hl
      · cases hl; exact own_put h (find_mem e)
    | err _ => rw [e] at hl; simp at hl
    | ub => rw [e] at hl; simp at hl

theorem own_closer {z : Zone3} {acc l : List Nat} {e x : Name} (h : Own z acc) (hl : putNextCloser z acc e x = .ok l) : Own z l := by
  unfold putNextCloser at hl
  cases k : nextCloser e x with
  | ok r => rw [k] at hl; exact own_covering h hl
  | err _ => rw [k] at hl; simp at hl
  | ub => rw [k] at hl; simp at hl

theorem own_encloser {z : Zone3} {acc l : List Nat} {e x : Name} (h : Own z acc) (hl : encloserProof z acc x e = .ok l) : Own z l :=
  own_closer (own_put h get_mem) hl

theorem own_nxdomain {z : Zone3} {n : Name} {l : List Nat} (hl : nxdomain z n = .ok l) : Own z l := by
  unfold nxdomain at hl
  cases k : findDname z.toZone n with
  | err _ => rw [k] at hl; simp at hl
  | ub => rw [k] at hl; simp at hl
  | ok f =>
    rw [k] at hl
    simp only [Res.bind_ok] at hl
    cases f with
    | notFound c =>
      simp only at hl
      cases k2 : nsec3Encloser z c with
      | err _ => rw [k2] at hl; simp at hl
      | ub => rw [k2] at hl; simp at hl
      | ok e =>
        rw [k2] at hl
        simp only [Res.bind_ok] at hl
        cases k3 : encloserProof z [] n e with
        | err _ => rw [k3] at hl; simp at hl
        | ub => rw [k3] at hl; simp at hl
        | ok acc =>
          rw [k3] at hl
          simp only [Res.bind_ok] at hl
          have ho := own_encloser (own_nil z) k3
          unfold putWildcard at hl
          split at hl
          · cases hl
          · cases k4 : findNsec3 z (z.hash ([42] :: e)) with
            | err _ => rw [k4] at hl; simp at hl
            | ub => rw [k4] at hl; simp at hl
            | ok r =>
              rw [k4] at hl
              obtain ⟨b, o⟩ := r
              simp only [Res.bind_ok] at hl
              split at hl
              · cases hl
              · cases hl; exact own_put ho (find_mem k4)
    | found _ => simp at hl
    | out => simp at hl

theorem own_nodata {z : Zone3} {n x : Name} {l : List Nat} (hl : nodata z n x = .ok l) : Own z l := by
  have h0 : Own z (putNsec3 [] (nsec3Get z x)) := own_put (own_nil z) get_mem
  unfold nodata at hl
  split at hl
  · cases k : findDname z.toZone n with
    | err _ => rw [k] at hl; simp at hl
    | ub => rw [k] at hl; simp at hl
    | ok f =>
      rw [k] at hl
      simp only [Res.bind_ok] at hl
      have hfin : ∀ c, (do
          let cpe ← nsec3Encloser z c
          encloserProof z (putNsec3 [] (nsec3Get z x)) n cpe) = .ok l → Own z l := by
        intro c hl
        cases k2 : nsec3Encloser z c with
        | err _ => rw [k2] at hl; simp at hl
        | ub => rw [k2] at hl; simp at hl
        | ok e => rw [k2] at hl; exact own_encloser h0 hl
      cases f with
      | notFound c => exact hfin c hl
      | found c => exact hfin c hl
      | out => simp at hl
  · cases hl; exact h0

theorem own_wildcards {z : Zone3} : ∀ (l : List (Name × Name)) (acc l' : List Nat), Own z acc →
    wildcards z l acc = .ok l' → Own z l'
  | [], acc, l', h, hl => by
    simp only [wildcards, Res.ok.injEq] at hl
    exact hl ▸ h
  | (w, n) :: l, acc, l', h, hl => by
    unfold wildcards at hl
    split at hl
    · cases k2 : nsec3Encloser z w.tail with
      | err _ => rw [k2] at hl; simp at hl
      | ub => rw [k2] at hl; simp at hl
      | ok e =>
        rw [k2] at hl
        simp only [Res.bind_ok] at hl
        cases k3 : putNextCloser z acc e n with
        | err _ => rw [k3] at hl; simp at hl
        | ub => rw [k3] at hl; simp at hl
        | ok a =>
          rw [k3] at hl
          exact own_wildcards l _ l' (own_closer h k3) hl
    · exact own_wildcards l acc l' h hl

theorem prove_own {z : Zone3} (wf : Wf z.toZone) {q : Req} {ls : List Link} {m : Name} {st : St} {σ : State}
    {n : Name} (f : Fin z.toZone q n ls m st σ) (hnf : σ ≠ .follow) {p : Denial} (hp : prove z (st, σ) = .ok p) :
    Own z p.nsec3 ∧ ∀ d, p.ds = some d → 43 ∈ (z.node d).types ∧ ∃ n, Cut z.toZone d n := by
  rcases f.spec with ⟨a, _⟩ | ⟨a, b⟩ | ⟨a, b⟩ | ⟨a, b⟩ | ⟨a, x, d, b1, b2, b3⟩
  · exact absurd a hnf
  · subst a
    simp only [prove, Res.ok.injEq] at hp
    rw [← hp]; exact ⟨own_nil z, by simp⟩
  · subst a
    simp only [prove] at hp
    cases e : nxdomain z st.name with
    | ok l =>
      rw [e] at hp
      simp only [Res.bind_ok, Res.ok.injEq] at hp
      rw [← hp]; exact ⟨own_nxdomain e, by simp⟩
    | err _ => rw [e] at hp; simp at hp
    | ub => rw [e] at hp; simp at hp
  · subst a
    obtain ⟨s, e1, e2⟩ := f.node rfl
    simp only [prove, e1] at hp
    cases e : nodata z st.name s with
    | ok l =>
      rw [e] at hp
      simp only [Res.bind_ok, Res.ok.injEq] at hp
      rw [← hp]; exact ⟨own_nodata e, by simp⟩
    | err _ => rw [e] at hp; simp at hp
    | ub => rw [e] at hp; simp at hp
  · subst a
    obtain ⟨d', e', hl⟩ := (ends_cases b3).2.2.2 rfl
    cases e'
    obtain ⟨n0, hc⟩ := referral_deleg hl
    simp only [prove, b1, b2, Res.bind_ok, dpSecurity] at hp
    split at hp
    · next h43 =>
      simp only [Res.ok.injEq] at hp
      rw [← hp]
      refine ⟨own_nil z, fun d' h => ?_⟩
      cases h
      exact ⟨h43, n0, hc⟩
    · cases e : nodata z st.name d with
      | ok l =>
        rw [e] at hp
        simp only [Res.bind_ok, Res.ok.injEq] at hp
        rw [← hp]; exact ⟨own_nodata e, by simp⟩
      | err _ => rw [e] at hp; simp at hp
      | ub => rw [e] at hp; simp at hp

theorem denial_own {z : Zone3} (wf : Wf z.toZone) {q : Req} (hu : Unlimited q) {n : Name} (hn : z.apex <:+ n)
    (hreg : Regular z.toZone q.type n) {p : Denial} (hp : denial z q n = .ok p) :
    Own z p.nsec3 ∧ ∀ d, p.ds = some d → 43 ∈ (z.node d).types ∧ ∃ n, Cut z.toZone d n := by
  obtain ⟨ls, m, st, σ, r, ⟨r0, s1, s2⟩, _, h2, h3, h4, h5, h6, h7, h8, h9, h10⟩ :=
    Nsecproof.solve_fin wf hu hn (fun ls m h => (hreg ls m h).2) (fun ls m h => (hreg ls m h).1)
  have hnf : σ ≠ .follow := h8 ▸ (ends_cases h9).1
  unfold denial at hp
  rw [s1] at hp
  simp only [Res.bind_ok] at hp
  rw [s2] at hp
  simp only [Res.bind_ok] at hp
  cases e : prove z (st, σ) with
  | ok d =>
    rw [e] at hp
    simp only [Res.bind_ok] at hp
    cases e2 : wildcards z st.wild d.nsec3 with
    | ok l =>
      rw [e2] at hp
      simp only [Res.bind_ok, Res.ok.injEq] at hp
      obtain ⟨k1, k2⟩ := prove_own wf h6 hnf e
      rw [← hp]
      exact ⟨own_wildcards _ _ _ k1 e2, k2⟩
    | err _ => rw [e2] at hp; simp at hp
    | ub => rw [e2] at hp; simp at hp
  | err _ => rw [e] at hp; simp at hp
  | ub => rw [e] at hp; simp at hp

end Knot.Nsec3proof
