import Verif.Nsec3proof.Spec
import Verif.Nsecproof.Lemmas5
/-!
# NSEC3 proofs: the records put in the response
-/
namespace Knot.Nsec3proof
open Dname (Name Label)
open Answer

/-- Names with different hashes. -/
structure Sep (z : Zone3) (A : Name → Prop) : Prop where
  names : ∀ x ∈ z.names, A x
  inj : ∀ x y, A x → A y → z.hash x = z.hash y → x = y
  tree : ∀ x, A x → z.hash x ∈ z.tree → z.nsec3 (z.hash x) ≠ none

theorem Apart.sep {z z' : Zone3} {t : Nat} {n : Name} (h : Apart z z' t n) : Sep z (Asked z z' t n) :=
  ⟨fun _ h => .inl h, h.inj, h.tree⟩

theorem unlisted {z : Zone3} (hc : Chain z) {A : Name → Prop} (hA : Sep z A) {x : Name} (hx : A x) (h : ¬ Listed z x) :
    z.nsec3 (z.hash x) = none ∧ z.hash x ∉ z.tree := by
  have : z.nsec3 (z.hash x) = none := by
    cases e : z.nsec3 (z.hash x) with
    | none => rfl
    | some r =>
      obtain ⟨y, h1, h2, h3, _⟩ := hc.listed _ r e
      have := hA.inj y x (hA.names y h1) hx h3
      subst this
      exact absurd ⟨h1, h2, by rw [e]; simp⟩ h
  exact ⟨this, fun h => hA.tree x hx h this⟩

theorem auth_nonauth' {z : Zone} (wf : Wf z) {x : Name} (hx : x ∈ z.names) : Auth z 43 x ↔ (z.node x).nonauth = false := by
  refine ⟨auth_nonauth wf hx, fun h d h1 h2 => ⟨?_, rfl⟩⟩
  by_cases e : d = x
  · exact e
  · have := (marks_spec wf hx).1.mpr ⟨d, h1, h2, e⟩
    rw [h] at this; cases this

theorem auth_le {z : Zone} {x y : Name} (h : Auth z 43 x) (hy : y <:+ x) : Auth z 43 y := by
  intro d h1 h2
  refine ⟨?_, rfl⟩
  have := (h d h1 (h2.trans hy)).1
  rw [this] at h2
  rw [this]
  exact List.IsSuffix.eq_of_length h2 (Nat.le_antisymm h2.length_le hy.length_le)

theorem insecure_subtree {z : Zone3} (hp : Plan z) {x : Name} (h : Insecure z x) : subtreeAuth z x = false := by
  cases e : subtreeAuth z x with
  | false => rfl
  | true =>
    exfalso
    obtain ⟨y, hy, h1⟩ := List.any_eq_true.mp e
    simp only [Bool.and_eq_true, decide_eq_true_eq, setsAuth, Bool.not_eq_true'] at h1
    obtain ⟨hxy, hna, h2⟩ := h1
    have hau := (auth_nonauth' hp.wf hy).mpr hna
    cases hd : (z.node y).deleg with
    | true =>
      rw [hd] at h2
      simp only [if_true, List.contains_iff_mem] at h2
      obtain ⟨d, h3, h4⟩ := h y hy hxy (fun e => by rw [e] at h2; simp at h2)
      rw [(hau d h3.1 h3.2.1).1] at h4
      exact h4 h2
    | false =>
      rw [hd] at h2
      simp at h2
      obtain ⟨d, h3, h4⟩ := h y hy hxy h2
      have e := (hau d h3.1 h3.2.1).1
      subst e
      have := (deleg_iff_cut hp.wf hy).mpr h3
      rw [hd] at this; cases this

theorem subtree_insecure {z : Zone3} (hp : Plan z) {x : Name} (hx : x ∈ z.names) (hau : Auth z.toZone 43 x)
    (h : subtreeAuth z x = false) : Insecure z x := by
  have key : ∀ y ∈ z.names, x <:+ y → setsAuth (z.node y) = false := by
    intro y hy hxy
    cases e : setsAuth (z.node y) with
    | false => rfl
    | true =>
      have : subtreeAuth z x = true := List.any_eq_true.mpr ⟨y, hy, by simp [hxy, e]⟩
      rw [h] at this; cases this
  intro y hy hxy hne
  have hcut : ∃ d, Cut z.toZone d y := by
    apply Classical.byContradiction
    intro hno
    have hno : ∀ d, Deleg z.toZone d → ¬ d <:+ y := fun d h1 h2 => hno (cut_exists y ⟨d, h1, h2⟩)
    have h1 : (z.node y).nonauth = false := (auth_nonauth' hp.wf hy).mp (fun d h1 h2 => absurd h2 (hno d h1))
    have h2 : (z.node y).deleg = false := by
      cases e : (z.node y).deleg with
      | false => rfl
      | true => exact absurd (List.suffix_refl _) (hno y ((deleg_iff_cut hp.wf hy).mp e).1)
    have := key y hy hxy
    simp [setsAuth, h1, h2, hne] at this
  obtain ⟨d, hd⟩ := hcut
  refine ⟨d, hd, fun h43 => ?_⟩
  have hxd : x <:+ d := by
    rcases Nat.le_total x.length d.length with hl | hl
    · exact suffix_linear hxy hd.2.1 hl
    · have := suffix_linear hd.2.1 hxy hl
      rw [(hau d hd.1 this).1]; exact List.suffix_refl _
  have := key d hd.1.1 hxd
  have hm := cut_marked hp.wf hd
  have hna : (z.node d).nonauth = false := by
    refine (auth_nonauth' hp.wf hd.1.1).mp (fun d' h1 h2 => ⟨?_, rfl⟩)
    have h3 := hd.2.2 d' h1 (h2.trans hd.2.1)
    exact List.IsSuffix.eq_of_length h2 (Nat.le_antisymm h2.length_le h3.length_le)
  simp [setsAuth, hna, hm, h43] at this

theorem dsOptout_iff {z : Zone3} (hs : Signed z) {A : Name → Prop} (hA : Sep z A) {x : Name} (hx : x ∈ z.names)
    (hau : Auth z.toZone 43 x) : dsOptout z x = true ↔ ¬ Listed z x := by
  constructor
  · rintro h ⟨_, _, h3⟩
    have := hs.chain.tree _ h3
    simp [dsOptout, nsec3Get, this] at h
  · intro h
    obtain ⟨h1, h2⟩ := unlisted hs.chain hA (hA.names x hx) h
    have := insecure_subtree hs.plan (hs.chain.all x hx hau h1).1
    simp [dsOptout, nsec3Get, h2, this]

theorem inNsec3_iff {z : Zone3} (hs : Signed z) {A : Name → Prop} (hA : Sep z A) {x : Name} (hx : x ∈ z.names) :
    inNsec3 z x = true ↔ Listed z x := by
  unfold inNsec3
  constructor
  · intro h
    simp only [Bool.and_eq_true, Bool.not_eq_true'] at h
    have hau := (auth_nonauth' hs.plan.wf hx).mpr h.1
    apply Classical.byContradiction
    intro hn
    rw [(dsOptout_iff hs hA hx hau).mpr hn] at h
    simp at h
  · intro h
    have h1 := (auth_nonauth' hs.plan.wf hx).mp h.2.1
    have h2 : dsOptout z x = false := by
      cases e : dsOptout z x with
      | false => rfl
      | true => exact absurd h ((dsOptout_iff hs hA hx h.2.1).mp e)
    simp [h1, h2]

theorem apex_listed {z : Zone3} (hs : Signed z) : Listed z z.apex := by
  have hap : ∀ d, Deleg z.toZone d → ¬ d <:+ z.apex := by
    intro d h1 h2
    have h3 := hs.plan.wf.closed.under d h1.1
    exact h1.2.1 (List.IsSuffix.eq_of_length h2 (Nat.le_antisymm h2.length_le h3.length_le))
  have hau : Auth z.toZone 43 z.apex := fun d h1 h2 => absurd h2 (hap d h1)
  refine ⟨hs.plan.wf.apex, hau, fun h => ?_⟩
  obtain ⟨d, h1, _⟩ := (hs.chain.all _ hs.plan.wf.apex hau h).1 _ hs.plan.wf.apex (List.suffix_refl _)
    (fun e => by have := hs.plan.wf.soa; rw [e] at this; simp at this)
  exact hap d h1.1 h1.2.1

theorem nsec3Encloser_spec {z : Zone3} (hs : Signed z) {A : Name → Prop} (hA : Sep z A) : ∀ (c : Name), c ∈ z.names →
    ∃ e, nsec3Encloser z c = .ok e ∧ Listed z e ∧ e <:+ c ∧ ∀ x, Listed z x → x <:+ c → x <:+ e
  | [], hc => by
    have h := apex_listed hs
    have h0 : z.apex = [] := List.suffix_nil.mp (hs.plan.wf.closed.under _ hc)
    rw [h0] at h
    refine ⟨[], ?_, h, List.suffix_refl _, fun x _ h => h⟩
    simp [nsec3Encloser, (inNsec3_iff hs hA hc).mpr h]
  | l :: c, hc => by
    by_cases h : Listed z (l :: c)
    · exact ⟨l :: c, by simp [nsec3Encloser, (inNsec3_iff hs hA hc).mpr h], h, List.suffix_refl _, fun x _ h => h⟩
    · have h1 : l :: c ≠ z.apex := fun e => h (e ▸ apex_listed hs)
      have hc' : c ∈ z.names := by
        have := hs.plan.wf.closed.parents _ hc h1
        simpa using this
      obtain ⟨e, k1, k2, k3, k4⟩ := nsec3Encloser_spec hs hA c hc'
      have h2 : inNsec3 z (l :: c) = false := by
        cases e : inNsec3 z (l :: c) with
        | false => rfl
        | true => exact absurd ((inNsec3_iff hs hA hc).mp e) h
      refine ⟨e, by simp [nsec3Encloser, h1, h2, k1], k2, k3.trans (List.suffix_cons _ _), fun x hx hxc => ?_⟩
      rcases List.suffix_cons_iff.mp hxc with e | e
      · exact absurd (e ▸ hx) h
      · exact k4 x hx e

theorem nextCloser_spec {e n : Name} (h : e <:+ n) (hne : e ≠ n) : ∃ l, nextCloser e n = .ok (l :: e) ∧ (l :: e) <:+ n := by
  obtain ⟨u, rfl⟩ := h
  obtain ⟨v, a, rfl⟩ : ∃ v a, u = v ++ [a] := by
    rcases List.eq_nil_or_concat u with h | ⟨v, a, h⟩
    · exact absurd (by simp [h]) hne
    · exact ⟨v, a, by simpa using h⟩
  have hd : (v ++ [a] ++ e).drop ((v ++ [a] ++ e).length - e.length - 1) = a :: e := by
    simp only [List.append_assoc, List.length_append, List.length_cons, List.length_nil]
    rw [show v.length + (0 + 1 + e.length) - e.length - 1 = v.length by omega]
    simp
  refine ⟨a, ?_, ?_⟩
  · unfold nextCloser
    rw [if_neg (by simp only [List.length_append, List.length_cons, List.length_nil]; omega), hd]
    simp
  · rw [← hd]; exact List.drop_suffix _ _

/-! ## The record that covers a hash -/

/-- A record in the list covers the name. -/
def Cov (z : Zone3) (L : List Nat) (x : Name) : Prop :=
  ∃ h ∈ L, ∃ r, z.nsec3 h = some r ∧ Covers h r.next (z.hash x)

theorem Cov.mono {z : Zone3} {L L' : List Nat} {x : Name} (h : Cov z L x) (hl : ∀ y ∈ L, y ∈ L') : Cov z L' x := by
  obtain ⟨a, b, c⟩ := h
  exact ⟨a, hl a b, c⟩

theorem find_reverse {l : List Nat} (hs : l.Pairwise (· < ·)) {f : Nat → Bool} {p : Nat} (h : l.reverse.find? f = some p) :
    p ∈ l ∧ f p = true ∧ ∀ y ∈ l, f y = true → y ≤ p := by
  obtain ⟨h1, as, bs, h2, h3⟩ := List.find?_eq_some_iff_append.mp h
  have hl : l = bs.reverse ++ p :: as.reverse := by
    have := congrArg List.reverse h2
    simpa using this
  refine ⟨by rw [hl]; simp, h1, fun y hy hf => ?_⟩
  rw [hl] at hy hs
  rcases List.mem_append.mp hy with h | h
  · exact Nat.le_of_lt ((List.pairwise_append.mp hs).2.2 y h p (by simp))
  · rcases List.mem_cons.mp h with h | h
    · omega
    · have := h3 y (by simpa using h)
      rw [hf] at this
      simp at this

theorem findPrev_spec {z : Zone3} (hs : Signed z) {h : Nat} (hn : z.nsec3 h = none) (ht : h ∉ z.tree) :
    ∃ p r, findNsec3 z h = .ok (false, some p) ∧ z.nsec3 p = some r ∧ Covers p r.next h := by
  have hap := apex_listed hs
  have hat := hs.chain.tree _ hap.2.2
  have hne : z.tree ≠ [] := fun e => by rw [e] at hat; simp at hat
  have hA := List.Pairwise.filter (fun x => decide (x < h)) hs.chain.sorted
  have hB := List.Pairwise.filter (fun x => decide (h ≤ x)) hs.chain.sorted
  have hstart : ∀ {o}, ((z.tree.filter (fun x => x < h)).reverse ++ (z.tree.filter (fun x => h ≤ x)).reverse).find?
      (fun x => (z.nsec3 x).isSome) = o → findNsec3 z h = .ok (false, o) := by
    intro o ho
    unfold findNsec3
    rw [if_neg hne, ho]
    simp [ht]
  cases ea : (z.tree.filter (fun x => x < h)).reverse.find? (fun x => (z.nsec3 x).isSome) with
  | some p =>
    obtain ⟨h1, h2, h3⟩ := find_reverse hA ea
    obtain ⟨r, hr⟩ := Option.isSome_iff_exists.mp h2
    obtain ⟨k1, k2⟩ := hs.chain.links p r hr
    simp only [List.mem_filter, decide_eq_true_eq] at h1 h3
    refine ⟨p, r, hstart (by rw [List.find?_append, ea]; rfl), hr, ?_⟩
    by_cases hle : r.next ≤ p
    · exact .inr ⟨hle, .inl h1.2⟩
    · refine .inl ⟨h1.2, ?_⟩
      rcases Nat.lt_trichotomy h r.next with g | g | g
      · exact g
      · rw [← g] at k1; exact absurd hn k1
      · have := h3 r.next ⟨hs.chain.tree _ k1, g⟩ (Option.isSome_iff_ne_none.mpr k1)
        omega
  | none =>
    have hno : ∀ y, z.nsec3 y ≠ none → h < y := by
      intro y hy
      rcases Nat.lt_trichotomy h y with g | g | g
      · exact g
      · rw [← g] at hy; exact absurd hn hy
      · have := List.find?_eq_none.mp ea y (by simpa using ⟨hs.chain.tree _ hy, g⟩)
        exact absurd (Option.isSome_iff_ne_none.mpr hy) this
    cases eb : (z.tree.filter (fun x => h ≤ x)).reverse.find? (fun x => (z.nsec3 x).isSome) with
    | none =>
      have := List.find?_eq_none.mp eb (z.hash z.apex)
        (by simpa using ⟨hat, Nat.le_of_lt (hno _ hap.2.2)⟩)
      exact absurd (Option.isSome_iff_ne_none.mpr hap.2.2) this
    | some p =>
      obtain ⟨h1, h2, h3⟩ := find_reverse hB eb
      obtain ⟨r, hr⟩ := Option.isSome_iff_exists.mp h2
      obtain ⟨k1, k2⟩ := hs.chain.links p r hr
      simp only [List.mem_filter, decide_eq_true_eq] at h1 h3
      have hq := hno _ k1
      refine ⟨p, r, hstart (by rw [List.find?_append, ea]; simpa using eb), hr, .inr ⟨?_, .inr hq⟩⟩
      exact h3 r.next ⟨hs.chain.tree _ k1, Nat.le_of_lt hq⟩ (Option.isSome_iff_ne_none.mpr k1)

theorem putNsec3_mono {acc : List Nat} {o : Option Nat} {y : Nat} (h : y ∈ acc) : y ∈ putNsec3 acc o := by
  unfold putNsec3
  split
  · exact h
  · split <;> simp [h]

theorem putNsec3_mem {acc : List Nat} {y : Nat} : y ∈ putNsec3 acc (some y) := by
  unfold putNsec3
  split
  · cases ‹some y = none›
  · next h =>
    cases h
    split
    · next h => simpa using h
    · simp

theorem tree_ne {z : Zone3} (hs : Signed z) : z.tree ≠ [] := by
  have := hs.chain.tree _ (apex_listed hs).2.2
  intro e; rw [e] at this; simp at this

theorem putCovering_spec {z : Zone3} (hs : Signed z) {A : Name → Prop} (hA : Sep z A) {x : Name} (hx : A x) (h : ¬ Listed z x)
    (acc : List Nat) : ∃ l, putCovering z acc x = .ok l ∧ (∀ y ∈ acc, y ∈ l) ∧ Cov z l x := by
  obtain ⟨h1, h2⟩ := unlisted hs.chain hA hx h
  obtain ⟨p, r, k1, k2, k3⟩ := findPrev_spec hs h1 h2
  refine ⟨putNsec3 acc (some p), ?_, fun y hy => putNsec3_mono hy, p, putNsec3_mem, r, k2, k3⟩
  unfold putCovering
  rw [if_neg (tree_ne hs), k1]
  simp

/-- The next closer name is covered. -/
structure Near (z : Zone3) (L : List Nat) (e : Name) (l : Label) (m : Name) : Prop where
  listed : Listed z e
  suf : (l :: e) <:+ m
  un : ¬ Listed z (l :: e)
  cov : Cov z L (l :: e)

theorem Near.mono {z : Zone3} {L L' : List Nat} {e : Name} {l : Label} {m : Name} (h : Near z L e l m)
    (hl : ∀ y ∈ L, y ∈ L') : Near z L' e l m := ⟨h.listed, h.suf, h.un, h.cov.mono hl⟩

theorem nextCloser_cov {z : Zone3} (hs : Signed z) {A : Name → Prop} (hA : Sep z A) {e n : Name} (hn : ∀ x, x <:+ n → A x)
    (he : Provable z e n) (hne : e ≠ n) (acc : List Nat) :
    ∃ l', putNextCloser z acc e n = .ok l' ∧ (∀ y ∈ acc, y ∈ l') ∧ ∃ l, Near z l' e l n := by
  obtain ⟨l, h1, h2⟩ := nextCloser_spec he.2.1 hne
  have hu : ¬ Listed z (l :: e) := fun h => by
    have := (he.2.2 _ h h2).length_le
    simp at this
    omega
  obtain ⟨l', k1, k2, k3⟩ := putCovering_spec hs hA (hn _ h2) hu acc
  exact ⟨l', by simp [putNextCloser, h1, k1], k2, l, he.1, h2, hu, k3⟩

theorem nsec3Get_listed {z : Zone3} (hs : Signed z) {x : Name} (h : Listed z x) : nsec3Get z x = some (z.hash x) := by
  simp [nsec3Get, hs.chain.tree _ h.2.2]

theorem encloserProof_spec {z : Zone3} (hs : Signed z) {A : Name → Prop} (hA : Sep z A) {e n : Name} (hn : ∀ x, x <:+ n → A x)
    (he : Provable z e n) (hne : e ≠ n) (acc : List Nat) :
    ∃ l', encloserProof z acc n e = .ok l' ∧ (∀ y ∈ acc, y ∈ l') ∧ z.hash e ∈ l' ∧ ∃ l, Near z l' e l n := by
  obtain ⟨l', k1, k2, k3⟩ := nextCloser_cov hs hA hn he hne (putNsec3 acc (nsec3Get z e))
  refine ⟨l', k1, fun y hy => k2 y (putNsec3_mono hy), k2 _ ?_, k3⟩
  rw [nsec3Get_listed hs he.1]; exact putNsec3_mem

/-- The closest provable encloser from the closest encloser. -/
theorem provable_of {z : Zone3} (hs : Signed z) {A : Name → Prop} (hA : Sep z A) {c n : Name} (hc : Encloser z.toZone c n) :
    ∃ e, nsec3Encloser z c = .ok e ∧ Provable z e n := by
  obtain ⟨e, h1, h2, h3, h4⟩ := nsec3Encloser_spec hs hA c hc.1
  exact ⟨e, h1, h2, h3.trans hc.2.1, fun x hx hxn => h4 x hx (hc.2.2 x hx.1 hxn)⟩

theorem provable_unique {z : Zone3} {e e' n : Name} (h : Provable z e n) (h' : Provable z e' n) : e = e' := by
  have h1 := h.2.2 e' h'.1 h'.2.1
  have h2 := h'.2.2 e h.1 h.2.1
  exact List.IsSuffix.eq_of_length h2 (Nat.le_antisymm h2.length_le h1.length_le)

theorem nodata_spec {z : Zone3} (hs : Signed z) {A : Name → Prop} (hA : Sep z A) {n x : Name} (hn : ∀ x, x <:+ n → A x)
    (hap : z.apex <:+ n) (hx : x ∈ z.names) (hau : Auth z.toZone 43 x)
    (hl : (Wild x ∧ ¬ Wild n) ∨ ¬ Listed z x → ¬ Listed z n) :
    ∃ l', nodata z n x = .ok l' ∧ (Listed z x → z.hash x ∈ l') ∧
      ((Wild x ∧ ¬ Wild n) ∨ ¬ Listed z x → ∃ e l, z.hash e ∈ l' ∧ Near z l' e l n) := by
  have hw : expanded x n = true ↔ Wild x ∧ ¬ Wild n := by
    unfold expanded
    simp only [Bool.and_eq_true, Bool.not_eq_true']
    rw [wildcard_iff, wildcard_false]
    exact And.comm
  have hcond : (expanded x n || dsOptout z x) = true ↔ (Wild x ∧ ¬ Wild n) ∨ ¬ Listed z x := by
    rw [Bool.or_eq_true, hw, dsOptout_iff hs hA hx hau]
  unfold nodata
  by_cases hc : (Wild x ∧ ¬ Wild n) ∨ ¬ Listed z x
  · rw [if_pos (hcond.mpr hc)]
    have hnl := hl hc
    have hfin : ∀ c, Encloser z.toZone c n → ∃ l', (do
        let cpe ← nsec3Encloser z c
        encloserProof z (putNsec3 [] (nsec3Get z x)) n cpe) = .ok l' ∧ (Listed z x → z.hash x ∈ l') ∧
        ∃ e l, z.hash e ∈ l' ∧ Near z l' e l n := by
      intro c he
      obtain ⟨e, h1, h2⟩ := provable_of hs hA he
      obtain ⟨l', k1, k2, k3, l, k4⟩ := encloserProof_spec hs hA hn h2 (fun h => hnl (h ▸ h2.1)) (putNsec3 [] (nsec3Get z x))
      refine ⟨l', by rw [h1]; exact k1, fun h => k2 _ ?_, e, l, k3, k4⟩
      rw [nsec3Get_listed hs h]; exact putNsec3_mem
    rcases find_spec hs.plan.wf n with ⟨h1, h2⟩ | ⟨h1, h2, h3⟩ | ⟨h1, h2, c, h3, h4⟩
    · exact absurd hap h1
    · obtain ⟨l', k1, k2, k3⟩ := hfin n ⟨h2, List.suffix_refl _, fun _ _ h => h⟩
      exact ⟨l', by rw [h3]; exact k1, k2, fun _ => k3⟩
    · obtain ⟨l', k1, k2, k3⟩ := hfin c h3
      exact ⟨l', by rw [h4]; exact k1, k2, fun _ => k3⟩
  · rw [if_neg (by rw [hcond]; exact hc)]
    refine ⟨_, rfl, fun h => ?_, fun h => absurd h hc⟩
    rw [nsec3Get_listed hs h]; exact putNsec3_mem

theorem nxdomain_spec {z : Zone3} (hs : Signed z) {A : Name → Prop} (hA : Sep z A) {m c : Name} (hn : ∀ x, x <:+ m → A x)
    (hw : ∀ x, x <:+ m → A ([42] :: x)) (hm : m ∉ z.names) (hc : Encloser z.toZone c m)
    (hwild : ∀ e, Provable z e m → ¬ Listed z ([42] :: e)) (hsz : size m ≤ 255) (hlab : ∀ l ∈ m, 1 ≤ l.length) :
    ∃ l' e l, nxdomain z m = .ok l' ∧ z.hash e ∈ l' ∧ Near z l' e l m ∧ Cov z l' ([42] :: e) := by
  have hap := (hs.plan.wf.closed.under c hc.1).trans hc.2.1
  obtain ⟨e, h1, h2⟩ := provable_of hs hA hc
  have hne : e ≠ m := fun h => hm (h ▸ h2.1.1)
  obtain ⟨l', k1, k2, k3, l, k4⟩ := encloserProof_spec hs hA hn h2 hne []
  obtain ⟨u1, u2⟩ := unlisted hs.chain hA (hw e h2.2.1) (hwild e h2)
  obtain ⟨p, r, f1, f2, f3⟩ := findPrev_spec hs u1 u2
  have hse : ¬ size e + 2 > 255 := by
    obtain ⟨u, hu⟩ := h2.2.1
    have hne' : u ≠ [] := fun h => hne (by rw [← hu, h]; rfl)
    obtain ⟨a, u', hu'⟩ := List.exists_cons_of_ne_nil hne'
    have hl := hlab a (by rw [← hu, hu']; simp)
    rw [← hu, hu'] at hsz
    unfold size at hsz ⊢
    simp only [List.map_append, List.map_cons, List.cons_append, List.sum_cons, List.sum_append] at hsz
    omega
  refine ⟨putNsec3 l' (some p), e, l, ?_, putNsec3_mono k3, k4.mono (fun y hy => putNsec3_mono hy), p, putNsec3_mem, r, f2, f3⟩
  have hf : findDname z.toZone m = .ok (.notFound c) := ((find_spec hs.plan.wf m).resolve_left (fun h => h.1 hap)).elim
    (fun h => absurd h.2.1 hm) (fun ⟨_, _, c', h3, h4⟩ => by rw [h4, encloser_unique h3 hc])
  unfold nxdomain
  rw [hf]
  simp only [Res.bind_ok, h1, k1]
  unfold putWildcard
  rw [if_neg hse, f1]
  simp

theorem wildcards_spec {z : Zone3} (hs : Signed z) {A : Name → Prop} (hA : Sep z A) : ∀ (l : List (Name × Name)) (acc : List Nat),
    (∀ w n, (w, n) ∈ l → ¬ Wild n → Wild w → Source z.toZone w n ∧ ∀ x, x <:+ n → A x) →
    ∃ l', wildcards z l acc = .ok l' ∧ (∀ y ∈ acc, y ∈ l') ∧
      ∀ w n, (w, n) ∈ l → ¬ Wild n → Wild w → ∃ e k, Near z l' e k n := by
  intro l
  induction l with
  | nil => intro acc _; exact ⟨acc, rfl, fun _ h => h, by simp⟩
  | cons a l ih =>
    obtain ⟨w, n⟩ := a
    intro acc h
    have hr : ∀ w n, (w, n) ∈ l → ¬ Wild n → Wild w → Source z.toZone w n ∧ ∀ x, x <:+ n → A x :=
      fun w n hm => h w n (by simp [hm])
    unfold wildcards
    by_cases hc : ¬ Wild n ∧ Wild w
    · obtain ⟨h1, h2⟩ := h w n (by simp) hc.1 hc.2
      have hne : w ≠ n := fun e => hc.1 (e ▸ hc.2)
      rcases h1.2 with e | ⟨hm, c, hen, e⟩
      · exact absurd e hne
      · obtain ⟨cpe, f1, f2⟩ := provable_of hs hA hen
        obtain ⟨l1, k1, k2, k, k3⟩ := nextCloser_cov hs hA h2 f2 (fun e => hm (e ▸ f2.1.1)) acc
        obtain ⟨l', j1, j2, j3⟩ := ih l1 hr
        rw [if_pos (by simp [expanded, wildcard_false.mpr hc.1, wildcard_iff.mpr hc.2]), e]
        refine ⟨l', by simp [f1, k1, j1], fun y hy => j2 y (k2 y hy), fun w' n' hm' a b => ?_⟩
        rcases List.mem_cons.mp hm' with e | hm'
        · cases e
          exact ⟨cpe, k, k3.mono j2⟩
        · exact j3 w' n' hm' a b
    · obtain ⟨l', k1, k2, k3⟩ := ih acc hr
      rw [if_neg (by
        intro hh
        simp only [expanded, Bool.and_eq_true, Bool.not_eq_true'] at hh
        exact hc ⟨wildcard_false.mp hh.1, wildcard_iff.mp hh.2⟩)]
      refine ⟨l', k1, k2, fun w' n' hm a b => ?_⟩
      rcases List.mem_cons.mp hm with e | hm
      · cases e
        exact absurd ⟨a, b⟩ hc
      · exact k3 w' n' hm a b

end Knot.Nsec3proof
