import Verif.Nsecproof.Spec
import Verif.Answer.Lemmas7
import Verif.Nsecchain.Lemmas6
import Verif.Bitmap.Props
/-!
# NSEC proofs: gaps in the chain
-/
namespace Knot.Nsecproof
open Dname (Name canonCmp lowerName)
open Nsecchain (Included present)
open Answer

abbrev lt (a b : Name) : Prop := canonCmp a b = .lt

theorem lt_asymm {a b : Name} (h : lt a b) : ¬ lt b a := fun h' => Nsecchain.canon_asymm h h'
theorem lt_irrefl {a : Name} : ¬ lt a a := fun h => lt_asymm h h
theorem lt_trans {a b c : Name} (h : lt a b) (h' : lt b c) : lt a c := Dname.canonCmp_trans a b c h h'
theorem lt_tri (a b : Name) : a = b ∨ lt a b ∨ lt b a := by
  cases h : canonCmp a b with
  | lt => exact .inr (.inl h)
  | eq => exact .inl ((Dname.canonCmp_eq a b).mp h)
  | gt =>
    refine .inr (.inr ?_)
    unfold lt
    rw [Dname.canonCmp_swap a b, h]
    rfl

theorem lt_suffix {a b : Name} (h : a <:+ b) (hne : a ≠ b) : lt a b := by
  obtain ⟨t, rfl⟩ := h
  refine C04_parent_first _ _ ?_
  intro e; rw [e] at hne; exact hne rfl

/-! ## The next name -/

theorem next_spec {z : Zone} (hs : Signed z) {p : Name} (hp : p ∈ z.names) (hi : Included (z.node p)) :
    ∃ q x, (z.node p).nsec = [(x, Bitmap.encode (present (z.node p)))] ∧ lowerName x = q ∧ q ∈ z.names ∧
      Included (z.node q) ∧
      ((lt p q ∧ ∀ y ∈ z.names, Included (z.node y) → lt p y → y = q ∨ lt q y) ∨
       (q = z.apex ∧ ∀ y ∈ z.names, Included (z.node y) → ¬ lt p y)) := by
  obtain ⟨a, l0, hal, hai⟩ := hs.names.apex
  have haa : a = z.apex := by
    rcases lt_tri a z.apex with h | h | h
    · exact h
    · have h1 := hs.wf.closed.under a (by rw [hal]; simp)
      exact absurd h (lt_asymm (lt_suffix h1 (fun e => lt_irrefl (e ▸ h))))
    · have h1 := hs.wf.apex
      have h2 := hs.names.sorted
      rw [hal] at h1 h2
      rcases List.mem_cons.mp h1 with e | e
      · exact e.symm
      · exact absurd h (lt_asymm ((List.pairwise_cons.mp h2).1 _ e))
  have hsort : (z.names.filter (fun x => decide (Included (z.node x)))).Pairwise lt :=
    List.Pairwise.filter _ hs.names.sorted
  have hlinks := hs.valid.links _ rfl
  have hmem : ∀ y, y ∈ z.names.filter (fun x => decide (Included (z.node x))) ↔ y ∈ z.names ∧ Included (z.node y) := by
    intro y; rw [List.mem_filter]; simp
  have h0 : (z.names.filter (fun x => decide (Included (z.node x))))[0]? = some a := by
    rw [hal, List.filter_cons_of_pos (by simpa using hai)]; rfl
  generalize hL : z.names.filter (fun x => decide (Included (z.node x))) = L at *
  obtain ⟨i, hi1⟩ := List.getElem?_of_mem ((hmem p).mpr ⟨hp, hi⟩)
  have hil : i < L.length := by
    rcases Nat.lt_or_ge i L.length with h | h
    · exact h
    · rw [List.getElem?_eq_none h] at hi1; cases hi1
  have hord : ∀ (j k : Nat) (x y : Name), L[j]? = some x → L[k]? = some y → j < k → lt x y := by
    intro j k x y hx hy hjk
    obtain ⟨a1, a2⟩ := List.getElem?_eq_some_iff.mp hx
    obtain ⟨b1, b2⟩ := List.getElem?_eq_some_iff.mp hy
    have := List.pairwise_iff_getElem.mp hsort j k a1 b1 hjk
    rw [a2, b2] at this
    exact this
  by_cases hlast : i + 1 < L.length
  · have hq : L[i + 1]? = some L[i + 1] := List.getElem?_eq_getElem hlast
    obtain ⟨x, h1, h2⟩ := hlinks i p L[i + 1] hi1 (by rw [Nat.mod_eq_of_lt hlast]; exact hq)
    have hqm := (hmem L[i + 1]).mp (List.getElem_mem hlast)
    refine ⟨L[i + 1], x, h1, h2, hqm.1, hqm.2, .inl ⟨hord i (i + 1) _ _ hi1 hq (by omega), ?_⟩⟩
    intro y hy hyi hpy
    obtain ⟨j, hj⟩ := List.getElem?_of_mem ((hmem y).mpr ⟨hy, hyi⟩)
    rcases Nat.lt_trichotomy j (i + 1) with h | h | h
    · rcases Nat.lt_or_ge j i with h' | h'
      · exact absurd hpy (lt_asymm (hord j i _ _ hj hi1 h'))
      · have : j = i := by omega
        rw [this, hi1] at hj
        cases hj
        exact absurd hpy lt_irrefl
    · rw [h, hq] at hj
      cases hj
      exact .inl rfl
    · exact .inr (hord _ _ _ _ hq hj h)
  · have hil' : i + 1 = L.length := by omega
    obtain ⟨x, h1, h2⟩ := hlinks i p a hi1 (by rw [hil', Nat.mod_self]; exact h0)
    refine ⟨a, x, h1, h2, by rw [hal]; simp, hai, .inr ⟨haa, ?_⟩⟩
    intro y hy hyi hpy
    obtain ⟨j, hj⟩ := List.getElem?_of_mem ((hmem y).mpr ⟨hy, hyi⟩)
    have hjl : j < L.length := (List.getElem?_eq_some_iff.mp hj).1
    rcases Nat.lt_or_ge j i with h' | h'
    · exact lt_asymm hpy (hord j i _ _ hj hi1 h')
    · have : j = i := by omega
      rw [this, hi1] at hj
      cases hj
      exact lt_irrefl hpy

/-! ## Gaps -/

/-- A name between two neighbours in the chain. -/
structure Gap (z : Zone) (p q m : Name) : Prop where
  pm : p ∈ z.names
  pi : Included (z.node p)
  qm : q ∈ z.names
  link : ∃ x, (z.node p).nsec = [(x, Bitmap.encode (present (z.node p)))] ∧ lowerName x = q
  lt : lt p m
  ni : m ∈ z.names → ¬ Included (z.node m)
  split : ∀ y ∈ z.names, Included (z.node y) → (y = p ∨ Nsecproof.lt y p) ∨
    (Nsecproof.lt m q ∧ Nsecproof.lt m y ∧ (y = q ∨ Nsecproof.lt q y))
  q_or : Nsecproof.lt m q ∨ q = z.apex

theorem gap_of_last {z : Zone} (hs : Signed z) {p m : Name} (hp : p ∈ z.names) (hi : Included (z.node p)) (hlt : lt p m)
    (hni : m ∈ z.names → ¬ Included (z.node m))
    (hlast : ∀ y ∈ z.names, Included (z.node y) → lt y m → y = p ∨ lt y p) : ∃ q, Gap z p q m := by
  obtain ⟨q, x, h1, h2, h3, h4, h5⟩ := next_spec hs hp hi
  have hmq : lt p q → lt m q := by
    intro hpq
    rcases lt_tri m q with e | h | h
    · exact absurd h4 (e ▸ hni (e ▸ h3))
    · exact h
    · rcases hlast q h3 h4 h with e | e
      · exact absurd (e ▸ hpq) lt_irrefl
      · exact absurd hpq (lt_asymm e)
  refine ⟨q, hp, hi, h3, ⟨x, h1, h2⟩, hlt, hni, ?_, ?_⟩
  · intro y hy hyi
    rcases lt_tri y p with e | h | h
    · exact .inl (.inl e)
    · exact .inl (.inr h)
    · right
      rcases h5 with ⟨a, b⟩ | ⟨a, b⟩
      · have hm := hmq a
        refine ⟨hm, ?_, b y hy hyi h⟩
        rcases b y hy hyi h with e | e
        · rw [e]; exact hm
        · exact lt_trans hm e
      · exact absurd h (b y hy hyi)
  · rcases h5 with ⟨a, b⟩ | ⟨a, b⟩
    · exact .inl (hmq a)
    · exact .inr a

theorem nsec_included {z : Zone} (hs : Signed z) {p : Name} (hp : p ∈ z.names) (h : (z.node p).nsec ≠ []) :
    Included (z.node p) := by
  by_cases hi : Included (z.node p)
  · exact hi
  · exact absurd (hs.valid.others p hp hi) h

/-- Another zone with the NSEC. -/
theorem gap_transfer {z z' : Zone} (hs' : Signed z') (ha : z'.apex = z.apex) {p q m : Name} (g : Gap z p q m)
    (hp : p ∈ z'.names) (hn : (z'.node p).nsec = (z.node p).nsec) : Gap z' p q m := by
  obtain ⟨x, hx1, hx2⟩ := g.link
  have hi' : Included (z'.node p) := nsec_included hs' hp (by rw [hn, hx1]; simp)
  obtain ⟨q', x', h1, h2, h3, h4, h5⟩ := next_spec hs' hp hi'
  have hqq : q' = q := by
    rw [hn, hx1] at h1
    simp only [List.cons.injEq, Prod.mk.injEq, and_true] at h1
    rw [← h2, ← hx2, h1.1]
  subst hqq
  have hap : ¬ lt p z.apex := by
    rw [← ha]
    intro h
    exact lt_asymm h (lt_suffix (hs'.wf.closed.under p hp) (fun e => lt_irrefl (e ▸ h)))
  have hmq : lt p q' → lt m q' := by
    intro hpq
    rcases g.q_or with h | h
    · exact h
    · exact absurd (h ▸ hpq) hap
  refine ⟨hp, hi', h3, ⟨x', h1, h2⟩, g.lt, ?_, ?_, ?_⟩
  · intro hm hmi
    rcases h5 with ⟨a, b⟩ | ⟨a, b⟩
    · have := hmq a
      rcases b m hm hmi g.lt with e | e
      · exact lt_irrefl (e ▸ this)
      · exact lt_asymm this e
    · exact b m hm hmi g.lt
  · intro y hy hyi
    rcases lt_tri y p with e | h | h
    · exact .inl (.inl e)
    · exact .inl (.inr h)
    · right
      rcases h5 with ⟨a, b⟩ | ⟨a, b⟩
      · have hm := hmq a
        refine ⟨hm, ?_, b y hy hyi h⟩
        rcases b y hy hyi h with e | e
        · rw [e]; exact hm
        · exact lt_trans hm e
      · exact absurd h (b y hy hyi)
  · rcases h5 with ⟨a, b⟩ | ⟨a, b⟩
    · exact .inl (hmq a)
    · exact .inr a

/-! ## Types -/

theorem present_same {z z' : Zone} (hs : Signed z) (hs' : Signed z') {p : Name} (hp : p ∈ z.names) (hp' : p ∈ z'.names)
    (h0 : (z.node p).nsec ≠ []) (hn : (z'.node p).nsec = (z.node p).nsec) {t : Nat} (ht : t < 65536) :
    present (z'.node p) t = present (z.node p) t := by
  obtain ⟨_, x, h1, _⟩ := next_spec hs hp (nsec_included hs hp h0)
  obtain ⟨_, x', h1', _⟩ := next_spec hs' hp' (nsec_included hs' hp' (hn ▸ h0))
  rw [hn, h1] at h1'
  simp only [List.cons.injEq, Prod.mk.injEq, and_true] at h1'
  have e := h1'.2
  have a := Bitmap.contains_encode (present (z.node p)) t ht
  have b := Bitmap.contains_encode (present (z'.node p)) t ht
  rw [← e, a] at b
  exact (Res.ok.inj b).symm

theorem present_ns {n : Nsecchain.Node} : present n 2 = true ↔ 2 ∈ n.types := by
  simp [present]

theorem present_ds {n : Nsecchain.Node} : present n 43 = true ↔ 43 ∈ n.types := by
  simp [present]

theorem present_owns {z : Zone} {x : Name} (hd : (z.node x).deleg = false) (t : Nat) :
    present (z.node x) t = true ↔ Owns z x t := by
  simp only [present, hd, decide_eq_true_eq, Owns, Bool.false_eq_true, false_imp_iff, and_true]
  constructor
  · rintro (h | h | h)
    · exact .inl h
    · exact .inr (.inr h)
    · exact .inr (.inl h)
  · rintro (h | h | h)
    · exact .inl h
    · exact .inr (.inr h)
    · exact .inr (.inl h)

theorem deleg_ns {z : Zone} (hs : Signed z) {p : Name} (hp : p ∈ z.names) (hi : Included (z.node p)) :
    (z.node p).deleg = true ↔ 2 ∈ (z.node p).types ∧ p ≠ z.apex := by
  obtain ⟨h1, h2⟩ := marks_spec hs.wf hp
  rw [h2]
  constructor
  · rintro ⟨⟨_, a, b⟩, _⟩; exact ⟨b, a⟩
  · rintro ⟨a, b⟩
    refine ⟨⟨hp, b, a⟩, fun d hd hdp => ?_⟩
    by_cases e : d = p
    · exact e
    · have := h1.mpr ⟨d, hd, hdp, e⟩
      rw [hi.1] at this; cases this

theorem deleg_same {z z' : Zone} (hs : Signed z) (hs' : Signed z') (ha : z'.apex = z.apex) {p : Name} (hp : p ∈ z.names)
    (hp' : p ∈ z'.names) (h0 : (z.node p).nsec ≠ []) (hn : (z'.node p).nsec = (z.node p).nsec) :
    Deleg z' p ↔ Deleg z p := by
  have := present_same hs hs' hp hp' h0 hn (show 2 < 65536 by omega)
  unfold Deleg
  rw [← present_ns, ← present_ns, this, ha]
  simp [hp, hp']

theorem owns_same {z z' : Zone} (hs : Signed z) (hs' : Signed z') (ha : z'.apex = z.apex) {p : Name} (hp : p ∈ z.names)
    (hp' : p ∈ z'.names) (h0 : (z.node p).nsec ≠ []) (hn : (z'.node p).nsec = (z.node p).nsec)
    (hd : ¬ Deleg z p) (t : Nat) : Owns z' p t ↔ Owns z p t := by
  have hi := nsec_included hs hp h0
  have hi' := nsec_included hs' hp' (hn ▸ h0)
  have d1 : (z.node p).deleg = false := by
    cases e : (z.node p).deleg with
    | false => rfl
    | true =>
      obtain ⟨a, b⟩ := (deleg_ns hs hp hi).mp e
      exact absurd ⟨hp, b, a⟩ hd
  have d2 : (z'.node p).deleg = false := by
    cases e : (z'.node p).deleg with
    | false => rfl
    | true =>
      obtain ⟨a, b⟩ := (deleg_ns hs' hp' hi').mp e
      exact absurd ((deleg_same hs hs' ha hp hp' h0 hn).mp ⟨hp', b, a⟩) hd
  by_cases ht : t < 65536
  · rw [← present_owns d1, ← present_owns d2, present_same hs hs' hp hp' h0 hn ht]
  · constructor
    · rintro (h | h | h)
      · exact absurd (hs'.names.types p hp' t h) ht
      · omega
      · omega
    · rintro (h | h | h)
      · exact absurd (hs.names.types p hp t h) ht
      · omega
      · omega

end Knot.Nsecproof
