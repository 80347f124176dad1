import Verif.Adjust.Lemmas
/-! # Lemmas for C54: a pass over the zone -/
namespace Knot.Adjust

/-- What the callback does with the flags of any node. -/
def after (nd : Node) (fl : Name → Fl) (m : Name) : Fl :=
  let own := ownFlags nd (if nd.name = [] then none else some (fl nd.name.dropLast))
  let f := put fl nd.name own.1 m
  { f with sauth := f.sauth || (own.2 && decide (m <+: nd.name)),
           sdata := f.sdata || (nonDnssec nd && decide (m <+: nd.name)) }

theorem own_fresh (nd : Node) (p : Option Fl) :
    (ownFlags nd p).1.sauth = false ∧ (ownFlags nd p).1.sdata = false := by
  unfold ownFlags
  split
  · exact ⟨rfl, rfl⟩
  · split <;> exact ⟨rfl, rfl⟩

theorem cbFlags_spec {nd : Node} {fl : Name → Fl}
    (h1 : ∀ i, i + 1 < nd.name.length → (fl (nd.name.take (i + 1))).sauth = true →
      (fl (nd.name.take i)).sauth = true)
    (h2 : ∀ i, i + 1 < nd.name.length → (fl (nd.name.take (i + 1))).sdata = true →
      (fl (nd.name.take i)).sdata = true) (m : Name) :
    cbFlags nd fl m = after nd fl m := by
  have hne : ∀ i, i < nd.name.length → nd.name.take i ≠ nd.name := by
    intro i hi he
    have := congrArg List.length he
    rw [List.length_take] at this
    omega
  unfold cbFlags after
  dsimp only
  have hfresh := own_fresh nd (if nd.name = [] then none else some (fl nd.name.dropLast))
  generalize ownFlags nd (if nd.name = [] then none else some (fl nd.name.dropLast)) = own at hfresh ⊢
  have hup1 : Up (·.sauth) (put fl nd.name own.1) nd.name nd.name.length := by
    intro i hi h
    by_cases hl : i + 1 = nd.name.length
    · rw [hl, List.take_length, put_same] at h
      exact absurd (hfresh.1.symm.trans h) (by simp)
    · rw [put_other (hne _ (by omega))] at h ⊢
      exact h1 i (by omega) h
  have hup2 : Up (·.sdata) (put fl nd.name own.1) nd.name nd.name.length := by
    intro i hi h
    by_cases hl : i + 1 = nd.name.length
    · rw [hl, List.take_length, put_same] at h
      exact absurd (hfresh.2.symm.trans h) (by simp)
    · rw [put_other (hne _ (by omega))] at h ⊢
      exact h2 i (by omega) h
  generalize put fl nd.name own.1 = f0 at hup1 hup2 ⊢
  -- the first flag
  have hA : ∀ m, (if own.2 = true then
        setUp (·.sauth) (fun f => { f with sauth := true }) nd.name nd.name.length f0 else f0) m =
      { f0 m with sauth := (f0 m).sauth || (own.2 && decide (m <+: nd.name)) } := by
    intro m
    cases ho : own.2
    · rw [if_neg (by simp)]
      simp
    · rw [if_pos rfl, setUp_spec (fun _ => rfl) nd.name _ _ (Nat.le_refl _) hup1]
      by_cases hp : m <+: nd.name
      · have := hp.length_le
        cases hs : (f0 m).sauth
        · rw [if_pos ⟨hp, this, rfl⟩]; simp [hp]
        · rw [if_neg (by simp)]; simp only [Bool.true_or]; rw [← hs]
      · rw [if_neg (fun h => hp h.1)]; simp [hp]
  generalize (if own.2 = true then
        setUp (·.sauth) (fun f => { f with sauth := true }) nd.name nd.name.length f0 else f0) = f1 at hA ⊢
  have hup3 : Up (·.sdata) f1 nd.name nd.name.length := by
    intro i hi h
    rw [hA] at h ⊢
    exact hup2 i hi h
  cases ho : nonDnssec nd
  · rw [if_neg (by simp), hA]; simp
  · rw [if_pos rfl, setUp_spec (fun _ => rfl) nd.name _ _ (Nat.le_refl _) hup3, hA]
    by_cases hp : m <+: nd.name
    · have := hp.length_le
      cases hs : (f0 m).sdata
      · rw [if_pos ⟨hp, this, rfl⟩]; simp [hp]
      · rw [if_neg (by simp)]; simp only [Bool.true_or]; rw [← hs]
    · rw [if_neg (fun h => hp h.1)]; simp [hp]

/-- The flags after a part of the zone. -/
structure Part (z : Zone) (fl0 : Name → Fl) (l : Zone) (fl : Name → Fl) : Prop where
  nonauth : ∀ nd ∈ l, ((fl nd.name).nonauth = true ↔ Below z nd.name)
  deleg : ∀ nd ∈ l, ((fl nd.name).deleg = true ↔ Cut z nd.name ∧ ¬ Below z nd.name)
  sauth : ∀ nd ∈ l, ((fl nd.name).sauth = true ↔ ∃ d ∈ l, nd.name <+: d.name ∧ AuthData z d.name)
  sdata : ∀ nd ∈ l, ((fl nd.name).sdata = true ↔ ∃ d ∈ l, nd.name <+: d.name ∧ Data z d.name)
  rest : ∀ m, (∀ nd ∈ l, nd.name ≠ m) → fl m = fl0 m

/-- Ancestors come first. -/
theorem ancestor_first {z l r : Zone} {nd : Node} (hw : WF z) (hz : z = l ++ nd :: r) {m : Name}
    (hp : m <+: nd.name) (hne : m ≠ nd.name) : ∃ p ∈ l, p.name = m := by
  obtain ⟨p, hpz, hpn⟩ := hw.closed nd (by rw [hz]; simp) m hp
  have hs := hw.sorted
  rw [hz, List.pairwise_append, List.pairwise_cons] at hs
  rw [hz] at hpz
  rcases List.mem_append.mp hpz with h | h
  · exact ⟨p, h, hpn⟩
  · exfalso
    have hlt := prefix_lt hp hne
    rcases List.mem_cons.mp h with h | h
    · rw [h] at hpn; exact hne hpn.symm
    · have := hs.2.1.1 p h
      rw [hpn] at this
      exact name_asymm hlt this

theorem part_step {z l r : Zone} {nd : Node} {fl0 fl : Name → Fl} (hw : WF z) (hz : z = l ++ nd :: r)
    (h : Part z fl0 l fl) : Part z fl0 (l ++ [nd]) (cbFlags nd fl) := by
  have hnd : nd ∈ z := by rw [hz]; simp
  have hlz : ∀ x ∈ l, x ∈ z := by intro x hx; rw [hz]; exact List.mem_append_left _ hx
  have hnl : ∀ x ∈ l, x.name ≠ nd.name := by
    intro x hx he
    have hs := hw.sorted
    rw [hz, List.pairwise_append] at hs
    have := hs.2.2 x hx nd (by simp)
    rw [he] at this
    exact name_irrefl _ this
  have hanc : ∀ i, i < nd.name.length → ∃ p ∈ l, p.name = nd.name.take i := by
    intro i hi
    apply ancestor_first hw hz (List.take_prefix _ _)
    intro he
    have := congrArg List.length he
    rw [List.length_take] at this
    omega
  have hmono : ∀ i j, i ≤ j → nd.name.take i <+: nd.name.take j := by
    intro i j hij
    exact List.prefix_of_prefix_length_le (List.take_prefix _ _) (List.take_prefix _ _)
      (by rw [List.length_take, List.length_take]; omega)
  have hspec : ∀ m, cbFlags nd fl m = after nd fl m := by
    apply cbFlags_spec
    · intro i hi hs
      obtain ⟨p, hp, hpn⟩ := hanc (i + 1) hi
      obtain ⟨q, hq, hqn⟩ := hanc i (by omega)
      rw [← hpn] at hs
      obtain ⟨d, hd, h1, h2⟩ := (h.sauth p hp).mp hs
      rw [← hqn]
      refine (h.sauth q hq).mpr ⟨d, hd, ?_, h2⟩
      rw [hqn]
      rw [hpn] at h1
      exact (hmono i (i + 1) (by omega)).trans h1
    · intro i hi hs
      obtain ⟨p, hp, hpn⟩ := hanc (i + 1) hi
      obtain ⟨q, hq, hqn⟩ := hanc i (by omega)
      rw [← hpn] at hs
      obtain ⟨d, hd, h1, h2⟩ := (h.sdata p hp).mp hs
      rw [← hqn]
      refine (h.sdata q hq).mpr ⟨d, hd, ?_, h2⟩
      rw [hqn]
      rw [hpn] at h1
      exact (hmono i (i + 1) (by omega)).trans h1
  -- the node itself
  have hbelow : (((if nd.name = [] then none else some (fl nd.name.dropLast)) : Option Fl).any
      (fun p => p.deleg || p.nonauth)) = true ↔ Below z nd.name := by
    by_cases hne : nd.name = []
    · rw [if_pos hne, hne]
      simp only [Option.any_none, Bool.false_eq_true, false_iff]
      exact not_below_apex z
    · rw [if_neg hne, below_iff hne]
      obtain ⟨p, hp, hpn⟩ := ancestor_first hw hz (List.dropLast_prefix nd.name) (dropLast_ne hne)
      rw [Option.any_some, Bool.or_eq_true, ← hpn, h.deleg p hp, h.nonauth p hp]
      constructor
      · rintro (h1 | h1)
        · exact .inr h1.1
        · exact .inl h1
      · rintro (h1 | h1)
        · exact .inr h1
        · by_cases hb : Below z p.name
          · exact .inr hb
          · exact .inl ⟨h1, hb⟩
  have hown : ((ownFlags nd (if nd.name = [] then none else some (fl nd.name.dropLast))).1.nonauth = true ↔
        Below z nd.name) ∧
      ((ownFlags nd (if nd.name = [] then none else some (fl nd.name.dropLast))).1.deleg = true ↔
        Cut z nd.name ∧ ¬ Below z nd.name) ∧
      ((ownFlags nd (if nd.name = [] then none else some (fl nd.name.dropLast))).2 = true ↔
        AuthData z nd.name) := by
    unfold ownFlags AuthData
    rw [cut_iff hw.sorted hnd, has_iff hw.sorted hnd, data_iff hw.sorted hnd]
    by_cases hb : Below z nd.name
    · rw [if_pos (hbelow.mpr hb)]
      simp [hb]
    · rw [if_neg (fun h => hb (hbelow.mp h))]
      by_cases hc : (hasType nd tNS && decide (nd.name ≠ [])) = true
      · rw [if_pos hc]
        simp only [hb, hc, tDS]
        simp
      · rw [if_neg hc]
        simp only [hb, hc]
        simp
  obtain ⟨ho1, ho2, ho3⟩ := hown
  have hfresh := own_fresh nd (if nd.name = [] then none else some (fl nd.name.dropLast))
  have hself : after nd fl nd.name =
      { (ownFlags nd (if nd.name = [] then none else some (fl nd.name.dropLast))).1 with
        sauth := (ownFlags nd (if nd.name = [] then none else some (fl nd.name.dropLast))).2,
        sdata := nonDnssec nd } := by
    unfold after
    dsimp only
    rw [put_same, hfresh.1, hfresh.2]
    simp
  have hoth : ∀ m, m ≠ nd.name → after nd fl m =
      { fl m with
        sauth := (fl m).sauth ||
          ((ownFlags nd (if nd.name = [] then none else some (fl nd.name.dropLast))).2 && decide (m <+: nd.name)),
        sdata := (fl m).sdata || (nonDnssec nd && decide (m <+: nd.name)) } := by
    intro m hm
    unfold after
    dsimp only
    rw [put_other hm]
  -- no descendant of the node is in the part done
  have hno : ∀ d ∈ l, ¬ nd.name <+: d.name := by
    intro d hd hp
    have hs := hw.sorted
    rw [hz, List.pairwise_append] at hs
    have := hs.2.2 d hd nd (by simp)
    exact name_asymm this (prefix_lt hp (fun h => hnl d hd h.symm))
  refine ⟨?_, ?_, ?_, ?_, ?_⟩
  · intro x hx
    rw [hspec]
    rcases List.mem_append.mp hx with hx | hx
    · rw [hoth _ (hnl x hx)]; exact h.nonauth x hx
    · rw [List.mem_singleton] at hx; subst hx; rw [hself]; exact ho1
  · intro x hx
    rw [hspec]
    rcases List.mem_append.mp hx with hx | hx
    · rw [hoth _ (hnl x hx)]; exact h.deleg x hx
    · rw [List.mem_singleton] at hx; subst hx; rw [hself]; exact ho2
  · intro x hx
    rw [hspec]
    rcases List.mem_append.mp hx with hx | hx
    · rw [hoth _ (hnl x hx)]
      dsimp only
      rw [Bool.or_eq_true, Bool.and_eq_true, decide_eq_true_iff, h.sauth x hx, ho3]
      constructor
      · rintro (⟨d, hd, h1⟩ | ⟨h1, h2⟩)
        · exact ⟨d, List.mem_append_left _ hd, h1⟩
        · exact ⟨nd, by simp, h2, h1⟩
      · rintro ⟨d, hd, h1, h2⟩
        rcases List.mem_append.mp hd with hd | hd
        · exact .inl ⟨d, hd, h1, h2⟩
        · rw [List.mem_singleton] at hd; subst hd; exact .inr ⟨h2, h1⟩
    · rw [List.mem_singleton] at hx; subst hx; rw [hself]
      dsimp only
      rw [ho3]
      constructor
      · intro h1; exact ⟨x, by simp, List.prefix_rfl, h1⟩
      · rintro ⟨d, hd, h1, h2⟩
        rcases List.mem_append.mp hd with hd | hd
        · exact absurd h1 (hno d hd)
        · rw [List.mem_singleton] at hd; subst hd; exact h2
  · intro x hx
    rw [hspec]
    rcases List.mem_append.mp hx with hx | hx
    · rw [hoth _ (hnl x hx)]
      dsimp only
      rw [Bool.or_eq_true, Bool.and_eq_true, decide_eq_true_iff, h.sdata x hx, ← data_iff hw.sorted hnd]
      constructor
      · rintro (⟨d, hd, h1⟩ | ⟨h1, h2⟩)
        · exact ⟨d, List.mem_append_left _ hd, h1⟩
        · exact ⟨nd, by simp, h2, h1⟩
      · rintro ⟨d, hd, h1, h2⟩
        rcases List.mem_append.mp hd with hd | hd
        · exact .inl ⟨d, hd, h1, h2⟩
        · rw [List.mem_singleton] at hd; subst hd; exact .inr ⟨h2, h1⟩
    · rw [List.mem_singleton] at hx; subst hx; rw [hself]
      dsimp only
      rw [← data_iff hw.sorted hnd]
      constructor
      · intro h1; exact ⟨x, by simp, List.prefix_rfl, h1⟩
      · rintro ⟨d, hd, h1, h2⟩
        rcases List.mem_append.mp hd with hd | hd
        · exact absurd h1 (hno d hd)
        · rw [List.mem_singleton] at hd; subst hd; exact h2
  · intro m hm
    have hmn : m ≠ nd.name := fun he => hm nd (by simp) he.symm
    have hml : ∀ x ∈ l, x.name ≠ m := fun x hx => hm x (List.mem_append_left _ hx)
    rw [hspec, hoth m hmn]
    have hnp : ¬ m <+: nd.name := by
      intro hp
      obtain ⟨p, hp2, hpn⟩ := ancestor_first hw hz hp hmn
      exact hml p hp2 hpn
    simp only [hnp, decide_false, Bool.and_false, Bool.or_false]
    exact h.rest m hml

/-- The pass over the rest of the zone. -/
theorem part_fold {z : Zone} {fl0 : Name → Fl} (hw : WF z) (prevs : Bool) : ∀ (r l : Zone) (p : Pass),
    z = l ++ r → Part z fl0 l p.fl → Part z fl0 z (r.foldl (single prevs) p).fl
  | [], l, p, hz, h => by rw [List.append_nil] at hz; rw [hz] at h ⊢; rw [← hz] at h ⊢; exact h
  | nd :: r, l, p, hz, h => by
    rw [List.foldl_cons]
    apply part_fold hw prevs r (l ++ [nd]) (single prevs p nd)
    · rw [hz]; simp
    · exact part_step hw hz h

theorem adjustTree_fl (prevs : Bool) (z : Zone) (fl : Name → Fl) (prev : Name → Option Name) :
    (adjustTree prevs z fl prev).fl = (z.foldl (single prevs) { fl, prev }).fl := by
  unfold adjustTree
  dsimp only
  split <;> rfl

theorem data_node {z : Zone} {n : Name} (h : Data z n) : ∃ nd ∈ z, nd.name = n := by
  obtain ⟨t, ⟨nd, h1, h2, _⟩, _⟩ := h
  exact ⟨nd, h1, h2⟩

theorem auth_node {z : Zone} {n : Name} (h : AuthData z n) : ∃ nd ∈ z, nd.name = n := by
  rcases h.2 with ⟨_, nd, h1, h2, _⟩ | ⟨_, h1⟩
  · exact ⟨nd, h1, h2⟩
  · exact data_node h1

theorem flags_ok {z : Zone} (hw : WF z) (prevs : Bool) (fl : Name → Fl) (prev : Name → Option Name) :
    (∀ nd ∈ z, FlagsOk z nd.name ((adjustTree prevs z fl prev).fl nd.name)) ∧
    ∀ m, (∀ nd ∈ z, nd.name ≠ m) → (adjustTree prevs z fl prev).fl m = fl m := by
  have h : Part z fl z (adjustTree prevs z fl prev).fl := by
    rw [adjustTree_fl]
    apply part_fold hw prevs z [] _ rfl
    exact ⟨by simp, by simp, by simp, by simp, fun m _ => rfl⟩
  refine ⟨?_, h.rest⟩
  intro nd hnd
  refine ⟨h.nonauth nd hnd, h.deleg nd hnd, ?_, ?_⟩
  · rw [h.sauth nd hnd]
    constructor
    · rintro ⟨d, _, h1⟩; exact ⟨d.name, h1⟩
    · rintro ⟨d, h1, h2⟩
      obtain ⟨x, hx, hn⟩ := auth_node h2
      exact ⟨x, hx, by rw [hn]; exact h1, by rw [hn]; exact h2⟩
  · rw [h.sdata nd hnd]
    constructor
    · rintro ⟨d, _, h1⟩; exact ⟨d.name, h1⟩
    · rintro ⟨d, h1, h2⟩
      obtain ⟨x, hx, hn⟩ := data_node h2
      exact ⟨x, hx, by rw [hn]; exact h1, by rw [hn]; exact h2⟩

end Knot.Adjust
