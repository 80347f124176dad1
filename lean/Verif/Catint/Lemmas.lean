import Verif.Catint.Spec
namespace Knot.Catint
open Dname (Name)

theorem loop_ok (f : Node → Res (List Call)) : ∀ l : Zone, (∀ n ∈ l, f n ≠ .ub) → ∃ cs e, loop f l = .ok (cs, e) ∧
    (e = none → (∀ n ∈ l, ∃ d, f n = .ok d) ∧ ∀ c, c ∈ cs ↔ ∃ n ∈ l, ∃ d, f n = .ok d ∧ c ∈ d) ∧
    (∀ x, e = some x → ∃ n ∈ l, f n = .err x) := by
  intro l
  induction l with
  | nil => intro _; exact ⟨[], none, rfl, by simp, by simp⟩
  | cons n l ih =>
    intro h
    obtain ⟨cs, e, h1, h2, h3⟩ := ih (fun n hn => h n (by simp [hn]))
    cases hf : f n with
    | ub => exact absurd hf (h n (by simp))
    | err x => exact ⟨[], some x, by simp [loop, hf], by simp, by intro y hy; cases hy; exact ⟨n, by simp, hf⟩⟩
    | ok d =>
      refine ⟨d ++ cs, e, by simp [loop, hf, h1], ?_, ?_⟩
      · intro he
        obtain ⟨h4, h5⟩ := h2 he
        refine ⟨by intro k hk; rcases List.mem_cons.1 hk with rfl | hk; exact ⟨d, hf⟩; exact h4 k hk, ?_⟩
        intro c
        rw [List.mem_append, h5]
        constructor
        · rintro (hc | ⟨k, hk, d', hd, hc⟩)
          · exact ⟨n, by simp, d, hf, hc⟩
          · exact ⟨k, by simp [hk], d', hd, hc⟩
        · rintro ⟨k, hk, d', hd, hc⟩
          rcases List.mem_cons.1 hk with rfl | hk
          · rw [hf] at hd; cases hd; exact .inl hc
          · exact .inr ⟨k, hk, d', hd, hc⟩
      · intro x hx
        obtain ⟨k, hk, hh⟩ := h3 x hx
        exact ⟨k, by simp [hk], hh⟩

theorem zones_eq : label "zones" = zonesLabel := by decide
theorem group_eq : label "group" = groupLabel := by decide
theorem version_eq : label "version" = versionLabel := by decide
theorem two_eq : label "2" = [50] := by decide

/-- The nodes interpreted, with where they are. -/
theorem below {z : Zone} {apex : Name} {n : Node} :
    n ∈ z.filter (fun n => zonesLabel :: apex <:+ n.owner ∧ n.owner ≠ zonesLabel :: apex) ↔
      n ∈ z ∧ ∃ l p, n.owner = l :: p ∧ zonesLabel :: apex <:+ p := by
  simp only [List.mem_filter, decide_eq_true_eq]
  constructor
  · rintro ⟨hn, ⟨t, ht⟩, hne⟩
    cases t with
    | nil => exact absurd ht.symm hne
    | cons l t => exact ⟨hn, l, t ++ zonesLabel :: apex, ht.symm, t, rfl⟩
  · rintro ⟨hn, l, p, ho, t, ht⟩
    refine ⟨hn, ⟨l :: t, by rw [ho, ← ht]; rfl⟩, ?_⟩
    intro h
    rw [ho] at h
    have := congrArg List.length h
    rw [← ht] at this
    simp at this
    omega

/-- The result of a callback for one of the nodes. -/
theorem node_cases {f g : Node → Res (List Call)} {apex : Name} {n : Node} {l : Bytes} {p : Name} (ho : n.owner = l :: p)
    (hp : zonesLabel :: apex <:+ p) :
    (n.owner = l :: zonesLabel :: apex ∧ interpretNode f g apex n = f n) ∨
    (∃ u, n.owner = l :: u :: zonesLabel :: apex ∧ interpretNode f g apex n = g n) ∨
    (n.owner.length > apex.length + 3 ∧ interpretNode f g apex n = .ok []) := by
  obtain ⟨t, ht⟩ := hp
  match t, ht with
  | [], ht => left; subst ht; exact ⟨ho, by simp [interpretNode, ho]⟩
  | [u], ht => right; left; subst ht; exact ⟨u, ho, by simp [interpretNode, ho]; omega⟩
  | u :: v :: t, ht =>
    right; right; subst ht
    refine ⟨by simp [ho]; omega, ?_⟩
    unfold interpretNode
    rw [if_neg (by simp [ho]; omega), if_neg (by simp [ho]; omega), if_neg (by simp [ho]; omega)]

/-- The two kinds of nodes are interpreted. -/
theorem interpret {f g : Node → Res (List Call)} {z : Zone} {apex : Name} (ht : Tree z apex)
    (hf : ∀ n ∈ z, f n ≠ .ub) (hg : ∀ n ∈ z, g n ≠ .ub) : ∃ cs e, interpretZone f g z apex = .ok (cs, e) ∧
    (e = none → (∀ n ∈ z, ∀ u, n.owner = memberOwner apex u → ∃ d, f n = .ok d) ∧
      (∀ n ∈ z, ∀ p u, n.owner = p :: memberOwner apex u → ∃ d, g n = .ok d) ∧
      ∀ c, c ∈ cs ↔ (∃ n ∈ z, ∃ u, n.owner = memberOwner apex u ∧ ∃ d, f n = .ok d ∧ c ∈ d) ∨
        (∃ n ∈ z, ∃ p u, n.owner = p :: memberOwner apex u ∧ ∃ d, g n = .ok d ∧ c ∈ d)) ∧
    (∀ x, e = some x → (∃ n ∈ z, ∃ u, n.owner = memberOwner apex u ∧ f n = .err x) ∨
      (∃ n ∈ z, ∃ p u, n.owner = p :: memberOwner apex u ∧ g n = .err x)) := by
  simp only [memberOwner, zones_eq]
  unfold interpretZone
  split
  · rename_i hall
    rw [List.all_eq_true] at hall
    have hno : ∀ n ∈ z, ∀ p, zonesLabel :: apex <:+ p → p <:+ n.owner → False := by
      intro n hn p hp hpo
      obtain ⟨k, hk, hko⟩ := ht.parents n hn (zonesLabel :: apex) (hp.trans hpo) (List.suffix_cons _ _)
      have := hall k hk
      simp [hko] at this
    refine ⟨[], none, rfl, fun _ => ⟨?_, ?_, ?_⟩, by simp⟩
    · intro n hn u ho; exact (hno n hn (zonesLabel :: apex) (List.suffix_refl _) (ho ▸ List.suffix_cons _ _)).elim
    · intro n hn p u ho
      exact (hno n hn (zonesLabel :: apex) (List.suffix_refl _) (ho ▸ (List.suffix_cons _ _).trans (List.suffix_cons _ _))).elim
    · intro c
      constructor
      · intro h; cases h
      · rintro (⟨n, hn, u, ho, -⟩ | ⟨n, hn, p, u, ho, -⟩)
        · exact (hno n hn (zonesLabel :: apex) (List.suffix_refl _) (ho ▸ List.suffix_cons _ _)).elim
        · exact (hno n hn (zonesLabel :: apex) (List.suffix_refl _) (ho ▸ (List.suffix_cons _ _).trans (List.suffix_cons _ _))).elim
  · obtain ⟨cs, e, h1, h2, h3⟩ := loop_ok (interpretNode f g apex)
      (z.filter (fun n => zonesLabel :: apex <:+ n.owner ∧ n.owner ≠ zonesLabel :: apex)) (by
        intro n hn
        obtain ⟨hz, l, p, ho, hp⟩ := below.1 hn
        rcases node_cases (f := f) (g := g) ho hp with ⟨-, h⟩ | ⟨u, -, h⟩ | ⟨-, h⟩ <;> rw [h]
        · exact hf n hz
        · exact hg n hz
        · simp)
    have fm : ∀ n ∈ z, ∀ u, n.owner = u :: zonesLabel :: apex →
        n ∈ z.filter (fun n => zonesLabel :: apex <:+ n.owner ∧ n.owner ≠ zonesLabel :: apex) ∧ interpretNode f g apex n = f n := by
      intro n hn u ho
      exact ⟨below.2 ⟨hn, u, _, ho, List.suffix_refl _⟩, by simp [interpretNode, ho]⟩
    have fp : ∀ n ∈ z, ∀ p u, n.owner = p :: u :: zonesLabel :: apex →
        n ∈ z.filter (fun n => zonesLabel :: apex <:+ n.owner ∧ n.owner ≠ zonesLabel :: apex) ∧ interpretNode f g apex n = g n := by
      intro n hn p u ho
      exact ⟨below.2 ⟨hn, p, _, ho, List.suffix_cons _ _⟩, by simp [interpretNode, ho]; omega⟩
    refine ⟨cs, e, h1, ?_, ?_⟩
    · intro he
      obtain ⟨h4, h5⟩ := h2 he
      refine ⟨?_, ?_, ?_⟩
      · intro n hn u ho; have := h4 n (fm n hn u ho).1; rwa [(fm n hn u ho).2] at this
      · intro n hn p u ho; have := h4 n (fp n hn p u ho).1; rwa [(fp n hn p u ho).2] at this
      · intro c
        rw [h5]
        constructor
        · rintro ⟨n, hn, d, hd, hc⟩
          obtain ⟨hz, l, p, ho, hp⟩ := below.1 hn
          rcases node_cases (f := f) (g := g) ho hp with ⟨ho', h⟩ | ⟨u, ho', h⟩ | ⟨-, h⟩ <;> rw [h] at hd
          · exact .inl ⟨n, hz, l, ho', d, hd, hc⟩
          · exact .inr ⟨n, hz, l, u, ho', d, hd, hc⟩
          · cases hd; cases hc
        · rintro (⟨n, hn, u, ho, d, hd, hc⟩ | ⟨n, hn, p, u, ho, d, hd, hc⟩)
          · exact ⟨n, (fm n hn u ho).1, d, by rw [(fm n hn u ho).2]; exact hd, hc⟩
          · exact ⟨n, (fp n hn p u ho).1, d, by rw [(fp n hn p u ho).2]; exact hd, hc⟩
    · intro x hx
      obtain ⟨n, hn, hh⟩ := h3 x hx
      obtain ⟨hz, l, p, ho, hp⟩ := below.1 hn
      rcases node_cases (f := f) (g := g) ho hp with ⟨ho', h⟩ | ⟨u, ho', h⟩ | ⟨-, h⟩ <;> rw [h] at hh
      · exact .inl ⟨n, hz, l, ho', hh⟩
      · exact .inr ⟨n, hz, l, u, ho', hh⟩
      · cases hh

theorem node_unique : ∀ {z : Zone}, (z.map (·.owner)).Nodup → ∀ {a b : Node}, a ∈ z → b ∈ z → a.owner = b.owner → a = b := by
  intro z
  induction z with
  | nil => intro _ a b h; cases h
  | cons x z ih =>
    intro hd a b ha hb he
    simp only [List.map_cons, List.nodup_cons, List.mem_map, not_exists, not_and] at hd
    rcases List.mem_cons.1 ha with ha' | ha' <;> rcases List.mem_cons.1 hb with hb' | hb'
    · rw [ha', hb']
    · exact absurd (ha' ▸ he.symm) (hd.1 b hb')
    · exact absurd (hb' ▸ he) (hd.1 a ha')
    · exact ih hd.2 ha' hb' he

theorem find_mem {z : Zone} (hz : (z.map (·.owner)).Nodup) {n : Node} (hn : n ∈ z) : find z n.owner = n := by
  unfold find
  cases h : z.find? (fun x => x.owner = n.owner) with
  | none => rw [List.find?_eq_none] at h; exact absurd (by simp) (h n hn)
  | some k =>
    have h1 := List.mem_of_find?_eq_some h
    have h2 := List.find?_some h
    simp only [decide_eq_true_eq] at h2
    exact node_unique hz h1 hn h2

theorem find_cases (z : Zone) (o : Name) : (find z o ∈ z ∧ (find z o).owner = o) ∨
    ((∀ n ∈ z, n.owner ≠ o) ∧ find z o = ⟨o, [], []⟩) := by
  unfold find
  cases h : z.find? (fun x => x.owner = o) with
  | none => right; rw [List.find?_eq_none] at h; exact ⟨fun n hn => by simpa using h n hn, rfl⟩
  | some k => left; have h2 := List.find?_some h; exact ⟨List.mem_of_find?_eq_some h, by simpa using h2⟩

theorem ptr_iff {z : Zone} (hz : (z.map (·.owner)).Nodup) {o m : Name} : HasPtr z o m ↔ m ∈ (find z o).ptr := by
  constructor
  · rintro ⟨n, hn, rfl, hm⟩; rwa [find_mem hz hn]
  · intro h
    rcases find_cases z o with ⟨h1, h2⟩ | ⟨-, h2⟩
    · exact ⟨_, h1, h2, h⟩
    · rw [h2] at h; cases h

theorem txt_iff {z : Zone} (hz : (z.map (·.owner)).Nodup) {o : Name} {r : Bytes} : HasTxt z o r ↔ r ∈ (find z o).txt := by
  constructor
  · rintro ⟨n, hn, rfl, hm⟩; rwa [find_mem hz hn]
  · intro h
    rcases find_cases z o with ⟨h1, h2⟩ | ⟨-, h2⟩
    · exact ⟨_, h1, h2, h⟩
    · rw [h2] at h; cases h

theorem single_ptr {z : Zone} {apex : Name} (ht : Tree z apex) (hs : Single z apex) (u : Bytes) :
    (find z (memberOwner apex u)).ptr = [] ∨ ∃ m, (find z (memberOwner apex u)).ptr = [m] := by
  match hp : (find z (memberOwner apex u)).ptr with
  | [] => exact .inl rfl
  | [m] => exact .inr ⟨m, rfl⟩
  | m :: k :: r =>
    exfalso
    have := hs u m k ((ptr_iff ht.unique).2 (by rw [hp]; simp)) ((ptr_iff ht.unique).2 (by rw [hp]; simp))
    rcases find_cases z (memberOwner apex u) with ⟨h1, -⟩ | ⟨-, h2⟩
    · have := ht.sets _ h1; rw [hp] at this; simp_all
    · rw [h2] at hp; cases hp

/-- **The version.** -/
theorem version_iff {z : Zone} {apex : Name} (ht : Tree z apex) : checkVersion z apex = true ↔ Versioned z apex := by
  unfold checkVersion Versioned
  simp only [txt_iff ht.unique, version_eq, two_eq, List.any_eq_true, decide_eq_true_eq]
  constructor
  · rintro ⟨r, hr, hl, h1⟩
    match r, hl with
    | [a, b], _ => simp at h1; subst h1; exact ⟨a, hr⟩
  · rintro ⟨l, h⟩; exact ⟨_, h, rfl, rfl⟩

/-- **Verification.** -/
theorem verify_ok {z : Zone} {apex : Name} (ht : Tree z apex) : ∃ e, verify z apex = .ok e ∧
    (e = none ↔ Versioned z apex ∧ Single z apex) ∧
    (e = some .ezoneInval ↔ ¬ Versioned z apex) ∧ (e = some .eisrecord ↔ Versioned z apex ∧ ¬ Single z apex) := by
  unfold verify
  by_cases hv : checkVersion z apex = true
  · obtain ⟨cs, e, h1, h2, h3⟩ := interpret (f := memberVerify) (g := propVerify) ht
      (by intro n _; unfold memberVerify; split <;> simp) (by intro n _; simp [propVerify])
    rw [if_neg (by simp [hv]), h1]
    have hV := (version_iff ht).1 hv
    have hnone : e = none ↔ Single z apex := by
      constructor
      · intro he u m m' hm hm'
        rw [ptr_iff ht.unique] at hm hm'
        rcases find_cases z (memberOwner apex u) with ⟨k1, k2⟩ | ⟨-, k2⟩
        · obtain ⟨d, hd⟩ := (h2 he).1 _ k1 u k2
          unfold memberVerify at hd
          split at hd
          · cases hd
          · rename_i hl
            match hp : (find z (memberOwner apex u)).ptr with
            | [] => rw [hp] at hm; cases hm
            | [a] => rw [hp] at hm hm'; simp at hm hm'; rw [hm, hm']
            | a :: b :: r => rw [hp] at hl; simp at hl
        · rw [k2] at hm; cases hm
      · intro hs
        cases he : e with
        | none => rfl
        | some x =>
          exfalso
          rcases h3 x he with ⟨n, hn, u, ho, hh⟩ | ⟨n, hn, p, u, ho, hh⟩
          · have := single_ptr ht hs u
            rw [← ho, find_mem ht.unique hn] at this
            unfold memberVerify at hh
            rcases this with h | ⟨m, h⟩ <;> simp [h] at hh
          · simp [propVerify] at hh
    have hsome : ∀ x, e = some x → x = .eisrecord := by
      intro x he
      rcases h3 x he with ⟨n, hn, u, ho, hh⟩ | ⟨n, hn, p, u, ho, hh⟩
      · unfold memberVerify at hh
        split at hh <;> simp at hh
        exact hh.symm
      · simp [propVerify] at hh
    refine ⟨e, rfl, by simp [hV, hnone], ?_, ?_⟩
    · constructor
      · intro he; exact absurd (hsome _ he) (by simp)
      · intro h; exact absurd hV h
    · constructor
      · intro he; exact ⟨hV, fun hs => by rw [hnone.2 hs] at he; cases he⟩
      · rintro ⟨-, hs⟩
        cases he : e with
        | none => exact absurd (hnone.1 he) hs
        | some x => rw [hsome x he]
  · have hV : ¬ Versioned z apex := fun h => hv ((version_iff ht).2 h)
    refine ⟨some .ezoneInval, by simp [hv], by simp [hV], by simp [hV], by simp [hV]⟩

theorem one_string {l : UInt8} {g : Bytes} : OneString (l :: g) ↔ (l :: g).length = l.toNat + 1 := by
  unfold OneString
  constructor
  · rintro ⟨s, hs, hlt⟩
    injection hs with h1 h2
    subst h2
    rw [h1]
    simp only [List.length_cons, Nat.add_right_cancel_iff]
    simp [Nat.toUInt8, UInt8.toNat_ofNat']
    omega
  · intro h
    simp only [List.length_cons, Nat.add_right_cancel_iff] at h
    have := l.toNat_lt
    exact ⟨g, by rw [h]; simp [Nat.toUInt8], by omega⟩

/-- The member of a property node. -/
theorem prop_member {tree whole : Zone} {apex : Name} (ht : Tree tree apex) (hw : Tree whole apex) (hs : Single tree apex)
    (hS : Single whole apex) {n : Node} {p u : Bytes} (ho : n.owner = p :: memberOwner apex u) (x : Name × Name) :
    propMember tree whole n = some x ↔ x.2 = memberOwner apex u ∧ MemberOf tree whole (memberOwner apex u) x.1 := by
  obtain ⟨m, o⟩ := x
  unfold propMember MemberOf
  simp only [ho, List.tail_cons, ptr_iff ht.unique, ptr_iff hw.unique]
  rcases single_ptr ht hs u with h | ⟨a, h⟩ <;> rcases single_ptr hw hS u with h' | ⟨b, h'⟩ <;> simp [h, h'] <;> grind

theorem grp_ub {tree whole : Zone} {remove : Bool} {n : Node} (htx : [] ∉ n.txt) : addGrp tree whole remove n ≠ .ub := by
  unfold addGrp
  grind

/-- **What is called.** -/
theorem from_zone {tree whole : Zone} {apex : Name} (ht : Tree tree apex) (hw : Tree whole apex) (hs : Single tree apex)
    (hS : Single whole apex) (remove : Bool) : ∃ cs e, fromZone tree whole apex remove = .ok (cs, e) ∧
    (e = none ∨ e = some .emalf) ∧ (e = some .emalf ↔ remove = false ∧ Multi tree whole apex) ∧
    (e = none → ∀ c, c ∈ cs ↔ Says tree whole apex remove c) := by
  have hmem : ∀ n ∈ tree, ∀ u, n.owner = memberOwner apex u → ∀ x, addMemb remove n ≠ .err x := by
    intro n hn u ho x
    have := single_ptr ht hs u
    rw [← ho, find_mem ht.unique hn] at this
    unfold addMemb
    rcases this with h | ⟨m, h⟩ <;> simp [h]
  have hgrp : ∀ n ∈ tree, ∀ p u, n.owner = p :: memberOwner apex u → ∀ x, addGrp tree whole remove n = .err x ↔
      x = .emalf ∧ remove = false ∧ p = label "group" ∧ ∃ m r, MemberOf tree whole (memberOwner apex u) m ∧ n.txt.head? = some r ∧ ¬ OneString r := by
    intro n hn p u ho x
    have hp := prop_member ht hw hs hS ho
    have htx := ht.text n hn
    unfold addGrp
    rw [group_eq, ho]
    by_cases hg : p = groupLabel
    · subst hg
      simp only [List.head?_cons, ne_eq, not_true, if_false, true_and]
      cases hm : propMember tree whole n with
      | none =>
        simp only [reduceCtorEq, false_iff]
        rintro ⟨-, -, m, r, h, -⟩
        have := (hp (m, memberOwner apex u)).2 ⟨rfl, h⟩
        rw [hm] at this; cases this
      | some y =>
        have hy := (hp y).1 hm
        obtain ⟨m, o⟩ := y
        match ht' : n.txt with
        | [] => simp
        | [] :: rest => rw [ht'] at htx; simp at htx
        | (l :: g) :: rest =>
          have h1 := one_string (l := l) (g := g)
          cases remove with
          | true => simp
          | false =>
            simp only [List.head?_cons, Option.some.injEq, Bool.false_eq_true, if_false, true_and]
            split
            · rename_i hne
              simp only [Res.err.injEq]
              constructor
              · rintro rfl; exact ⟨rfl, m, _, hy.2, rfl, fun h => hne (h1.1 h)⟩
              · rintro ⟨rfl, -⟩; rfl
            · rename_i he
              simp only [reduceCtorEq, false_iff]
              rintro ⟨-, m', r, -, rfl, h⟩
              exact h (h1.2 (Classical.not_not.1 he))
    · simp [hg]
  have hok : ∀ n ∈ tree, ∀ p u, n.owner = p :: memberOwner apex u → ∀ d, addGrp tree whole remove n = .ok d → ∀ c, c ∈ d ↔
      p = label "group" ∧ ∃ m r, MemberOf tree whole (memberOwner apex u) m ∧ n.txt.head? = some r ∧
        c = ⟨m, memberOwner apex u, .prop, if remove then [] else r.tail⟩ := by
    intro n hn p u ho d hd c
    have hp := prop_member ht hw hs hS ho
    have htx := ht.text n hn
    unfold addGrp at hd
    rw [ho] at hd
    rw [group_eq]
    by_cases hg : p = groupLabel
    · subst hg
      simp only [List.head?_cons, ne_eq, not_true, if_false] at hd
      cases hm : propMember tree whole n with
      | none =>
        rw [hm] at hd
        cases hd
        simp only [List.not_mem_nil, true_and, false_iff]
        rintro ⟨m, r, h, -⟩
        have := (hp (m, memberOwner apex u)).2 ⟨rfl, h⟩
        rw [hm] at this; cases this
      | some y =>
        have hy := (hp y).1 hm
        have huniq : ∀ m', MemberOf tree whole (memberOwner apex u) m' → m' = y.1 := by
          intro m' h'
          have := (hp (m', memberOwner apex u)).2 ⟨rfl, h'⟩
          rw [hm] at this; cases this; rfl
        obtain ⟨m, o⟩ := y
        rw [hm] at hd
        obtain ⟨rfl, hy⟩ := hy
        match ht' : n.txt with
        | [] => simp [ht'] at hd; subst hd; simp
        | [] :: rest => rw [ht'] at htx; simp at htx
        | (l :: g) :: rest =>
          simp only [ht'] at hd
          cases remove with
          | true => simp at hd; subst hd; simp; grind
          | false =>
            simp only [Bool.false_eq_true, if_false] at hd
            split at hd
            · cases hd
            · rename_i he
              have he' : g.take l.toNat = g := by
                rw [List.take_of_length_le]; simp at he; omega
              rw [he'] at hd
              cases hd
              simp; grind
    · simp [hg] at hd
      subst hd
      simp [hg]
  obtain ⟨cs, e, h1, h2, h3⟩ := interpret (f := addMemb remove) (g := addGrp tree whole remove) ht
    (by intro n _; unfold addMemb; split <;> simp)
    (fun n hn => grp_ub (ht.text n hn))
  have hemalf : ∀ x, e = some x → x = .emalf ∧ remove = false ∧ Multi tree whole apex := by
    intro x hx
    rcases h3 x hx with ⟨n, hn, u, ho, hh⟩ | ⟨n, hn, p, u, ho, hh⟩
    · exact absurd hh (hmem n hn u ho x)
    · obtain ⟨hx', hr, hp, m, r, hm, htx, hone⟩ := (hgrp n hn p u ho x).1 hh
      exact ⟨hx', hr, u, m, r, ⟨hm, n, hn, by rw [ho, hp], htx⟩, hone⟩
  refine ⟨cs, e, h1, ?_, ?_, ?_⟩
  · cases he : e with
    | none => exact .inl rfl
    | some x => rw [(hemalf x he).1]; exact .inr rfl
  · constructor
    · intro he; exact (hemalf _ he).2
    · rintro ⟨hr, u, m, r, ⟨hm, n, hn, ho, htx⟩, hone⟩
      cases he : e with
      | none =>
        exfalso
        obtain ⟨d, hd⟩ := (h2 he).2.1 n hn _ u ho
        have := (hgrp n hn _ u ho .emalf).2 ⟨rfl, hr, rfl, m, r, hm, htx, hone⟩
        rw [hd] at this; cases this
      | some x => rw [(hemalf x he).1]
  · intro he c
    rw [(h2 he).2.2 c]
    unfold Says
    constructor
    · rintro (⟨n, hn, u, ho, d, hd, hc⟩ | ⟨n, hn, p, u, ho, d, hd, hc⟩)
      · left
        unfold addMemb at hd
        split at hd
        · cases hd; cases hc
        · rename_i m hp
          cases hd
          simp only [List.mem_singleton] at hc
          exact ⟨u, m, ⟨n, hn, ho, by rw [hp]; simp⟩, by rw [hc, ho]⟩
        · cases hd
      · right
        obtain ⟨hp, m, r, hm, htx, hc⟩ := (hok n hn p u ho d hd c).1 hc
        exact ⟨u, m, r, ⟨hm, n, hn, by rw [ho, hp], htx⟩, hc⟩
    · rintro (⟨u, m, hm, hc⟩ | ⟨u, m, r, ⟨hm, n, hn, ho, htx⟩, hc⟩)
      · left
        have h := single_ptr ht hs u
        obtain ⟨n, hn, ho, hmn⟩ := hm
        rw [← ho, find_mem ht.unique hn] at h
        rcases h with h | ⟨m', h⟩
        · rw [h] at hmn; cases hmn
        · rw [h] at hmn
          simp only [List.mem_singleton] at hmn
          subst hmn
          exact ⟨n, hn, u, ho, [c], by rw [hc]; unfold addMemb; simp [h, ho], by simp⟩
      · right
        obtain ⟨d, hd⟩ := (h2 he).2.1 n hn _ u ho
        exact ⟨n, hn, _, u, ho, d, hd, (hok n hn _ u ho d hd c).2 ⟨rfl, m, r, hm, htx, hc⟩⟩

theorem loop_mem {f : Node → Res (List Call)} : ∀ {l : Zone} {cs : List Call}, loop f l = .ok (cs, none) → ∀ {k : Node}, k ∈ l →
    ∀ {d : List Call}, f k = .ok d → d.Sublist cs := by
  intro l
  induction l with
  | nil => intro cs _ k hk; cases hk
  | cons n l ih =>
    intro cs h k hk d hd
    rw [loop] at h
    cases hf : f n with
    | ub => rw [hf] at h; cases h
    | err x => rw [hf] at h; cases h
    | ok c =>
      rw [hf] at h
      cases hl : loop f l with
      | ub => rw [hl] at h; cases h
      | err x => rw [hl] at h; cases h
      | ok r =>
        obtain ⟨r1, r2⟩ := r
        rw [hl] at h
        simp only [Res.bind_ok, Res.ok.injEq, Prod.mk.injEq] at h
        obtain ⟨rfl, rfl⟩ := h
        rcases List.mem_cons.1 hk with rfl | hk
        · rw [hf] at hd; cases hd; exact List.sublist_append_left _ _
        · exact (ih hl hk hd).trans (List.sublist_append_right _ _)

theorem loop_pair {f : Node → Res (List Call)} : ∀ {l : Zone} {cs : List Call}, loop f l = .ok (cs, none) → ∀ {j k : Node},
    List.Sublist [j, k] l → ∀ {c d : List Call}, f j = .ok c → f k = .ok d → (c ++ d).Sublist cs := by
  intro l
  induction l with
  | nil => intro cs _ j k hk; cases hk
  | cons n l ih =>
    intro cs h j k hk c' d hc hd
    rw [loop] at h
    cases hf : f n with
    | ub => rw [hf] at h; cases h
    | err x => rw [hf] at h; cases h
    | ok c =>
      rw [hf] at h
      cases hl : loop f l with
      | ub => rw [hl] at h; cases h
      | err x => rw [hl] at h; cases h
      | ok r =>
        obtain ⟨r1, r2⟩ := r
        rw [hl] at h
        simp only [Res.bind_ok, Res.ok.injEq, Prod.mk.injEq] at h
        obtain ⟨rfl, rfl⟩ := h
        cases hk with
        | cons _ hk => exact (ih hl hk hc hd).trans (List.sublist_append_right _ _)
        | cons_cons _ hk =>
          rw [hf] at hc; cases hc
          exact (List.Sublist.refl _).append (loop_mem hl (List.singleton_sublist.1 hk) hd)

/-- **Members before their groups.** -/
theorem order {tree whole : Zone} {apex : Name} (ht : Tree tree apex) (hw : Tree whole apex) (hs : Single tree apex)
    (hS : Single whole apex) {cs : List Call} (h : fromZone tree whole apex false = .ok (cs, none)) {j k : Node}
    (hjk : List.Sublist [j, k] tree) {u : Bytes} (hj : j.owner = memberOwner apex u) (hk : k.owner = label "group" :: memberOwner apex u)
    {m : Name} (hm : m ∈ j.ptr) {r : Bytes} (hr : k.txt.head? = some r) :
    List.Sublist [⟨m, memberOwner apex u, .add, []⟩, ⟨m, memberOwner apex u, .prop, r.tail⟩] cs := by
  have hjt : j ∈ tree := hjk.subset (by simp)
  have hkt : k ∈ tree := hjk.subset (by simp)
  have hptr : j.ptr = [m] := by
    have := single_ptr ht hs u
    rw [← hj, find_mem ht.unique hjt] at this
    rcases this with h' | ⟨a, h'⟩
    · rw [h'] at hm; cases hm
    · rw [h'] at hm; simp at hm; rw [h', hm]
  have hz : ¬ (tree.all fun n => n.owner ≠ zonesLabel :: apex) = true := by
    obtain ⟨n, hn, ho⟩ := ht.parents j hjt (zonesLabel :: apex) (by rw [hj, memberOwner, zones_eq]; exact List.suffix_cons _ _)
      (List.suffix_cons _ _)
    intro hall
    have := List.all_eq_true.1 hall n hn
    simp [ho] at this
  rw [fromZone, interpretZone, if_neg hz] at h
  have hj' : j.owner = u :: zonesLabel :: apex := by rw [hj, memberOwner, zones_eq]
  have hk' : k.owner = groupLabel :: u :: zonesLabel :: apex := by rw [hk, memberOwner, zones_eq, group_eq]
  have hsub : List.Sublist [j, k] (tree.filter (fun n => zonesLabel :: apex <:+ n.owner ∧ n.owner ≠ zonesLabel :: apex)) := by
    have := hjk.filter (fun n => zonesLabel :: apex <:+ n.owner ∧ n.owner ≠ zonesLabel :: apex)
    have h1 := (below (z := tree) (apex := apex) (n := j)).2 ⟨hjt, u, _, hj', List.suffix_refl _⟩
    have h2 := (below (z := tree) (apex := apex) (n := k)).2 ⟨hkt, _, _, hk', List.suffix_cons _ _⟩
    rw [List.mem_filter] at h1 h2
    rwa [List.filter_cons, if_pos h1.2, List.filter_cons, if_pos h2.2, List.filter_nil] at this
  have e1 : interpretNode (addMemb false) (addGrp tree whole false) apex j = .ok [⟨m, memberOwner apex u, .add, []⟩] := by
    rw [← hj]; simp [interpretNode, hj', addMemb, hptr]
  obtain ⟨r', hr'⟩ : ∃ d, interpretNode (addMemb false) (addGrp tree whole false) apex k = .ok d := by
    obtain ⟨cs', e', g1, g2, -⟩ := interpret (f := addMemb false) (g := addGrp tree whole false) ht
      (by intro n _; unfold addMemb; split <;> simp)
      (fun n hn => grp_ub (ht.text n hn))
    rw [interpretZone, if_neg hz, h] at g1
    cases g1
    obtain ⟨d, hd⟩ := (g2 rfl).2.1 k hkt _ u hk
    refine ⟨d, ?_⟩
    rw [← hd]
    simp [interpretNode, hk']; omega
  have hg : addGrp tree whole false k = .ok r' := by
    rw [← hr']; simp [interpretNode, hk']; omega
  have hpm : propMember tree whole k = some (m, memberOwner apex u) :=
    (prop_member ht hw hs hS hk _).2 ⟨rfl, .inl ⟨j, hjt, hj, hm⟩⟩
  have e2 : r' = [⟨m, memberOwner apex u, .prop, r.tail⟩] := by
    have htx := ht.text k hkt
    unfold addGrp at hg
    rw [hpm, hk'] at hg
    match hT : k.txt with
    | [] => rw [hT] at hr; cases hr
    | [] :: rest => rw [hT] at htx; simp at htx
    | (l :: g) :: rest =>
      rw [hT] at hr
      cases hr
      simp only [hT, List.head?_cons, ne_eq, not_true, if_false, Bool.false_eq_true] at hg
      split at hg
      · cases hg
      · rename_i he
        have he' : g.take l.toNat = g := by rw [List.take_of_length_le]; simp at he; omega
        rw [he'] at hg
        cases hg; rfl
  rw [e2] at hr'
  exact loop_pair h hsub e1 hr'

theorem exec_calls {apex : Name} {db : Catalog.Db} {check : Bool} : ∀ {cs : List Call} (_ : ∀ c ∈ cs, c.type = .prop ∨
    (c.type = .add ∨ c.type = .rem) ∧ c.group = []) (u : Catalog.Upd),
    exec apex (if check then some db else none) cs u = Catalog.calls db u (ops apex check cs) := by
  intro cs
  induction cs with
  | nil => intro _ u; rfl
  | cons c cs ih =>
    intro h u
    have hc : Catalog.updateAdd u c.member c.owner apex c.type c.group (if check then some db else none) =
        Catalog.call db u (c.op apex, check) := by
      have := h c (by simp)
      unfold Catalog.call Call.op
      rcases this with h' | ⟨h' | h', h''⟩ <;> simp [h', *]
    have ih' := ih (fun c hc => h c (by simp [hc]))
    rw [exec, hc, ops, List.map_cons, Catalog.calls]
    cases Catalog.call db u (c.op apex, check) with
    | ok v => simp only [Res.bind_ok]; exact ih' v
    | err x => rfl
    | ub => rfl

theorem says_type {tree whole : Zone} {apex : Name} {remove : Bool} {c : Call} (h : Says tree whole apex remove c) :
    c.type = .prop ∨ (c.type = .add ∨ c.type = .rem) ∧ c.group = [] := by
  rcases h with ⟨u, m, -, rfl⟩ | ⟨u, m, r, -, rfl⟩
  · cases remove <;> simp
  · simp

/-- **The whole update.** -/
theorem update_ok {u : Catalog.Upd} {db : Catalog.Db} {apex : Name} {new : Zone} (hn : Tree new apex) :
    ((¬ Versioned new apex ∨ ¬ Single new apex) → ∀ ch, ∃ e, updateCatalog u db apex new ch = .ok (u, some e)) ∧
    (Versioned new apex → Single new apex → ¬ Multi new new apex → ∃ cs, (∀ c, c ∈ cs ↔ Says new new apex false c) ∧
      updateCatalog u db apex new .full = (Catalog.delAll u apex db).bind fun v => (Catalog.calls db v (ops apex false cs)).bind fun w => .ok (w, none)) ∧
    (Versioned new apex → Single new apex → ∀ rem add, Tree rem apex → Tree add apex → Single rem apex → Single add apex →
      ¬ Multi add new apex → ∃ cs ds, (∀ c, c ∈ cs ↔ Says rem new apex true c) ∧ (∀ c, c ∈ ds ↔ Says add new apex false c) ∧
      updateCatalog u db apex new (.incremental rem add) =
        (Catalog.calls db u (ops apex true cs)).bind fun v => (Catalog.calls db v (ops apex false ds)).bind fun w => .ok (w, none)) := by
  obtain ⟨e, hv, h1, h2, h3⟩ := verify_ok hn
  refine ⟨?_, ?_, ?_⟩
  · intro h ch
    have hne : e ≠ none := fun he => by have := h1.1 he; rcases h with h | h; exact h this.1; exact h this.2
    cases he : e with
    | none => exact absurd he hne
    | some x => exact ⟨x, by simp [updateCatalog, hv, he]⟩
  · intro hV hS hM
    obtain ⟨cs, e', k1, k2, k3, k4⟩ := from_zone hn hn hS hS false
    have he' : e' = none := by
      rcases k2 with h | h
      · exact h
      · exact absurd (k3.1 h).2 hM
    subst he'
    refine ⟨cs, k4 rfl, ?_⟩
    have he := h1.2 ⟨hV, hS⟩
    subst he
    simp only [updateCatalog, hv, process, k1, Res.bind_ok, ne_eq, not_true, if_false]
    have hx := fun v => exec_calls (apex := apex) (db := db) (check := false) (fun c hc => says_type ((k4 rfl c).1 hc)) v
    simp only [Bool.false_eq_true, if_false] at hx
    simp only [← hx]
    cases Catalog.delAll u apex db with
    | ok v => cases h : exec apex none cs v <;> simp [h, Res.bind]
    | err x => rfl
    | ub => rfl
  · intro hV hS rem add hr ha hsr hsa hM
    obtain ⟨cs, e', k1, k2, k3, k4⟩ := from_zone hr hn hsr hS true
    obtain ⟨ds, e'', l1, l2, l3, l4⟩ := from_zone ha hn hsa hS false
    have he' : e' = none := by
      rcases k2 with h | h
      · exact h
      · have := (k3.1 h).1; cases this
    have he'' : e'' = none := by
      rcases l2 with h | h
      · exact h
      · exact absurd (l3.1 h).2 hM
    subst he' he''
    refine ⟨cs, ds, k4 rfl, l4 rfl, ?_⟩
    have he := h1.2 ⟨hV, hS⟩
    subst he
    simp only [updateCatalog, hv, process, k1, l1, Res.bind_ok, ne_eq, not_true, if_false]
    have hx := fun v => exec_calls (apex := apex) (db := db) (check := true) (fun c hc => says_type ((k4 rfl c).1 hc)) v
    have hy := fun v => exec_calls (apex := apex) (db := db) (check := false) (fun c hc => says_type ((l4 rfl c).1 hc)) v
    simp only [Bool.false_eq_true, if_false, if_true] at hx hy
    simp only [← hx, ← hy]
    cases h : exec apex (some db) cs u with
    | ok v => cases h' : exec apex none ds v <;> simp [h', Res.bind]
    | err x => rfl
    | ub => rfl

end Knot.Catint
