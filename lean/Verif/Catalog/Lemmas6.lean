import Verif.Catalog.Lemmas5
/-!
# The whole batch
-/
namespace Knot.Catalog
open Dname

theorem run_other (S : State) (ops : List Op) (m : Name) (h : ∀ x ∈ ops, x.member ≠ m) :
    run S ops m = S m := by
  induction ops generalizing S with
  | nil => rfl
  | cons x ops ih =>
    have := ih (x.apply S) (fun y hy => h y (by simp [hy]))
    rw [show run S (x :: ops) = run (x.apply S) ops from rfl, this, apply_other S x m (h x (by simp))]

theorem rel_member {m : Name} {s0 : Option Rec} {added t1 t2 frozen : Prop} {v : Val} {cur : Option Rec}
    (h : Rel m s0 added t1 t2 frozen (some v) cur) : v.member = m := by
  cases h <;> rfl

theorem checkMember_ok (v : Val) (conf : Name → Bool) (db : Db) (h : v.type = .rem ∨ v.add ≠ none ∨ v.type = .prop) :
    ∃ b, checkMember v conf db = .ok b := by
  unfold checkMember
  split
  · exact ⟨_, rfl⟩
  · split
    · simp_all
    · split
      · exact ⟨_, rfl⟩
      · split
        · exact ⟨_, rfl⟩
        · split <;> exact ⟨_, rfl⟩

theorem rel_check {m : Name} {s0 : Option Rec} {added t1 t2 frozen : Prop} {v : Val} {cur : Option Rec}
    (h : Rel m s0 added t1 t2 frozen (some v) cur) (conf : Name → Bool) (db : Db) :
    ∃ b, checkMember v conf db = .ok b := by
  apply checkMember_ok
  cases h <;> simp

/-- What the checked entry means, given the members that are not configured zones. -/
theorem rel_final {m : Name} {S : State} {ops : List Op} {t1 t2 frozen : Prop} {v : Val}
    {conf : Name → Bool} {db : Db} (hs : S m = db.lookup m)
    (h : Rel m (S m) (Added S ops m) t1 t2 frozen (some v) (run S ops m))
    (hfr : frozen → conf m = false)
    (hc : conf m = true → db.lookup m = none) :
    Final S ops conf m (eff (db.lookup m) (fin1 conf db v)) ∧ Good (fin1 conf db v) := by
  unfold Final
  generalize run S ops m = cur at h
  generalize hs0 : S m = s0 at h
  rw [hs0] at hs
  cases h with
  | rem h1 h2 => simp_all [fin1, checkMember, eff, Good]
  | prop h1 h2 h3 h4 =>
    rename_i o c g gr
    rw [hs] at h1
    have hcm : conf m = false := by
      cases h : conf m with
      | false => rfl
      | true => rw [hc h] at h1; cases h1
    simp [fin1, checkMember, eff, Good, hcm, h2]
    exact ⟨o, c, ⟨rfl, rfl⟩, h4⟩
  | re ht h1 h2 h3 h4 h5 =>
    rename_i ty ro rc o c g gr
    rw [hs] at h1
    have hcm : conf m = false := by
      cases h : conf m with
      | false => rfl
      | true => rw [hc h] at h1; cases h1
    cases hcc : conf c <;> rcases ht with rfl | rfl <;>
      simp [fin1, checkMember, eff, Good, hcc, hcm, h2, h5]
    all_goals exact ⟨o, c, ⟨rfl, rfl⟩, h5⟩
  | add h1 h2 h3 =>
    rename_i o c gr
    rw [hs] at h1
    cases hcc : conf c <;> cases hcm : conf m <;>
      simp [fin1, checkMember, eff, Good, hcc, hcm, h2, h3, h1, hasMember]
    exact ⟨o, c, ⟨rfl, rfl⟩, h3⟩
  | conflict h1 h2 h3 =>
    rename_i o c e
    rw [hs] at h1
    have hcm := hfr h3
    cases hcc : conf c <;>
      simp [fin1, checkMember, eff, Good, hcc, hcm, h2, h1, hasMember]

theorem lookup_some_mem (db : Db) (m : Name) (h : db.lookup m ≠ none) : ∃ r, (m, r) ∈ db := by
  cases hl : db.lookup m with
  | none => exact absurd hl h
  | some r => exact ⟨r, lookup_mem hl⟩

theorem not_mem_lookup {db : Db} {m : Name} (h : ∀ r, (m, r) ∉ db) : db.lookup m = none := by
  cases hl : db.lookup m with
  | none => rfl
  | some r => exact absurd (lookup_mem hl) (h r)

theorem batch {db : Db} (hd : db.Ok) {conf : Name → Bool} {xs : List (Op × Bool)}
    (hl : ∀ x ∈ xs, x.1.Legal) (hf : Fair (fun n => db.lookup n) conf xs)
    (hn : NoReadd (fun n => db.lookup n) (xs.map Prod.fst)) :
    ∃ u u', calls db [] xs = .ok u ∧ finalize u db conf = .ok u' ∧
      ∀ u'', List.Perm u'' u' → ∃ db', commit db u'' = .ok db' ∧
        ∀ m, Final (fun n => db.lookup n) (xs.map Prod.fst) conf m (db'.lookup m) := by
  obtain ⟨u, hu, hinv⟩ := inv_calls xs [] (inv_nil db conf xs) hl (by simpa using hn) (by simpa using hf)
  simp only [List.nil_append] at hinv
  obtain ⟨hw, hrel⟩ := hinv
  have hrelv : ∀ m, Nf m → ∀ v, u.lookup (key m) = some v → Rel m (db.lookup m)
      (Added (fun n => db.lookup n) (xs.map Prod.fst) m) (T1 m (xs.map Prod.fst)) (T2 m (xs.map Prod.fst))
      (Frozen conf [] m) (some v) (run (fun n => db.lookup n) (xs.map Prod.fst) m) := by
    intro m hm v hv
    rw [← hv]; exact hrel m hm
  -- the check
  have hck := checkAll_eq (conf := conf) (db := db) u (by
    intro p hp
    obtain ⟨hk, hnf⟩ := hw.keys p hp
    have := lookup_of_mem hw.nodup (show (p.1, p.2) ∈ u from hp)
    rw [hk] at this
    exact rel_check (hrelv _ hnf _ this) conf db)
  have hw1 : WF (u.map (fun p => (p.1, fin1 conf db p.2))) := wf_map hw _ (fin1_member conf db)
  -- configured members
  obtain ⟨u', hu', hw', hrem, hsame⟩ := remConf_eq (conf := conf) db hd hw1 (by
    intro m r hmem hc v hv
    rw [lookup_map] at hv
    cases hl : u.lookup (key m) with
    | none => rw [hl] at hv; cases hv
    | some w =>
      rw [hl] at hv
      simp only [Option.map_some, Option.some.injEq] at hv
      subst hv
      have hlk : db.lookup m = some r := lookup_of_mem hd.1 hmem
      have hr := hrelv m (hd.2 _ hmem).1 w hl
      generalize run (fun n => db.lookup n) (xs.map Prod.fst) m = cur at hr
      cases hr with
      | rem h1 h2 => left; simp [fin1, checkMember]
      | prop h1 h2 h3 h4 =>
        right
        rw [hlk] at h1
        injection h1 with h1
        subst h1
        simp [fin1, checkMember]
      | re ht h1 h2 h3 h4 h5 =>
        left
        rename_i ty ro rc o c g gr
        cases hcc : conf c <;> rcases ht with rfl | rfl <;> simp [fin1, checkMember, hcc, hc]
      | add h1 => rw [hlk] at h1; cases h1
      | conflict h1 h2 h3 => exact absurd (h3.1.symm.trans hc) (by simp))
  refine ⟨u, u', hu, ?_, ?_⟩
  · unfold finalize; rw [hck]; exact hu'
  -- what each entry is
  have hent : ∀ p ∈ u', Good p.2 ∧ Final (fun n => db.lookup n) (xs.map Prod.fst) conf p.2.member
      (eff (db.lookup p.2.member) p.2) := by
    intro p hp
    obtain ⟨hk, hnf⟩ := hw'.keys p hp
    have hlk := lookup_of_mem hw'.nodup (show (p.1, p.2) ∈ u' from hp)
    rw [hk] at hlk
    by_cases hcm : conf p.2.member = true ∧ db.lookup p.2.member ≠ none
    · obtain ⟨hc, hm⟩ := hcm
      obtain ⟨r, hr⟩ := lookup_some_mem db _ hm
      obtain ⟨v, h1, h2⟩ := hrem _ r hr hc
      rw [h1] at hlk
      injection hlk with hlk
      rw [← hlk] at hc ⊢
      rw [hlk] at hc
      refine ⟨.inl h2, ?_⟩
      have he : eff (db.lookup v.member) v = none := by simp [eff, h2]
      rw [he]
      unfold Final
      rw [hlk, hc]
      split <;> simp
    · have hc' : conf p.2.member = true → db.lookup p.2.member = none := by
        intro hc
        cases hl : db.lookup p.2.member with
        | none => rfl
        | some r => exact absurd ⟨hc, by simp [hl]⟩ hcm
      have hnone : conf p.2.member = true → ∀ r, (p.2.member, r) ∉ db := by
        intro hc r hr
        have := lookup_of_mem hd.1 hr
        rw [hc' hc] at this; cases this
      rw [hsame _ hnf hnone, lookup_map] at hlk
      cases hl : u.lookup (key p.2.member) with
      | none => rw [hl] at hlk; cases hlk
      | some w =>
        rw [hl] at hlk
        simp only [Option.map_some, Option.some.injEq] at hlk
        have hr := hrelv _ hnf w hl
        have := rel_final (S := fun n => db.lookup n) (db := db) rfl hr (fun h => h.1) hc'
        rw [hlk] at this
        exact ⟨this.2, this.1⟩
  -- members without an entry
  have hno : ∀ m, (∀ p ∈ u', p.2.member ≠ m) →
      Final (fun n => db.lookup n) (xs.map Prod.fst) conf m (db.lookup m) := by
    intro m hm
    by_cases hnf : Nf m
    · have hlk : u'.lookup (key m) = none := by
        cases hl : u'.lookup (key m) with
        | none => rfl
        | some v =>
          have hmem := lookup_mem hl
          have := hw'.keys _ hmem
          exact absurd (key_inj this.2 hnf this.1.symm) (hm _ hmem)
      by_cases hcm : conf m = true ∧ db.lookup m ≠ none
      · obtain ⟨r, hr⟩ := lookup_some_mem db _ hcm.2
        obtain ⟨v, h1, -⟩ := hrem m r hr hcm.1
        rw [h1] at hlk; cases hlk
      · have hc' : conf m = true → db.lookup m = none := by
          intro hc
          cases hl : db.lookup m with
          | none => rfl
          | some r => exact absurd ⟨hc, by simp [hl]⟩ hcm
        have hnone : conf m = true → ∀ r, (m, r) ∉ db := by
          intro hc r hr
          have := lookup_of_mem hd.1 hr
          rw [hc' hc] at this; cases this
        rw [hsame m hnf hnone, lookup_map, Option.map_eq_none_iff] at hlk
        have hr := hrel m hnf
        rw [hlk] at hr
        generalize hcur : run (fun n => db.lookup n) (xs.map Prod.fst) m = cur at hr
        cases hr with
        | none h1 =>
          unfold Final
          rw [hcur]
          cases hl : db.lookup m with
          | none => simp
          | some e =>
            have : ¬ Added (fun n => db.lookup n) (xs.map Prod.fst) m := h1 (by simp [hl])
            refine ⟨?_, fun _ h => absurd h this, fun _ _ => rfl⟩
            intro hc; rw [hc' hc] at hl; cases hl
    · have h1 : db.lookup m = none := not_mem_lookup (fun r hr => hnf (hd.2 _ hr).1)
      have h2 : run (fun n => db.lookup n) (xs.map Prod.fst) m = none := by
        rw [run_other]
        · exact h1
        · intro x hx e
          obtain ⟨y, hy, rfl⟩ := List.mem_map.mp hx
          exact hnf (e ▸ (hl y hy).1)
      unfold Final
      rw [h2]; exact h1
  intro u'' hperm
  obtain ⟨db', h1, h2, h3⟩ := commit_eq db u''
    ((hperm.map _).nodup_iff.mpr (wf_members hw')) (fun p hp => (hent p (hperm.mem_iff.mp hp)).1)
  refine ⟨db', h1, ?_⟩
  intro m
  by_cases hex : ∃ p ∈ u'', p.2.member = m
  · obtain ⟨p, hp, rfl⟩ := hex
    rw [h2 p hp]
    exact (hent p (hperm.mem_iff.mp hp)).2
  · have hex' : ∀ p ∈ u'', p.2.member ≠ m := fun p hp e => hex ⟨p, hp, e⟩
    rw [h3 m hex']
    exact hno m (fun p hp => hex' p (hperm.mem_iff.mpr hp))

/-- Purge of a catalog zone. -/
theorem delAll_eq (zone : Name) (db : Db) (hd : db.Ok) {u : Upd} (hw : WF u)
    (hp : ∀ m r, (m, r) ∈ db → u.lookup (key m) = none) :
    ∃ u', delAll u zone db = .ok u' ∧ WF u' ∧
      (∀ m r, (m, r) ∈ db → r.catz = zone → ∃ v, u'.lookup (key m) = some v ∧ v.type = .rem) ∧
      (∀ m, Nf m → (∀ r, (m, r) ∈ db → r.catz ≠ zone) → u'.lookup (key m) = u.lookup (key m)) := by
  induction db generalizing u with
  | nil => exact ⟨u, rfl, hw, by simp, fun _ _ _ => rfl⟩
  | cons p db ih =>
    obtain ⟨m, r⟩ := p
    have hn := hd.1
    simp only [List.map_cons, List.nodup_cons] at hn
    have hd' : Db.Ok db := ⟨hn.2, fun q hq => hd.2 q (by simp [hq])⟩
    have hm : Nf m := (hd.2 (m, r) (by simp)).1
    have hcz : r.catz <:+ r.owner := (hd.2 (m, r) (by simp)).2
    simp only [delAll]
    by_cases hc : r.catz = zone
    · rw [if_pos hc]
      have h1 : upd1 m r.owner r.catz .rem [] none (u.lookup (key m)) =
          .ok (some (valNew m r.owner r.catz .rem)) := by
        rw [hp m r (by simp)]; simp [upd1]
      obtain ⟨u1, h3, h4, h5, h6⟩ := updateAdd_eff hw hm hcz (.inl rfl) [] none h1
      rw [h3]
      simp only [Res.bind_ok]
      have hk : ∀ m' r', (m', r') ∈ db → key m' ≠ key m := by
        intro m' r' hmem hk
        have := key_inj (hd'.2 _ hmem).1 hm hk
        subst this
        exact hn.1 (List.mem_map.mpr ⟨_, hmem, rfl⟩)
      obtain ⟨u2, h7, h8, h9, h10⟩ := ih hd' h4 (by
        intro m' r' hmem
        rw [h6 _ (hk m' r' hmem)]
        exact hp m' r' (by simp [hmem]))
      refine ⟨u2, h7, h8, ?_, ?_⟩
      · intro m' r' hmem hc'
        rcases List.mem_cons.mp hmem with e | hmem
        · injection e with e1 e2
          subst e1 e2
          refine ⟨valNew m' r'.owner r'.catz .rem, ?_, by simp [valNew]⟩
          rw [h10 m' hm (fun r2 h2 => absurd (List.mem_map.mpr ⟨_, h2, rfl⟩) hn.1), h5]
        · exact h9 m' r' hmem hc'
      · intro m' hm' hnot
        rw [h10 m' hm' (fun r' hmem => hnot r' (by simp [hmem]))]
        by_cases e : key m' = key m
        · have := key_inj hm' hm e
          subst this
          exact absurd hc (hnot r (by simp))
        · exact h6 _ e
    · rw [if_neg hc]
      obtain ⟨u2, h7, h8, h9, h10⟩ := ih hd' hw
        (fun m' r' hmem => hp m' r' (by simp [hmem]))
      refine ⟨u2, h7, h8, ?_, ?_⟩
      · intro m' r' hmem hc'
        rcases List.mem_cons.mp hmem with e | hmem
        · injection e with e1 e2
          subst e1 e2
          exact absurd hc' hc
        · exact h9 m' r' hmem hc'
      · intro m' hm' hnot
        exact h10 m' hm' (fun r' hmem => hnot r' (by simp [hmem]))

theorem purge {db : Db} (hd : db.Ok) (zone : Name) :
    ∃ u, delAll [] zone db = .ok u ∧ ∀ u', List.Perm u' u → ∃ db', commit db u' = .ok db' ∧
      ∀ m, db'.lookup m = (db.lookup m).filter (fun r => r.catz ≠ zone) := by
  obtain ⟨u, h1, hw, h2, h3⟩ := delAll_eq zone db hd (u := []) ⟨by simp, by simp⟩ (by simp)
  refine ⟨u, h1, ?_⟩
  intro u' hperm
  have hent : ∀ p ∈ u, p.2.type = .rem ∧ ∃ r, (p.2.member, r) ∈ db ∧ r.catz = zone := by
    intro p hp
    obtain ⟨hk, hnf⟩ := hw.keys p hp
    have hlk := lookup_of_mem hw.nodup (show (p.1, p.2) ∈ u from hp)
    rw [hk] at hlk
    have hex : ∃ r, (p.2.member, r) ∈ db ∧ r.catz = zone := by
      refine Classical.byContradiction fun hne => ?_
      rw [h3 _ hnf (fun r hr e => hne ⟨r, hr, e⟩)] at hlk
      simp at hlk
    obtain ⟨r, hr, hz⟩ := hex
    obtain ⟨v, h4, h5⟩ := h2 _ r hr hz
    rw [h4] at hlk
    injection hlk with hlk
    subst hlk
    exact ⟨h5, r, hr, hz⟩
  obtain ⟨db', h4, h5, h6⟩ := commit_eq db u'
    ((hperm.map _).nodup_iff.mpr (wf_members hw)) (fun p hp => .inl (hent p (hperm.mem_iff.mp hp)).1)
  refine ⟨db', h4, ?_⟩
  intro m
  by_cases hex : ∃ p ∈ u', p.2.member = m
  · obtain ⟨p, hp, rfl⟩ := hex
    obtain ⟨h7, r, h8, h9⟩ := hent p (hperm.mem_iff.mp hp)
    rw [h5 p hp, lookup_of_mem hd.1 h8]
    simp [eff, h7, h9, Option.filter]
  · have hex' : ∀ p ∈ u', p.2.member ≠ m := fun p hp e => hex ⟨p, hp, e⟩
    rw [h6 m hex']
    cases hl : db.lookup m with
    | none => rfl
    | some r =>
      have hmem := lookup_mem hl
      have : r.catz ≠ zone := by
        intro hz
        obtain ⟨v, h7, -⟩ := h2 m r hmem hz
        have hm2 := lookup_mem h7
        have hk := hw.keys _ hm2
        exact hex' _ (hperm.mem_iff.mpr hm2) (key_inj hk.2 (hd.2 _ hmem).1 hk.1.symm)
      simp [this, Option.filter]

end Knot.Catalog
