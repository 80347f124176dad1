import Verif.Confio.Lemmas
namespace Knot.Confio

/-! Zone databases -/

theorem lookup_map (names : List Name) (f : Name → Obj) (z : Name) :
    lookup (names.map (fun y => (y, f y))) z = if z ∈ names then some (f z) else none := by
  unfold lookup
  induction names with
  | nil => rfl
  | cons y ys ih =>
    rw [List.map_cons, List.find?_cons]
    by_cases h : y = z
    · subst h; simp
    · have hb : (y == z) = false := beq_eq_false_iff_ne.2 h
      simp only [hb]
      rw [ih]
      by_cases hz : z ∈ ys
      · rw [if_pos hz, if_pos (.tail _ hz)]
      · rw [if_neg hz, if_neg]
        intro hm
        cases hm with
        | head => exact h rfl
        | tail _ hm => exact hz hm

theorem mark_fst (t : Trie) (p : Name × Obj) : (mark t p).1 = p.1 := by
  unfold mark; split <;> rfl

theorem mark_gen (t : Trie) (p : Name × Obj) : (mark t p).2.gen = p.2.gen := by
  unfold mark; split <;> rfl

theorem mark_cfg (t : Trie) (p : Name × Obj) : (mark t p).2.cfg = p.2.cfg := by
  unfold mark; split <;> rfl

theorem mark_some {t : Trie} {p : Name × Obj} {y : Typ} (h : t.get p.1 = some y) :
    (mark t p).2.change = y := by
  unfold mark; rw [h]

theorem mark_none {t : Trie} {p : Name × Obj} (h : t.get p.1 = none) : mark t p = p := by
  unfold mark; rw [h]

theorem lookup_mark (t : Trie) (db : List (Name × Obj)) (z : Name) :
    lookup (db.map (mark t)) z = (lookup db z).map (fun o => (mark t (z, o)).2) := by
  unfold lookup
  induction db with
  | nil => rfl
  | cons p db ih =>
    rw [List.map_cons, List.find?_cons, List.find?_cons, mark_fst]
    by_cases h : p.1 = z
    · subst h; simp
    · have hb : (p.1 == z) = false := beq_eq_false_iff_ne.2 h
      simp only [hb]
      exact ih

/-! The set of zones -/

/-- Without any reload flag the configured names are those of the start. -/
def NamesKept (base : Conf) (c : Conf) (f : Flags) (_ : Trie) : Prop :=
  f.rldZone = false → f.rldZones = false → c.names = base.names

theorem all_names (c : Conf) (i : Item) (g : List Val → List Val) : (c.all i g).names = c.names := rfl
theorem upd_names (c : Conf) (z : Name) (g : ZCfg) : (c.upd z g).names = c.names := rfl

theorem namesKept_step {S : Schema} {base : Conf} (s s' : Txn) (o : Op) (_ : True)
    (h : NamesKept base s.conf s.flags s.trie) (hs : step S s o = .ok s') :
    NamesKept base s'.conf s'.flags s'.trie := by
  intro h1 h2
  have hg := step_grows hs
  have f1 : s.flags.rldZone = false := by
    cases e : s.flags.rldZone with
    | false => rfl
    | true => rw [hg.1 e] at h1; cases h1
  have f2 : s.flags.rldZones = false := by
    cases e : s.flags.rldZones with
    | false => rfl
    | true => rw [hg.2 e] at h2; cases h2
  have hn := h f1 f2
  rcases step_cases hs with ⟨z, c, k, r, a, hu, hc⟩ | ⟨c, r, a, rfl, hc⟩ | ⟨c, _, rfl⟩ | ⟨rfl, _⟩ | ⟨_, rfl⟩ |
    ⟨_, rfl⟩
  · obtain ⟨t, _, rfl⟩ := updOne_ok hu
    dsimp only at h1
    rcases hc with ⟨_, _, _, rfl, _⟩ | ⟨_, _, _, rfl, _⟩ | ⟨i, l, _, _, _, _, _, rfl⟩
    · simp at h1
    · simp at h1
    · exact hn
  · rcases hc with ⟨_, rfl, _⟩ | ⟨i, g, _, _, _, rfl⟩
    · simp [updAny] at h1
    · exact hn
  · cases h2
  · exact hn
  · cases h2
  · cases h2

theorem namesKept {S : Schema} {v : Srv} {cmds : List (List Op)} {s : Txn}
    (h : commands S (begin' v) cmds = some s) : NamesKept v.conf s.conf s.flags s.trie := by
  refine commands_inv (S := S) (NamesKept v.conf) (fun _ => True) namesKept_step ?_ cmds _ s
    (fun _ _ _ _ => trivial) (fun _ _ => rfl) h
  intro c s s' o _ h1 _ hs h2 h3
  have hg := step_grows hs
  refine h1 ?_ ?_
  · cases e : s.flags.rldZone with
    | false => rfl
    | true => rw [hg.1 e] at h2; cases h2
  · cases e : s.flags.rldZones with
    | false => rfl
    | true => rw [hg.2 e] at h3; cases h3

/-- A committed transaction. -/
theorem transact_done {S : Schema} {r : Conf → Bool} {k : Conf → Name → Bool} {v v' : Srv}
    {cmds : List (List Op)} (h : transact S r k v cmds = .done v') :
    ∃ s, commands S (begin' v) cmds = some s ∧ check r k s = true ∧ reload v s = some v' := by
  unfold transact at h
  split at h
  · rename_i s hs
    split at h
    · rename_i hc
      split at h
      · rename_i w hw
        injection h with h; subst h
        exact ⟨s, hs, hc, hw⟩
      · cases h
    · cases h
  · cases h

theorem reload_conf {v v' : Srv} {s : Txn} (h : reload v s = some v') : v'.conf = s.conf := by
  unfold reload at h
  split at h
  · injection h with h; subst h; rfl
  · split at h
    · unfold reloadChanged at h
      split at h
      · cases h
      · dsimp only at h
        split at h
        · cases h
        · injection h with h; subst h; rfl
    · injection h with h; subst h; rfl

/-- The objects after a reload that was not empty. -/
theorem reload_db {v v' : Srv} {s : Txn} (h : reload v s = some v') :
    (s.flags.rldZones = true ∧ v' = reloadAll v s) ∨
    (s.flags.rldZones = false ∧ s.flags.rldZone = true ∧ reloadChanged v s = some v' ∧
      v'.db = s.conf.names.map (fun z => (z, newObj v s.conf (v.db.map (mark s.trie)) z)) ∧
      v'.gen = v.gen + 1 ∧
      v'.freed = v.freed ++ ((v.db.map (mark s.trie)).filter
        (fun p => p.2.change.reload || p.2.change.unset)).map (fun p => (p.1, p.2.gen))) ∨
    (s.flags.rldZones = false ∧ s.flags.rldZone = false ∧ v' = { v with conf := s.conf }) := by
  unfold reload at h
  split at h
  · rename_i hz
    injection h with h
    exact .inl ⟨hz, h.symm⟩
  · rename_i hz
    have hz' : s.flags.rldZones = false := by simpa using hz
    split at h
    · rename_i hr
      have h0 := h
      unfold reloadChanged at h
      split at h
      · cases h
      · dsimp only at h
        split at h
        · cases h
        · injection h with h; subst h
          exact .inr (.inl ⟨hz', hr, h0, rfl, rfl, rfl⟩)
    · rename_i hr
      injection h with h
      exact .inr (.inr ⟨hz', by simpa using hr, h.symm⟩)

/-! Tracked zones against the names, for operations given one by one. -/

/-- The tracked zones say which zones came and went. -/
def Names (base : Conf) (s : Txn) : Prop :=
  ∀ z, (s.trie.get z = none → (z ∈ s.conf.names ↔ z ∈ base.names)) ∧
    (∀ y, s.trie.get z = some y →
      (y.set = true → z ∉ base.names ∧ z ∈ s.conf.names ∧ y.unset = false) ∧
      (y.set = false → z ∈ base.names ∧ (y.unset = true ↔ z ∉ s.conf.names)))

/-- A zone without an entry is as it was. -/
def Same (base : Conf) (s : Txn) : Prop :=
  ∀ z, s.trie.get z = none → s.conf.get z = base.get z

theorem get_upd_other (c : Conf) {y z : Name} (g : ZCfg) (h : y ≠ z) :
    (c.upd z g).get y = c.get y := by
  unfold Conf.get Conf.upd
  simp only [h, if_false]

theorem names_add {c : Conf} {y z : Name} (h : y ≠ z) (g : Name → ZCfg) :
    y ∈ (⟨z :: c.names, g⟩ : Conf).names ↔ y ∈ c.names := by
  show y ∈ z :: c.names ↔ _
  constructor
  · intro hm
    cases hm with
    | head => exact absurd rfl h
    | tail _ hm => exact hm
  · exact .tail _

theorem names_del {c : Conf} {y z : Name} (h : y ≠ z) :
    y ∈ c.names.filter (· != z) ↔ y ∈ c.names := by
  rw [List.mem_filter]
  constructor
  · exact (·.1)
  · intro hm; exact ⟨hm, by simpa using h⟩

theorem names_del_self {c : Conf} {z : Name} : z ∉ c.names.filter (· != z) := by
  rw [List.mem_filter]
  intro h; simpa using h.2

/-- The operation does not remove zones without naming them. -/
def Names' (o : Op) : Prop := o ≠ .delZones ∧ ∀ c, o ≠ .bulk c

theorem names_step {S : Schema} {base : Conf} {s s' : Txn} {o : Op} (h : Names base s)
    (hs : step S s o = .ok s') :
    Names base s' ∨ (s'.flags.rldZones = true ∧ s'.flags.diff = true ∧
      ((o = .delZones ∧ s'.flags.check = true) ∨ ∃ c, o = .bulk c)) := by
  rcases step_cases hs with ⟨z, c, k, r, a, hu, hc⟩ | ⟨c, r, a, rfl, hc⟩ | ⟨c, ho, rfl⟩ | ⟨rfl, _⟩ | ⟨_, rfl⟩ |
    ⟨_, rfl⟩
  · obtain ⟨t, ht, rfl⟩ := updOne_ok hu
    left
    rcases hc with ⟨_, hz, rfl, _, _, rfl⟩ | ⟨_, hz, rfl, _, _, rfl⟩ | ⟨i, l, _, hz, rfl, _, _, rfl⟩
    · -- a zone added
      intro y
      by_cases hy : y = z
      · subst hy
        have hmem : y ∈ y :: s.conf.names := .head _
        rw [track_set] at ht
        dsimp only
        cases hg : s.trie.get y with
        | none =>
          rw [hg] at ht
          simp only [Option.getD_none, Bool.false_eq_true, if_false, if_true] at ht
          injection ht with ht; subst ht
          rw [get_put_same]
          have hb : y ∉ base.names := fun hb => hz (((h y).1 hg).2 hb)
          refine ⟨fun e => (by cases e), ?_⟩
          intro v hv; injection hv with hv; subst hv
          exact ⟨fun _ => ⟨hb, hmem, rfl⟩, fun e => by cases e⟩
        | some v =>
          rw [hg] at ht
          simp only [Option.getD_some] at ht
          obtain ⟨ha, hb⟩ := (h y).2 v hg
          have hns : v.set = false := by
            cases e : v.set with
            | false => rfl
            | true => exact absurd (ha e).2.1 hz
          obtain ⟨hbase, hun⟩ := hb hns
          have hunset : v.unset = true := hun.2 hz
          rw [if_pos hunset] at ht
          injection ht with ht; subst ht
          rw [get_put_same]
          refine ⟨fun e => (by cases e), ?_⟩
          intro w hw; injection hw with hw; subst hw
          dsimp only
          refine ⟨fun e => ?_, fun _ => ⟨hbase, ?_⟩⟩
          · rw [hns] at e; cases e
          · constructor
            · intro e; cases e
            · intro e; exact absurd hmem e
      · dsimp only
        rw [track_other ht hy, show (y ∈ z :: s.conf.names) ↔ y ∈ s.conf.names from
          names_add (c := s.conf) hy (s.conf.upd z noCfg).cfg]
        exact h y
    · -- a zone removed
      intro y
      by_cases hy : y = z
      · subst hy
        have hmem : y ∉ s.conf.names.filter (· != y) := names_del_self
        rw [track_unset] at ht
        dsimp only
        cases hg : s.trie.get y with
        | none =>
          rw [hg] at ht
          simp only [Option.getD_none, Bool.false_eq_true, if_false] at ht
          injection ht with ht; subst ht
          rw [get_put_same]
          refine ⟨fun e => (by cases e), ?_⟩
          intro v hv; injection hv with hv; subst hv
          exact ⟨fun e => (by cases e), fun _ => ⟨((h y).1 hg).1 hz, ⟨fun _ => hmem, fun _ => rfl⟩⟩⟩
        | some v =>
          rw [hg] at ht
          simp only [Option.getD_some] at ht
          obtain ⟨ha, hb⟩ := (h y).2 v hg
          split at ht
          · rename_i hset
            injection ht with ht; subst ht
            rw [get_del_same]
            refine ⟨fun _ => ⟨fun e => absurd e hmem, fun e => absurd e (ha hset).1⟩, ?_⟩
            intro w hw; cases hw
          · rename_i hset
            have hns : v.set = false := by simpa using hset
            injection ht with ht; subst ht
            rw [get_put_same]
            refine ⟨fun e => (by cases e), ?_⟩
            intro w hw; injection hw with hw; subst hw
            dsimp only
            refine ⟨fun e => ?_, fun _ => ⟨(hb hns).1, ⟨fun _ => hmem, fun _ => rfl⟩⟩⟩
            rw [hns] at e; cases e
      · dsimp only
        rw [track_other ht hy, names_del hy]
        exact h y
    · -- an item changed
      intro y
      by_cases hy : y = z
      · subst hy
        rw [track_change] at ht
        injection ht with ht
        subst ht
        dsimp only
        rw [get_put_same, upd_names]
        refine ⟨fun e => (by cases e), ?_⟩
        intro w hw; injection hw with hw; subst hw
        dsimp only
        cases hg : s.trie.get y with
        | none =>
          simp only [Option.getD_none]
          refine ⟨fun e => (by cases e), fun _ => ⟨((h y).1 hg).1 hz, ⟨fun e => (by cases e), fun e => absurd hz e⟩⟩⟩
        | some v =>
          simp only [Option.getD_some]
          exact (h y).2 v hg
      · dsimp only
        rw [track_other ht hy, upd_names]
        exact h y
  · rcases hc with ⟨rfl, rfl, _⟩ | ⟨i, g, _, _, _, rfl⟩
    · right; exact ⟨by simp [updAny], rfl, .inl ⟨rfl, rfl⟩⟩
    · left; exact h
  · right; exact ⟨rfl, rfl, .inr ⟨c, ho⟩⟩
  · left; exact h
  · left; exact h
  · left; exact h

theorem same_step {S : Schema} {base : Conf} {s s' : Txn} {o : Op} (hn : Names base s)
    (h : Same base s) (hs : step S s o = .ok s') :
    Same base s' ∨ (s'.flags.diff = true ∧ (s'.flags.check = true ∨ ∃ c, o = .bulk c)) := by
  rcases step_cases hs with ⟨z, c, k, r, a, hu, hc⟩ | ⟨c, r, a, rfl, hc⟩ | ⟨c, ho, rfl⟩ | ⟨rfl, _⟩ | ⟨_, rfl⟩ |
    ⟨_, rfl⟩
  · obtain ⟨t, ht, rfl⟩ := updOne_ok hu
    left
    rcases hc with ⟨_, hz, rfl, _, _, rfl⟩ | ⟨_, hz, rfl, _, _, rfl⟩ | ⟨i, l, _, hz, rfl, _, _, rfl⟩
    · intro y
      by_cases hy : y = z
      · subst hy
        dsimp only
        rcases track_ok ht with rfl | ⟨v, rfl⟩
        · intro _
          rw [track_set] at ht
          split at ht
          · exfalso; injection ht with ht
            have := congrArg (fun t => Trie.get t y) ht
            simp [get_put_same, get_del_same] at this
          · split at ht
            · exfalso; injection ht with ht
              have := congrArg (fun t => Trie.get t y) ht
              simp [get_put_same, get_del_same] at this
            · cases ht
        · rw [get_put_same]; intro e; cases e
      · dsimp only
        rw [track_other ht hy]
        intro hg
        rw [← h y hg]
        unfold Conf.get Conf.upd
        dsimp only
        simp only [hy, if_false, names_add (c := s.conf) hy (s.conf.upd z noCfg).cfg, List.mem_cons, false_or]
    · intro y
      by_cases hy : y = z
      · subst hy
        dsimp only
        rw [track_unset] at ht
        split at ht
        · rename_i hset
          intro _
          cases hg : s.trie.get y with
          | none => rw [hg] at hset; cases hset
          | some v =>
            rw [hg] at hset
            have hb := (((hn y).2 v hg).1 hset).1
            unfold Conf.get
            rw [if_neg hb, if_neg names_del_self]
        · injection ht with ht; subst ht
          rw [get_put_same]; intro e; cases e
      · dsimp only
        rw [track_other ht hy]
        intro hg
        rw [← h y hg]
        unfold Conf.get Conf.upd
        dsimp only
        simp only [hy, if_false, names_del (c := s.conf) hy]
    · intro y
      by_cases hy : y = z
      · subst hy
        rw [track_change] at ht
        injection ht with ht; subst ht
        dsimp only
        rw [get_put_same]; intro e; cases e
      · dsimp only
        rw [track_other ht hy]
        intro hg
        rw [← h y hg, get_upd_other _ _ hy]
  · right; exact ⟨rfl, .inl rfl⟩
  · right; exact ⟨rfl, .inr ⟨c, ho⟩⟩
  · left; exact h
  · left; exact h
  · left; exact h

/-- No assertion fails while the names are tracked. -/
theorem names_no_abort {S : Schema} {base : Conf} {s : Txn} {o : Op} (h : Names base s) :
    step S s o ≠ .abort := by
  have key : ∀ (c : Conf) (z : Name) (k : Typ) (r a : Bool), (k.set = true → z ∉ s.conf.names) →
      updOne s c z k r a ≠ .abort := by
    intro c z k r a hz
    unfold updOne
    split
    · intro e; cases e
    · intro e; cases e
    · rename_i ht
      exfalso
      unfold track at ht
      dsimp only at ht
      split at ht
      · rename_i hk
        split at ht
        · cases ht
        · rename_i hun
          split at ht
          · cases ht
          · rename_i hne
            cases hg : s.trie.get z with
            | none => rw [hg] at hne; exact hne rfl
            | some v =>
              rw [hg] at hun
              obtain ⟨ha, hb⟩ := (h z).2 v hg
              cases e : v.set with
              | true => exact hz hk (ha e).2.1
              | false => exact hun (((hb e).2).2 (hz hk))
      · split at ht
        · split at ht <;> cases ht
        · cases ht
  cases o with
  | addZone z =>
    simp only [step]
    split
    · intro e; cases e
    · rename_i hz; exact key _ _ _ _ _ (fun _ => hz)
  | delZone z =>
    simp only [step]
    split
    · exact key _ _ _ _ _ (fun e => by cases e)
    · intro e; cases e
  | setItem z i v =>
    simp only [step]
    split
    · exact key _ _ _ _ _ (fun e => by cases e)
    · intro e; cases e
  | unsetItem z i v =>
    simp only [step]
    split
    · split
      · intro e; cases e
      · exact key _ _ _ _ _ (fun e => by cases e)
    · intro e; cases e
  | delZones => simp only [step]; split <;> intro e <;> cases e
  | setAll i v => simp only [step]; split <;> intro e <;> cases e
  | unsetAll i v => simp only [step]; split <;> intro e <;> cases e
  | bulk c => simp only [step]; intro e; cases e
  | plain => simp only [step]; intro e; cases e
  | zones => simp only [step]; intro e; cases e
  | refs => simp only [step]; intro e; cases e
  | bad => simp only [step]; intro e; cases e

theorem names_begin (v : Srv) : Names v.conf (begin' v) := by
  intro z
  exact ⟨fun _ => Iff.rfl, fun y hy => by cases hy⟩

theorem same_begin (v : Srv) : Same v.conf (begin' v) := by
  intro z _; rfl

end Knot.Confio
