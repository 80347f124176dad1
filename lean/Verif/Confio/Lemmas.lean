import Verif.Confio.Spec
namespace Knot.Confio

/-! Tries -/

theorem get_nil (z : Name) : Trie.get [] z = none := rfl

theorem get_del_same (t : Trie) (z : Name) : (t.del z).get z = none := by
  unfold Trie.del Trie.get
  rw [Option.map_eq_none_iff, List.find?_eq_none]
  intro p hp
  rw [List.mem_filter] at hp
  have h := hp.2
  simp only [bne_iff_ne, ne_eq] at h
  simp [h]

theorem get_del_other (t : Trie) {y z : Name} (h : y ≠ z) : (t.del z).get y = t.get y := by
  unfold Trie.del Trie.get
  congr 1
  induction t with
  | nil => rfl
  | cons p t ih =>
    rw [List.filter_cons]
    split
    · rw [List.find?_cons, List.find?_cons, ih]
    · rename_i hp
      have hz : p.1 = z := by simpa using hp
      have : (p.1 == y) = false := by
        rw [hz]; exact beq_eq_false_iff_ne.2 (fun e => h e.symm)
      rw [ih, List.find?_cons, this]

theorem get_put_same (t : Trie) (z : Name) (v : Typ) : (t.put z v).get z = some v := by
  unfold Trie.put Trie.get; simp

theorem get_put_other (t : Trie) {y z : Name} (v : Typ) (h : y ≠ z) :
    (t.put z v).get y = t.get y := by
  rw [← get_del_other t h]
  unfold Trie.put Trie.get
  rw [List.find?_cons]
  have : (z == y) = false := beq_eq_false_iff_ne.2 (fun e => h e.symm)
  simp [this]

/-- Keys are unique. -/
def Uniq (t : Trie) : Prop := ∀ p ∈ t, t.get p.1 = some p.2

theorem uniq_nil : Uniq [] := by intro p hp; cases hp

theorem uniq_del {t : Trie} (h : Uniq t) (z : Name) : Uniq (t.del z) := by
  intro p hp
  unfold Trie.del at hp
  rw [List.mem_filter] at hp
  have hz : p.1 ≠ z := by simpa using hp.2
  rw [get_del_other t hz]
  exact h p hp.1

theorem uniq_put {t : Trie} (h : Uniq t) (z : Name) (v : Typ) : Uniq (t.put z v) := by
  intro p hp
  unfold Trie.put at hp
  cases hp with
  | head => exact get_put_same t z v
  | tail _ hp =>
    have hp' := List.mem_filter.1 (show p ∈ t.filter (fun p => p.1 != z) from hp)
    have hz : p.1 ≠ z := by simpa using hp'.2
    rw [get_put_other t v hz]
    exact h p hp'.1

theorem mem_of_get {t : Trie} {z : Name} {v : Typ} (h : t.get z = some v) : (z, v) ∈ t := by
  unfold Trie.get at h
  rw [Option.map_eq_some_iff] at h
  obtain ⟨p, hp, rfl⟩ := h
  have h1 := List.find?_some hp
  have h2 := List.mem_of_find?_eq_some hp
  have : p.1 = z := by simpa using h1
  rw [← this]; exact h2

theorem track_set (t : Trie) (z : Name) (b : Bool) :
    track t z { set := true } b
      = if ((t.get z).getD {}).unset then .ok (t.put z { (t.get z).getD {} with unset := false })
        else if (t.get z).getD {} = {} then .ok (t.put z { set := true }) else .abort := rfl

theorem track_unset (t : Trie) (z : Name) (b : Bool) :
    track t z { unset := true } b
      = if ((t.get z).getD {}).set then .ok (t.del z)
        else .ok (t.put z { (t.get z).getD {} with unset := true }) := rfl

theorem track_change (t : Trie) (z : Name) (b : Bool) :
    track t z { change := true } b
      = .ok (t.put z { (t.get z).getD {} with
          change := true, reload := ((t.get z).getD {}).reload || b }) := rfl

/-! One operation. -/

/-- What `step` does, case by case. -/
theorem step_cases {S : Schema} {s s' : Txn} {o : Op} (h : step S s o = .ok s') :
    (∃ (z : Name) (c : Conf) (kind : Typ) (r a : Bool),
        updOne s c z kind r a = .ok s' ∧
        ((o = .addZone z ∧ z ∉ s.conf.names ∧ kind = { set := true } ∧ r = true ∧ a = false ∧
            c = { names := z :: s.conf.names, cfg := (s.conf.upd z noCfg).cfg }) ∨
         (o = .delZone z ∧ z ∈ s.conf.names ∧ kind = { unset := true } ∧ r = true ∧ a = false ∧
            c = { names := s.conf.names.filter (· != z), cfg := (s.conf.upd z noCfg).cfg }) ∨
         (∃ (i : Item) (l : List Val), ((∃ v, o = .setItem z i v) ∨ (∃ v, o = .unsetItem z i v)) ∧
            z ∈ s.conf.names ∧ kind = { change := true } ∧ r = S.rld i ∧ a = S.rldAll i ∧
            c = s.conf.upd z ((s.conf.cfg z).upd i l)))) ∨
    (∃ (c : Conf) (r a : Bool), s' = updAny s c r a ∧
        ((o = .delZones ∧ r = true ∧ c.names = []) ∨
         (∃ (i : Item) (f : List Val → List Val), ((∃ v, o = .setAll i v) ∨ (∃ v, o = .unsetAll i v)) ∧
            r = S.rld i ∧ a = S.rldAll i ∧ c = s.conf.all i f))) ∨
    (∃ c, o = .bulk c ∧
        s' = { conf := c, trie := s.trie, flags := { s.flags with diff := true, rldZones := true } }) ∨
    (s' = s ∧ ((o = .delZones ∧ s.conf.names = []) ∨ (∃ i v, o = .setAll i v) ∨
        (∃ i v, o = .unsetAll i v) ∨ o = .plain)) ∨
    (o = .zones ∧ s' = { s with flags := { s.flags with rldZones := true } }) ∨
    (o = .refs ∧ s' = { s with flags := { s.flags with check := true, rldZones := true } }) := by
  cases o with
  | addZone z =>
    simp only [step] at h
    split at h
    · cases h
    · exact .inl ⟨z, _, _, _, _, h, .inl ⟨rfl, by assumption, rfl, rfl, rfl, rfl⟩⟩
  | delZone z =>
    simp only [step] at h
    split at h
    · exact .inl ⟨z, _, _, _, _, h, .inr (.inl ⟨rfl, by assumption, rfl, rfl, rfl, rfl⟩)⟩
    · cases h
  | setItem z i v =>
    simp only [step] at h
    split at h
    · exact .inl ⟨z, _, _, _, _, h, .inr (.inr ⟨i, _, .inl ⟨v, rfl⟩, by assumption, rfl, rfl, rfl, rfl⟩)⟩
    · cases h
  | unsetItem z i v =>
    simp only [step] at h
    split at h
    · split at h
      · cases h
      · exact .inl ⟨z, _, _, _, _, h, .inr (.inr ⟨i, _, .inr ⟨v, rfl⟩, by assumption, rfl, rfl, rfl, rfl⟩)⟩
    · cases h
  | delZones =>
    simp only [step] at h
    split at h
    · injection h with h; exact .inr (.inr (.inr (.inl ⟨h.symm, .inl ⟨rfl, by assumption⟩⟩)))
    · injection h with h; exact .inr (.inl ⟨_, _, _, h.symm, .inl ⟨rfl, rfl, rfl⟩⟩)
  | setAll i v =>
    simp only [step] at h
    split at h
    · injection h with h; exact .inr (.inr (.inr (.inl ⟨h.symm, .inr (.inl ⟨_, _, rfl⟩)⟩)))
    · injection h with h
      exact .inr (.inl ⟨_, _, _, h.symm, .inr ⟨i, _, .inl ⟨v, rfl⟩, rfl, rfl, rfl⟩⟩)
  | unsetAll i v =>
    simp only [step] at h
    split at h
    · injection h with h; exact .inr (.inr (.inr (.inl ⟨h.symm, .inr (.inr (.inl ⟨_, _, rfl⟩))⟩)))
    · injection h with h
      exact .inr (.inl ⟨_, _, _, h.symm, .inr ⟨i, _, .inr ⟨v, rfl⟩, rfl, rfl, rfl⟩⟩)
  | bulk c =>
    simp only [step] at h
    injection h with h; exact .inr (.inr (.inl ⟨c, rfl, h.symm⟩))
  | plain =>
    simp only [step] at h
    injection h with h; exact .inr (.inr (.inr (.inl ⟨h.symm, .inr (.inr (.inr rfl))⟩)))
  | zones =>
    simp only [step] at h
    injection h with h; exact .inr (.inr (.inr (.inr (.inl ⟨rfl, h.symm⟩))))
  | refs =>
    simp only [step] at h
    injection h with h; exact .inr (.inr (.inr (.inr (.inr ⟨rfl, h.symm⟩))))
  | bad => simp only [step] at h; cases h

theorem updOne_ok {s s' : Txn} {c : Conf} {z : Name} {k : Typ} {r a : Bool}
    (h : updOne s c z k r a = .ok s') :
    ∃ t, track s.trie z k r = .ok t ∧
      s' = { conf := c, trie := t,
             flags := { s.flags with
               rldZone := s.flags.rldZone || r, rldZones := s.flags.rldZones || a } } := by
  unfold updOne at h
  split at h
  · rename_i t ht; injection h with h; exact ⟨t, ht, h.symm⟩
  · cases h
  · cases h

/-- `track` changes the entry of one zone only, in a known way. -/
theorem track_ok {t t' : Trie} {z : Name} {k : Typ} {r : Bool} (h : track t z k r = .ok t') :
    t' = t.del z ∨ ∃ v, t' = t.put z v := by
  unfold track at h
  dsimp only at h
  split at h
  · split at h
    · injection h with h; exact .inr ⟨_, h.symm⟩
    · split at h
      · injection h with h; exact .inr ⟨_, h.symm⟩
      · cases h
  · split at h
    · split at h
      · injection h with h; exact .inl h.symm
      · injection h with h; exact .inr ⟨_, h.symm⟩
    · injection h with h; exact .inr ⟨_, h.symm⟩

theorem track_other {t t' : Trie} {y z : Name} {k : Typ} {r : Bool} (h : track t z k r = .ok t')
    (hy : y ≠ z) : t'.get y = t.get y := by
  rcases track_ok h with rfl | ⟨v, rfl⟩
  · exact get_del_other t hy
  · exact get_put_other t v hy

theorem track_uniq {t t' : Trie} {z : Name} {k : Typ} {r : Bool} (h : track t z k r = .ok t')
    (hu : Uniq t) : Uniq t' := by
  rcases track_ok h with rfl | ⟨v, rfl⟩
  · exact uniq_del hu z
  · exact uniq_put hu z v

/-- Flags are never taken back. -/
structure Grows (f g : Flags) : Prop where
  rldZone : f.rldZone = true → g.rldZone = true
  rldZones : f.rldZones = true → g.rldZones = true
  check : f.check = true → g.check = true
  diff : f.diff = true → g.diff = true

theorem Grows.refl (f : Flags) : Grows f f := ⟨id, id, id, id⟩
theorem Grows.trans {f g h : Flags} (a : Grows f g) (b : Grows g h) : Grows f h :=
  ⟨b.1 ∘ a.1, b.2 ∘ a.2, b.3 ∘ a.3, b.4 ∘ a.4⟩

theorem step_grows {S : Schema} {s s' : Txn} {o : Op} (h : step S s o = .ok s') :
    Grows s.flags s'.flags := by
  rcases step_cases h with ⟨z, c, k, r, a, hu, _⟩ | ⟨c, r, a, rfl, _⟩ | ⟨c, _, rfl⟩ | ⟨rfl, _⟩ | ⟨_, rfl⟩ |
    ⟨_, rfl⟩
  · obtain ⟨t, _, rfl⟩ := updOne_ok hu
    exact ⟨fun e => by simp [e], fun e => by simp [e], id, id⟩
  · exact ⟨fun e => by simp [updAny, e], fun e => by simp [updAny, e], fun _ => rfl, fun _ => rfl⟩
  · exact ⟨id, fun _ => rfl, id, fun _ => rfl⟩
  · exact .refl _
  · exact ⟨id, fun _ => rfl, id, id⟩
  · exact ⟨id, fun _ => rfl, fun _ => rfl, id⟩

theorem step_uniq {S : Schema} {s s' : Txn} {o : Op} (h : step S s o = .ok s') (hu : Uniq s.trie) :
    Uniq s'.trie := by
  rcases step_cases h with ⟨z, c, k, r, a, h', _⟩ | ⟨c, r, a, rfl, _⟩ | ⟨c, _, rfl⟩ | ⟨rfl, _⟩ | ⟨_, rfl⟩ |
    ⟨_, rfl⟩
  · obtain ⟨t, ht, rfl⟩ := updOne_ok h'
    exact track_uniq ht hu
  all_goals exact hu

/-! The effect on the configuration is the specified one. -/

theorem lessVals_eq (l : List Val) (v : Option Val) : lessVals l v = unsetVal l v := by
  unfold lessVals unsetVal; cases v <;> rfl

theorem newVals_eq (m : Bool) (l : List Val) (v : Val) : newVals m l v = setVal m l v := rfl

theorem step_effect {S : Schema} {s s' : Txn} {o : Op} (h : step S s o = .ok s') :
    effect S s.conf o = some s'.conf := by
  cases o with
  | addZone z =>
    simp only [step] at h
    simp only [effect, lessVals_eq, newVals_eq]
    split at h
    · cases h
    · rename_i hz
      obtain ⟨t, _, rfl⟩ := updOne_ok h
      rw [if_neg hz]; rfl
  | delZone z =>
    simp only [step] at h
    simp only [effect, lessVals_eq, newVals_eq]
    split at h
    · rename_i hz
      obtain ⟨t, _, rfl⟩ := updOne_ok h
      rw [if_pos hz]; rfl
    · cases h
  | setItem z i v =>
    simp only [step] at h
    simp only [effect, lessVals_eq, newVals_eq]
    split at h
    · rename_i hz
      obtain ⟨t, _, rfl⟩ := updOne_ok h
      rw [if_pos hz]; rfl
    · cases h
  | unsetItem z i v =>
    simp only [step] at h
    simp only [effect, lessVals_eq, newVals_eq]
    split at h
    · rename_i hz
      split at h
      · cases h
      · rename_i l hl
        obtain ⟨t, _, rfl⟩ := updOne_ok h
        rw [if_pos hz, hl]; rfl
    · cases h
  | delZones =>
    simp only [step] at h
    simp only [effect, lessVals_eq, newVals_eq]
    split at h <;> injection h with h <;> subst h
    · rename_i hn; rw [if_pos hn]
    · rename_i hn; rw [if_neg hn]; rfl
  | setAll i v =>
    simp only [step] at h
    simp only [effect, lessVals_eq, newVals_eq]
    split at h <;> injection h with h <;> subst h
    · rename_i hn; rw [if_pos hn]
    · rename_i hn; rw [if_neg hn]; rfl
  | unsetAll i v =>
    simp only [step] at h
    simp only [effect, lessVals_eq, newVals_eq]
    split at h <;> injection h with h <;> subst h
    · rename_i hn; rw [if_pos hn]
    · rename_i hn; rw [if_neg hn]; rfl
  | bulk c => simp only [step] at h; injection h with h; subst h; rfl
  | plain => simp only [step] at h; injection h with h; subst h; rfl
  | zones => simp only [step] at h; injection h with h; subst h; rfl
  | refs => simp only [step] at h; injection h with h; subst h; rfl
  | bad => simp only [step] at h; cases h

theorem updOne_not_refused {s : Txn} {c : Conf} {z : Name} {k : Typ} {r a : Bool} :
    updOne s c z k r a ≠ .refused := by
  unfold updOne
  split
  · intro h; cases h
  · rename_i h
    unfold track at h
    dsimp only at h
    split at h
    · split at h
      · cases h
      · split at h <;> cases h
    · split at h
      · split at h <;> cases h
      · cases h
  · intro h; cases h

theorem step_refused {S : Schema} {s : Txn} {o : Op} (h : step S s o = .refused) :
    effect S s.conf o = none := by
  cases o with
  | addZone z =>
    simp only [step] at h
    simp only [effect, lessVals_eq, newVals_eq]
    split at h
    · rename_i hz; rw [if_pos hz]
    · exact absurd h updOne_not_refused
  | delZone z =>
    simp only [step] at h
    simp only [effect, lessVals_eq, newVals_eq]
    split at h
    · exact absurd h updOne_not_refused
    · rename_i hz; rw [if_neg hz]
  | setItem z i v =>
    simp only [step] at h
    simp only [effect, lessVals_eq, newVals_eq]
    split at h
    · exact absurd h updOne_not_refused
    · rename_i hz; rw [if_neg hz]
  | unsetItem z i v =>
    simp only [step] at h
    simp only [effect, lessVals_eq, newVals_eq]
    split at h
    · rename_i hz
      split at h
      · rename_i hl; rw [if_pos hz, hl]; rfl
      · exact absurd h updOne_not_refused
    · rename_i hz; rw [if_neg hz]
  | delZones => simp only [step] at h; split at h <;> cases h
  | setAll i v => simp only [step] at h; split at h <;> cases h
  | unsetAll i v => simp only [step] at h; split at h <;> cases h
  | bulk c => simp only [step] at h; cases h
  | plain => simp only [step] at h; cases h
  | zones => simp only [step] at h; cases h
  | refs => simp only [step] at h; cases h
  | bad => rfl

theorem units_effect {S : Schema} : ∀ {os : List Op} {s s' : Txn} {b : Bool},
    units S s os = some (s', b) →
      (b = true → effects S s.conf os = some s'.conf) ∧ (b = false → effects S s.conf os = none) := by
  intro os
  induction os with
  | nil =>
    intro s s' b h
    simp only [units] at h
    injection h with h
    injection h with h1 h2
    subst h1; subst h2
    exact ⟨fun _ => rfl, fun e => by cases e⟩
  | cons o os ih =>
    intro s s' b h
    simp only [units] at h
    split at h
    · rename_i s1 h1
      have := ih h
      simp only [effects, step_effect h1, Option.bind_some]
      exact this
    · rename_i h1
      injection h with h
      injection h with h2 h3
      subst h3
      simp only [effects, step_refused h1, Option.bind_none]
      exact ⟨fun e => (by cases e), fun _ => trivial⟩
    · cases h

theorem command_effect {S : Schema} {os : List Op} {s s' : Txn} (h : command S s os = some s') :
    s'.conf = (effects S s.conf os).getD s.conf := by
  unfold command at h
  split at h
  · rename_i s1 h1
    injection h with h; subst h
    rw [(units_effect h1).1 rfl]; rfl
  · rename_i s1 h1
    injection h with h; subst h
    rw [(units_effect h1).2 rfl]; rfl
  · cases h

theorem commands_effect {S : Schema} : ∀ {cmds : List (List Op)} {s s' : Txn},
    commands S s cmds = some s' → s'.conf = outcome S s.conf cmds := by
  intro cmds
  induction cmds with
  | nil => intro s s' h; simp only [commands] at h; injection h with h; subst h; rfl
  | cons os rest ih =>
    intro s s' h
    simp only [commands] at h
    split at h
    · rename_i s1 h1
      rw [ih h, command_effect h1]; rfl
    · cases h

/-! Invariants over commands that may be undone. -/

/-- An invariant of the flags and the tracked zones with the database, which also
holds of an older database. -/
theorem commands_inv {S : Schema} (P : Conf → Flags → Trie → Prop) (Q : Op → Prop)
    (hstep : ∀ (s s' : Txn) (o : Op), Q o → P s.conf s.flags s.trie → step S s o = .ok s' →
      P s'.conf s'.flags s'.trie)
    (hold : ∀ (c : Conf) (s s' : Txn) (o : Op), Q o → P c s.flags s.trie →
      P s.conf s.flags s.trie → step S s o = .ok s' → P c s'.flags s'.trie) :
    ∀ (cmds : List (List Op)) (s s' : Txn), (∀ os ∈ cmds, ∀ o ∈ os, Q o) →
      P s.conf s.flags s.trie → commands S s cmds = some s' → P s'.conf s'.flags s'.trie := by
  have hun : ∀ (os : List Op) (c : Conf) (s s' : Txn) (b : Bool), (∀ o ∈ os, Q o) →
      P c s.flags s.trie → P s.conf s.flags s.trie → units S s os = some (s', b) →
      P c s'.flags s'.trie ∧ P s'.conf s'.flags s'.trie := by
    intro os
    induction os with
    | nil =>
      intro c s s' b _ h1 h2 h
      simp only [units] at h
      injection h with h; injection h with h _; subst h
      exact ⟨h1, h2⟩
    | cons o os ih =>
      intro c s s' b hq h1 h2 h
      simp only [units] at h
      split at h
      · rename_i s1 hs
        have ho := hq o (.head _)
        exact ih c s1 s' b (fun x hx => hq x (.tail _ hx)) (hold c s s1 o ho h1 h2 hs)
          (hstep s s1 o ho h2 hs) h
      · injection h with h; injection h with h _; subst h
        exact ⟨h1, h2⟩
      · cases h
  intro cmds
  induction cmds with
  | nil =>
    intro s s' _ h0 h
    simp only [commands] at h
    injection h with h; subst h; exact h0
  | cons os rest ih =>
    intro s s' hq h0 h
    simp only [commands] at h
    split at h
    · rename_i s1 h1
      refine ih s1 s' (fun x hx => hq x (.tail _ hx)) ?_ h
      unfold command at h1
      split at h1
      · rename_i s2 h2
        injection h1 with h1; subst h1
        exact (hun os s.conf s _ _ (hq os (.head _)) h0 h0 h2).2
      · rename_i s2 h2
        injection h1 with h1; subst h1
        exact (hun os s.conf s _ _ (hq os (.head _)) h0 h0 h2).1
      · cases h1
    · cases h

/-- An invariant along operations given one by one. -/
theorem single_inv {S : Schema} (P : Txn → Prop) (Q : Op → Prop)
    (hstep : ∀ (s s' : Txn) (o : Op), Q o → P s → step S s o = .ok s' → P s') :
    ∀ (ops : List Op) (s s' : Txn), (∀ o ∈ ops, Q o) → P s →
      commands S s (single ops) = some s' → P s' := by
  intro ops
  induction ops with
  | nil => intro s s' _ h0 h; simp only [single, List.map_nil, commands] at h; injection h with h; subst h; exact h0
  | cons o ops ih =>
    intro s s' hq h0 h
    simp only [single, List.map_cons, commands] at h
    split at h
    · rename_i s1 h1
      refine ih s1 s' (fun x hx => hq x (.tail _ hx)) ?_ h
      simp only [command, units] at h1
      split at h1
      · rename_i s2 h2
        injection h1 with h1; subst h1
        split at h2
        · rename_i s3 h3
          injection h2 with h2; injection h2 with h2 _; subst h2
          exact hstep s _ o (hq o (.head _)) h0 h3
        · injection h2 with h2; injection h2 with _ h2; cases h2
        · cases h2
      · rename_i s2 h2
        injection h1 with h1; subst h1
        split at h2
        · injection h2 with h2; injection h2 with _ h2; cases h2
        · injection h2 with h2; injection h2 with h2 _; subst h2; exact h0
        · cases h2
      · cases h1
    · cases h

/-- Operations given one by one do not fail on an assertion if none does. -/
theorem single_runs {S : Schema} (P : Txn → Prop) (Q : Op → Prop)
    (hstep : ∀ (s s' : Txn) (o : Op), Q o → P s → step S s o = .ok s' → P s')
    (hno : ∀ (s : Txn) (o : Op), Q o → P s → step S s o ≠ .abort) :
    ∀ (ops : List Op) (s : Txn), (∀ o ∈ ops, Q o) → P s →
      ∃ s', commands S s (single ops) = some s' ∧ P s' := by
  intro ops
  induction ops with
  | nil => intro s _ h0; exact ⟨s, rfl, h0⟩
  | cons o ops ih =>
    intro s hq h0
    simp only [single, List.map_cons, commands, command, units]
    cases hs : step S s o with
    | ok s1 =>
      exact ih s1 (fun x hx => hq x (.tail _ hx)) (hstep s s1 o (hq o (.head _)) h0 hs)
    | refused =>
      exact ih s (fun x hx => hq x (.tail _ hx)) h0
    | abort => exact absurd hs (hno s o (hq o (.head _)) h0)

end Knot.Confio
