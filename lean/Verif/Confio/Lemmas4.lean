import Verif.Confio.Lemmas3
namespace Knot.Confio

/-! Operations one by one -/

/-- Names are tracked, or all zones are reloaded. -/
theorem names_or_zones {S : Schema} {v : Srv} {ops : List Op} {s : Txn}
    (h : commands S (begin' v) (single ops) = some s) :
    s.flags.rldZones = true ∨ Names v.conf s := by
  refine single_inv (S := S) (fun s => s.flags.rldZones = true ∨ Names v.conf s) (fun _ => True)
    ?_ ops _ s (fun _ _ => trivial) (.inr (names_begin v)) h
  intro s s' o _ h1 hs
  rcases h1 with h1 | h1
  · exact .inl ((step_grows hs).2 h1)
  · rcases names_step h1 hs with h2 | h2
    · exact .inr h2
    · exact .inl h2.1

/-- Everything is tracked, or all zones are compared. -/
theorem same_or_diff {S : Schema} {v : Srv} {ops : List Op} {s : Txn}
    (h : commands S (begin' v) (single ops) = some s) :
    s.flags.diff = true ∨ (Names v.conf s ∧ Same v.conf s) := by
  refine single_inv (S := S) (fun s => s.flags.diff = true ∨ (Names v.conf s ∧ Same v.conf s))
    (fun _ => True) ?_ ops _ s (fun _ _ => trivial) (.inr ⟨names_begin v, same_begin v⟩) h
  intro s s' o _ h1 hs
  rcases h1 with h1 | ⟨h1, h2⟩
  · exact .inl ((step_grows hs).4 h1)
  · rcases names_step h1 hs with h3 | h3
    · rcases same_step h1 h2 hs with h4 | h4
      · exact .inr ⟨h3, h4⟩
      · exact .inl h4.1
    · exact .inl h3.2.1

/-- Everything is tracked, or all zones are checked, unless files were included. -/
theorem same_or_check {S : Schema} {v : Srv} {ops : List Op} {s : Txn}
    (hb : ∀ o ∈ ops, IsBulk o = false)
    (h : commands S (begin' v) (single ops) = some s) :
    s.flags.check = true ∨ (Names v.conf s ∧ Same v.conf s) := by
  refine single_inv (S := S) (fun s => s.flags.check = true ∨ (Names v.conf s ∧ Same v.conf s))
    (fun o => IsBulk o = false) ?_ ops _ s hb (.inr ⟨names_begin v, same_begin v⟩) h
  intro s s' o ho h1 hs
  rcases h1 with h1 | ⟨h1, h2⟩
  · exact .inl ((step_grows hs).3 h1)
  · rcases names_step h1 hs with h3 | ⟨_, _, (h3 | ⟨c, rfl⟩)⟩
    · rcases same_step h1 h2 hs with h4 | ⟨_, (h4 | ⟨c, rfl⟩)⟩
      · exact .inr ⟨h3, h4⟩
      · exact .inl h4
      · cases ho
    · exact .inl h3.2
    · cases ho

/-- What holds along operations that name zones. -/
structure Indiv (v : Srv) (s : Txn) : Prop where
  names : Names v.conf s
  uniq : Uniq s.trie
  chk : s.flags.check = true → s.flags.rldZones = true
  mem : ∀ z ∈ v.members, ∀ y, s.trie.get z = some y → y.set = false

/-- The operations: zones are named, and none that is a catalog member is added. -/
def Plain (v : Srv) (o : Op) : Prop := Individual o = true ∧ ∀ z ∈ v.members, o ≠ .addZone z

theorem indiv_step {S : Schema} {v : Srv} (s s' : Txn) (o : Op) (ho : Plain v o) (h : Indiv v s)
    (hs : step S s o = .ok s') : Indiv v s' := by
  have hb : ∀ c, o ≠ .bulk c := by intro c e; rw [e] at ho; cases ho.1
  have hd : o ≠ .delZones := by intro e; rw [e] at ho; cases ho.1
  refine ⟨?_, step_uniq hs h.uniq, ?_, ?_⟩
  · rcases names_step h.names hs with h1 | ⟨_, _, (h1 | ⟨c, h1⟩)⟩
    · exact h1
    · exact absurd h1.1 hd
    · exact absurd h1 (hb c)
  · intro hck
    rcases step_cases hs with ⟨x, c', k, r, a, hu, hc⟩ | ⟨c', r, a, rfl, hc⟩ | ⟨c', he, rfl⟩ | ⟨rfl, _⟩ |
      ⟨_, rfl⟩ | ⟨_, rfl⟩
    · obtain ⟨t, ht, rfl⟩ := updOne_ok hu
      have := h.chk hck
      simp [this]
    · rcases hc with ⟨rfl, _⟩ | ⟨i, g, (⟨w, rfl⟩ | ⟨w, rfl⟩), _⟩ <;> cases ho.1
    · exact absurd he (hb _)
    · exact h.chk hck
    · rfl
    · rfl
  · intro z hz
    rcases step_cases hs with ⟨x, c', k, r, a, hu, hc⟩ | ⟨c', r, a, rfl, hc⟩ | ⟨c', he, rfl⟩ | ⟨rfl, _⟩ |
      ⟨_, rfl⟩ | ⟨_, rfl⟩
    · obtain ⟨t, ht, rfl⟩ := updOne_ok hu
      refine noset_kept ht (h.mem z hz) ?_
      intro hx
      subst hx
      rcases hc with ⟨rfl, _⟩ | ⟨_, _, rfl, _⟩ | ⟨i, l, _, _, rfl, _⟩
      · exact absurd rfl (ho.2 x hz)
      · rfl
      · rfl
    all_goals exact h.mem z hz

theorem indiv_begin (v : Srv) : Indiv v (begin' v) :=
  ⟨names_begin v, uniq_nil, fun h => (by cases h), fun _ _ y hy => (by cases hy)⟩

theorem indiv_run {S : Schema} {v : Srv} {ops : List Op} (ho : ∀ o ∈ ops, Plain v o) :
    ∃ s, commands S (begin' v) (single ops) = some s ∧ Indiv v s :=
  single_runs (S := S) (Indiv v) (Plain v) indiv_step (fun _ _ _ h => names_no_abort h.names) ops _ ho
    (indiv_begin v)

/-! The check -/

theorem check_zone {r : Conf → Bool} {k : Conf → Name → Bool} {s : Txn} (h : check r k s = true)
    {z : Name} (hz : z ∈ checkZones s) : z ∈ s.conf.names ∧ k s.conf z = true := by
  unfold check at h
  rw [Bool.and_eq_true, List.all_eq_true] at h
  have := h.2 z hz
  rw [Bool.and_eq_true, decide_eq_true_eq] at this
  exact this

theorem mem_checkZones {s : Txn} {z : Name} {y : Typ} (hc : s.flags.check = false)
    (hg : s.trie.get z = some y) (hy : y ≠ { unset := true }) : z ∈ checkZones s := by
  unfold checkZones
  rw [hc]
  simp only [Bool.false_eq_true, if_false, List.mem_map, List.mem_filter]
  exact ⟨(z, y), ⟨mem_of_get hg, by simpa using hy⟩, rfl⟩

/-! The reload -/

theorem sound_lookup {v : Srv} (hv : Sound v) {p : Name × Obj} (hp : p ∈ v.db) :
    lookup v.db p.1 = some p.2 ∧ p.1 ∈ v.conf.names := by
  obtain ⟨f, hf⟩ := hv.shape
  rw [hf, List.mem_map] at hp
  obtain ⟨z, hz, rfl⟩ := hp
  rw [hf, lookup_map]
  exact ⟨if_pos hz, hz⟩

theorem sound_serves {v : Srv} (hv : Sound v) : Serves v := by
  obtain ⟨f, hf⟩ := hv.shape
  intro z
  rw [hf, lookup_map]
  split <;> simp_all

theorem lookup_mem {db : List (Name × Obj)} {z : Name} {o : Obj} (h : lookup db z = some o) :
    (z, o) ∈ db := by
  unfold lookup at h
  rw [Option.map_eq_some_iff] at h
  obtain ⟨p, hp, rfl⟩ := h
  have h1 := List.find?_some hp
  have h2 := List.mem_of_find?_eq_some hp
  have : p.1 = z := by simpa using h1
  rw [← this]; exact h2

/-- The object of the new database. -/
theorem newObj_cases {v : Srv} (c : Conf) (t : Trie) (z : Name) :
    newObj v c (v.db.map (mark t)) z = fresh v c z ∨
    ∃ o, lookup v.db z = some o ∧ newObj v c (v.db.map (mark t)) z = (mark t (z, o)).2 ∧
      (mark t (z, o)).2.change.reload = false := by
  unfold newObj
  rw [lookup_mark]
  cases hl : lookup v.db z with
  | none => left; rfl
  | some o =>
    simp only [Option.map_some]
    split
    · left; rfl
    · rename_i h
      right
      exact ⟨o, rfl, rfl, by simpa using h⟩

theorem sound_reload {v v' : Srv} {s : Txn} (hv : Sound v)
    (hk : NamesKept v.conf s.conf s.flags s.trie)
    (hn : s.flags.rldZones = true ∨ Names v.conf s)
    (h : reload v s = some v') : Sound v' ∧ NoLeak v v' := by
  rcases reload_db h with ⟨_, rfl⟩ | ⟨hz, _, _, hdb, hgen, hfreed⟩ | ⟨h1, h2, rfl⟩
  · refine ⟨⟨⟨fresh v s.conf, rfl⟩, ?_, ?_, ?_, ?_⟩, ?_⟩
    · intro p hp
      obtain ⟨z, _, rfl⟩ := List.mem_map.1 hp
      show v.gen < v.gen + 1
      omega
    · intro q hq
      show q.2 < v.gen + 1
      rcases List.mem_append.1 (show q ∈ v.freed ++ v.db.map _ from hq) with hq | hq
      · have := hv.pastFreed q hq; omega
      · obtain ⟨p, hp, rfl⟩ := List.mem_map.1 hq
        have := hv.past p hp
        dsimp only; omega
    · intro p hp
      obtain ⟨z, _, rfl⟩ := List.mem_map.1 hp
      exact ⟨rfl, rfl⟩
    · intro p hp hf
      obtain ⟨z, _, rfl⟩ := List.mem_map.1 hp
      rcases List.mem_append.1 (show _ ∈ v.freed ++ v.db.map _ from hf) with hq | hq
      · have := hv.pastFreed _ hq
        dsimp only [fresh] at this; omega
      · obtain ⟨p, hp, he⟩ := List.mem_map.1 hq
        have := hv.past p hp
        injection he with _ he
        dsimp only [fresh] at he; omega
    · intro p hp
      right
      exact List.mem_append.2 (.inr (List.mem_map.2 ⟨p, hp, rfl⟩))
  · have hn : Names v.conf s := by
      rcases hn with e | e
      · rw [e] at hz; cases hz
      · exact e
    -- an object that stays was neither marked for reload nor as removed
    have keep : ∀ z ∈ s.conf.names, ∀ o, lookup v.db z = some o →
        (mark s.trie (z, o)).2.change.reload = false →
        (mark s.trie (z, o)).2.change.unset = false := by
      intro z hzc o ho _
      cases hg : s.trie.get z with
      | none =>
        rw [mark_none (p := (z, o)) hg]
        exact (hv.unmarked _ (lookup_mem ho)).2
      | some y =>
        rw [mark_some (p := (z, o)) hg]
        obtain ⟨ha, hb⟩ := (hn z).2 y hg
        cases es : y.set with
        | true => exact (ha es).2.2
        | false =>
          cases eu : y.unset with
          | false => rfl
          | true => exact absurd hzc ((hb es).2.1 eu)
    refine ⟨⟨?_, ?_, ?_, ?_, ?_⟩, ?_⟩
    · rw [reload_conf h]; exact ⟨_, hdb⟩
    · intro p hp
      rw [hdb, List.mem_map] at hp
      obtain ⟨z, _, rfl⟩ := hp
      rw [hgen]
      dsimp only
      rcases newObj_cases (v := v) s.conf s.trie z with e | ⟨o, ho, e, _⟩
      · rw [e]; show v.gen < v.gen + 1; omega
      · rw [e, mark_gen]
        have := hv.past _ (lookup_mem ho)
        dsimp only at this ⊢; omega
    · intro q hq
      rw [hfreed, List.mem_append] at hq
      rw [hgen]
      rcases hq with hq | hq
      · have := hv.pastFreed q hq; omega
      · obtain ⟨p, hp, rfl⟩ := List.mem_map.1 hq
        obtain ⟨p', hp', rfl⟩ := List.mem_map.1 (List.mem_filter.1 hp).1
        rw [mark_gen]
        have := hv.past p' hp'
        dsimp only; omega
    · intro p hp
      rw [hdb, List.mem_map] at hp
      obtain ⟨z, hzc, rfl⟩ := hp
      dsimp only
      rcases newObj_cases (v := v) s.conf s.trie z with e | ⟨o, ho, e, hr⟩
      · rw [e]; exact ⟨rfl, rfl⟩
      · rw [e]; exact ⟨hr, keep z hzc o ho hr⟩
    · intro p hp hf
      rw [hdb, List.mem_map] at hp
      obtain ⟨z, hzc, rfl⟩ := hp
      rw [hfreed, List.mem_append] at hf
      dsimp only at hf
      rcases newObj_cases (v := v) s.conf s.trie z with e | ⟨o, ho, e, hr⟩
      · rw [e] at hf
        have hg : (fresh v s.conf z).gen = v.gen := rfl
        rw [hg] at hf
        rcases hf with hf | hf
        · have := hv.pastFreed _ hf; dsimp only at this; omega
        · obtain ⟨q, hq, he⟩ := List.mem_map.1 hf
          obtain ⟨p', hp', rfl⟩ := List.mem_map.1 (List.mem_filter.1 hq).1
          injection he with _ he
          rw [mark_gen] at he
          have := hv.past p' hp'
          omega
      · rw [e, mark_gen] at hf
        rcases hf with hf | hf
        · exact hv.alive _ (lookup_mem ho) hf
        · obtain ⟨q, hq, he⟩ := List.mem_map.1 hf
          obtain ⟨hq1, hq2⟩ := List.mem_filter.1 hq
          obtain ⟨p', hp', rfl⟩ := List.mem_map.1 hq1
          injection he with he _
          rw [mark_fst] at he
          have hlk := (sound_lookup hv hp').1
          rw [he, ho] at hlk
          injection hlk with hlk
          have hpe : p' = (z, o) := by
            cases p'; dsimp only at he hlk; rw [he, hlk]
          rw [hpe, hr, keep z hzc o ho hr] at hq2
          cases hq2
    · intro p hp
      by_cases hm : ((mark s.trie p).2.change.reload || (mark s.trie p).2.change.unset) = true
      · right
        rw [hfreed, List.mem_append]
        right
        refine List.mem_map.2 ⟨mark s.trie p, List.mem_filter.2 ⟨List.mem_map.2 ⟨p, hp, rfl⟩, hm⟩, ?_⟩
        rw [mark_fst, mark_gen]
      · left
        have hm' : (mark s.trie p).2.change.reload = false ∧ (mark s.trie p).2.change.unset = false := by
          simpa using hm
        obtain ⟨hl, hb⟩ := sound_lookup hv hp
        have hzc : p.1 ∈ s.conf.names := by
          cases hg : s.trie.get p.1 with
          | none => exact ((hn p.1).1 hg).2 hb
          | some y =>
            rw [mark_some hg] at hm'
            obtain ⟨ha, hbb⟩ := (hn p.1).2 y hg
            cases es : y.set with
            | true => exact (ha es).2.1
            | false =>
              apply Decidable.byContradiction
              intro hne
              have := (hbb es).2.2 hne
              rw [hm'.2] at this; cases this
        rw [hdb]
        refine ⟨_, List.mem_map.2 ⟨p.1, hzc, rfl⟩, rfl, ?_⟩
        dsimp only
        unfold newObj
        rw [lookup_mark, hl]
        simp only [Option.map_some]
        rw [hm'.1]
        simp only [Bool.false_eq_true, if_false]
        exact mark_gen _ _
  · refine ⟨⟨?_, hv.past, hv.pastFreed, hv.unmarked, hv.alive⟩, ?_⟩
    · obtain ⟨f, hf⟩ := hv.shape
      exact ⟨f, by rw [hf]; show _ = s.conf.names.map _; rw [hk h2 h1]⟩
    · intro p hp
      exact .inl ⟨p, hp, rfl, rfl⟩

end Knot.Confio
