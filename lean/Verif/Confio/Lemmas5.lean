import Verif.Confio.Lemmas4
namespace Knot.Confio

/-! What the entries of changed zones say about the operations given -/

/-- An operation on an item of the zone. -/
def ItemOf (z : Name) (o : Op) : Prop := (∃ i x, o = .setItem z i x) ∨ (∃ i x, o = .unsetItem z i x)

/-- Entries come from operations. -/
def Traced (ops : List Op) (s : Txn) : Prop :=
  ∀ z y, s.trie.get z = some y →
    (y.change = true ∨ y.reload = true → ∃ o ∈ ops, ItemOf z o) ∧
    (y.unset = true → Op.delZone z ∈ ops)

theorem traced_getD {ops : List Op} {s : Txn} (h : Traced ops s) (z : Name) :
    (((s.trie.get z).getD {}).change = true ∨ ((s.trie.get z).getD {}).reload = true →
      ∃ o ∈ ops, ItemOf z o) ∧
    (((s.trie.get z).getD {}).unset = true → Op.delZone z ∈ ops) := by
  cases hg : s.trie.get z with
  | none =>
    constructor
    · intro e; rcases e with e | e <;> cases e
    · intro e; cases e
  | some y => exact h z y hg

theorem traced_step {S : Schema} {ops : List Op} (s s' : Txn) (o : Op) (ho : o ∈ ops)
    (h : Traced ops s) (hs : step S s o = .ok s') : Traced ops s' := by
  rcases step_cases hs with ⟨x, c', k, r, a, hu, hc⟩ | ⟨c', r, a, rfl, hc⟩ | ⟨c', he, rfl⟩ | ⟨rfl, _⟩ |
    ⟨_, rfl⟩ | ⟨_, rfl⟩
  · obtain ⟨t, ht, rfl⟩ := updOne_ok hu
    intro z y hy
    dsimp only at hy
    by_cases hz : z = x
    · subst hz
      have hd := traced_getD h z
      rcases hc with ⟨rfl, _, rfl, _⟩ | ⟨rfl, _, rfl, _⟩ | ⟨i, l, hio, _, rfl, _⟩
      · rw [track_set] at ht
        split at ht
        · injection ht with ht; subst ht
          rw [get_put_same] at hy; injection hy with hy; subst hy
          exact ⟨hd.1, fun e => (by cases e)⟩
        · split at ht
          · injection ht with ht; subst ht
            rw [get_put_same] at hy; injection hy with hy; subst hy
            exact ⟨fun e => (by rcases e with e | e <;> cases e), fun e => (by cases e)⟩
          · cases ht
      · rw [track_unset] at ht
        split at ht
        · injection ht with ht; subst ht
          rw [get_del_same] at hy; cases hy
        · injection ht with ht; subst ht
          rw [get_put_same] at hy; injection hy with hy; subst hy
          exact ⟨hd.1, fun _ => ho⟩
      · rw [track_change] at ht
        injection ht with ht; subst ht
        rw [get_put_same] at hy; injection hy with hy; subst hy
        refine ⟨fun _ => ⟨o, ho, ?_⟩, hd.2⟩
        rcases hio with ⟨w, e⟩ | ⟨w, e⟩
        · exact .inl ⟨i, w, e⟩
        · exact .inr ⟨i, w, e⟩
    · rw [track_other ht hz] at hy
      exact h z y hy
  all_goals exact h

/-- A transaction of operations that name zones passes the check if every zone
does and none is both changed and removed. -/
theorem accepted {S : Schema} {r : Conf → Bool} {k : Conf → Name → Bool} {v : Srv} {ops : List Op}
    {s : Txn} (h : commands S (begin' v) (single ops) = some s) (hi : Indiv v s)
    (hr : r s.conf = true) (hk : ∀ z ∈ s.conf.names, k s.conf z = true)
    (hz : ∀ z ∈ v.conf.names, .delZone z ∈ ops → ∀ o ∈ ops, ¬ ItemOf z o) : check r k s = true := by
  have ht : Traced ops s := single_inv (S := S) (Traced ops) (fun o => o ∈ ops) traced_step ops _ s
    (fun _ ho => ho) (fun z y hy => (by cases hy)) h
  unfold check
  rw [hr, Bool.true_and, List.all_eq_true]
  intro z hm
  have hn : z ∈ s.conf.names := by
    unfold checkZones at hm
    split at hm
    · exact hm
    · obtain ⟨p, hp, rfl⟩ := List.mem_map.1 hm
      obtain ⟨hp1, hp2⟩ := List.mem_filter.1 hp
      have hg := hi.uniq p hp1
      obtain ⟨ha, hb⟩ := (hi.names p.1).2 p.2 hg
      obtain ⟨hc, hd⟩ := ht p.1 p.2 hg
      cases es : p.2.set with
      | true => exact (ha es).2.1
      | false =>
        obtain ⟨h1, h2⟩ := hb es
        apply Decidable.byContradiction
        intro hne
        have hu := h2.2 hne
        have hno : ¬ (p.2.change = true ∨ p.2.reload = true) := by
          intro e
          obtain ⟨o, ho, hio⟩ := hc e
          exact hz p.1 h1 (hd hu) o ho hio
        have : p.2 = { unset := true } := by
          generalize p.2 = y at *
          obtain ⟨y1, y2, y3, y4⟩ := y
          simp at hno es hu
          simp [hno, es, hu]
        rw [this] at hp2
        simp at hp2
  rw [Bool.and_eq_true, decide_eq_true_eq]
  exact ⟨hn, hk z hn⟩

/-! Commands with several values -/

theorem commands_append {S : Schema} : ∀ (a b : List (List Op)) (s : Txn),
    commands S s (a ++ b) = (commands S s a).bind (fun s' => commands S s' b)
  | [], b, s => rfl
  | os :: a, b, s => by
    rw [List.cons_append]
    simp only [commands]
    cases command S s os with
    | none => rfl
    | some s1 => exact commands_append a b s1

theorem units_single {S : Schema} : ∀ (os : List Op) (s : Txn),
    effects S s.conf os ≠ none →
    commands S s (single os) = command S s os
  | [], s, _ => rfl
  | o :: os, s, h => by
    simp only [single, List.map_cons, commands]
    unfold command
    simp only [units]
    cases hs : step S s o with
    | ok s1 =>
      dsimp only
      have he : effects S s1.conf os ≠ none := by
        intro e
        apply h
        simp only [effects, step_effect hs, Option.bind_some, e]
      have := units_single os s1 he
      unfold single at this
      rw [this]
      unfold command
      cases hu : units S s1 os with
      | none => rfl
      | some p =>
        obtain ⟨s2, b⟩ := p
        cases b with
        | true => rfl
        | false =>
          exfalso
          apply he
          have := units_effect hu
          simpa using this
    | refused =>
      exfalso
      apply h
      simp only [effects, step_refused hs, Option.bind_none]
    | abort => rfl

end Knot.Confio
