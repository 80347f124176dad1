import Verif.Confio.Lemmas2
namespace Knot.Confio

theorem bool_false {a b : Bool} (h : a = true → b = true) (hb : b = false) : a = false := by
  cases a with
  | false => rfl
  | true => rw [h rfl] at hb; cases hb

/-! Zones served -/

theorem serves_reload {v v' : Srv} {s : Txn} (hv : Serves v)
    (hk : NamesKept v.conf s.conf s.flags s.trie) (h : reload v s = some v') : Serves v' := by
  rcases reload_db h with ⟨_, rfl⟩ | ⟨_, _, _, hdb, _⟩ | ⟨h1, h2, rfl⟩
  · intro z
    show (lookup (s.conf.names.map (fun z => (z, fresh v s.conf z))) z).isSome = true ↔ z ∈ s.conf.names
    rw [lookup_map]
    split <;> simp_all
  · intro z
    rw [hdb, reload_conf h, lookup_map]
    split <;> simp_all
  · intro z
    show (lookup v.db z).isSome = true ↔ z ∈ s.conf.names
    rw [hk h2 h1]
    exact hv z

/-! Reload of changed zones: an invariant that survives undone commands. -/

/-- The zone is as at the start in what needs a reload, or its reload is planned. -/
structure Planned (S : Schema) (base : Conf) (z : Name) (del : Bool) (c : Conf) (f : Flags) (t : Trie) :
    Prop where
  plan : f.rldZones = true ∨ (z ∈ c.names → z ∈ base.names →
    (∀ i, S.rld i = true → c.cfg z i = base.cfg z i) ∨
    (∃ y, t.get z = some y ∧ y.reload = true ∧ f.rldZone = true))
  stay : del = false → f.rldZones = true ∨ (z ∈ base.names → z ∈ c.names)
  noset : del = true → ∀ y, t.get z = some y → y.set = false

/-- The operations: not both a removal and an addition of the zone. -/
def Once (z : Name) (del : Bool) (o : Op) : Prop :=
  (del = false → o ≠ .delZone z) ∧ (del = true → o ≠ .addZone z)

theorem reload_kept {t t' : Trie} {z x : Name} {k : Typ} {r : Bool} {y : Typ}
    (ht : track t x k r = .ok t') (hy : t.get z = some y) (hr : y.reload = true)
    (hd : x = z → k.set = false → k.unset = true → y.set = false) :
    ∃ y', t'.get z = some y' ∧ y'.reload = true := by
  by_cases hx : x = z
  · subst hx
    unfold track at ht
    dsimp only at ht
    rw [hy] at ht
    simp only [Option.getD_some] at ht
    split at ht
    · split at ht
      · injection ht with ht; subst ht
        exact ⟨_, get_put_same _ _ _, hr⟩
      · split at ht
        · rename_i he; rw [he] at hr; cases hr
        · cases ht
    · rename_i hks
      split at ht
      · rename_i hku
        split at ht
        · rename_i hset
          rw [hd rfl (by simpa using hks) hku] at hset; cases hset
        · injection ht with ht; subst ht
          exact ⟨_, get_put_same _ _ _, hr⟩
      · injection ht with ht; subst ht
        exact ⟨_, get_put_same _ _ _, by simp [hr]⟩
  · rw [track_other ht (fun e => hx e.symm)]
    exact ⟨y, hy, hr⟩

theorem noset_kept {t t' : Trie} {z x : Name} {k : Typ} {r : Bool}
    (ht : track t x k r = .ok t') (hn : ∀ y, t.get z = some y → y.set = false)
    (hk : x = z → k.set = false) : ∀ y, t'.get z = some y → y.set = false := by
  by_cases hx : x = z
  · subst hx
    have hk' := hk rfl
    unfold track at ht
    dsimp only at ht
    rw [hk'] at ht
    simp only [Bool.false_eq_true, if_false] at ht
    have hc : ((t.get x).getD {}).set = false := by
      cases hg : t.get x with
      | none => rfl
      | some y => exact hn y hg
    rw [hc] at ht
    simp only [Bool.false_eq_true, if_false] at ht
    split at ht
    · injection ht with ht; subst ht
      intro y hy
      rw [get_put_same] at hy; injection hy with hy; subst hy
      first | exact hc | rfl
    · injection ht with ht; subst ht
      intro y hy
      rw [get_put_same] at hy; injection hy with hy; subst hy
      first | exact hc | rfl
  · rw [track_other ht (fun e => hx e.symm)]
    exact hn

/-- An older database stays planned. -/
theorem planned_old {S : Schema} {base : Conf} {z : Name} {del : Bool} (c : Conf) (s s' : Txn) (o : Op)
    (ho : Once z del o) (h : Planned S base z del c s.flags s.trie)
    (h2 : Planned S base z del s.conf s.flags s.trie)
    (hs : step S s o = .ok s') : Planned S base z del c s'.flags s'.trie := by
  have hg := step_grows hs
  rcases step_cases hs with ⟨x, c', k, r, a, hu, hc⟩ | ⟨c', r, a, rfl, hc⟩ | ⟨c', _, rfl⟩ | ⟨rfl, _⟩ | ⟨_, rfl⟩ |
    ⟨_, rfl⟩
  · obtain ⟨t, ht, rfl⟩ := updOne_ok hu
    refine ⟨?_, ?_, ?_⟩
    · rcases h.plan with e | hp
      · left; simp [e]
      · by_cases ez : (s.flags.rldZones || a) = true
        · left; exact ez
        right
        intro h3 h4
        rcases hp h3 h4 with hp | ⟨y, hy, hr, hf⟩
        · left; exact hp
        · right
          have : ∃ y', t.get z = some y' ∧ y'.reload = true := by
            refine reload_kept ht hy hr ?_
            intro hx hks hku
            subst hx
            cases hd : del with
            | true => exact h.noset hd y hy
            | false =>
              rcases hc with ⟨_, _, rfl, _⟩ | ⟨rfl, _⟩ | ⟨i, l, _, _, rfl, _⟩
              · cases hks
              · exact absurd rfl (ho.1 hd)
              · cases hku
          obtain ⟨y', h5, h6⟩ := this
          exact ⟨y', h5, h6, by simp [hf]⟩
    · intro hd
      rcases h.stay hd with e | e
      · left; simp [e]
      · right; exact e
    · intro hd
      refine noset_kept ht (h.noset hd) ?_
      intro hx
      subst hx
      rcases hc with ⟨rfl, _⟩ | ⟨_, _, rfl, _⟩ | ⟨i, l, _, _, rfl, _⟩
      · exact absurd rfl (ho.2 hd)
      · rfl
      · rfl
  all_goals
    refine ⟨?_, ?_, ?_⟩
    · rcases h.plan with e | hp
      · left; exact hg.2 e
      · first
        | (left; rfl)
        | (right; intro h3 h4
           rcases hp h3 h4 with hp | ⟨y, hy, hr, hf⟩
           · left; exact hp
           · right; exact ⟨y, hy, hr, hg.1 hf⟩)
    · intro hd
      rcases h.stay hd with e | e
      · left; exact hg.2 e
      · right; exact e
    · exact h.noset

theorem planned_step {S : Schema} {base : Conf} {z : Name} {del : Bool} (s s' : Txn) (o : Op)
    (ho : Once z del o) (h : Planned S base z del s.conf s.flags s.trie)
    (hs : step S s o = .ok s') : Planned S base z del s'.conf s'.flags s'.trie := by
  have hold := planned_old s.conf s s' o ho h h hs
  have hg := step_grows hs
  refine ⟨?_, ?_, hold.noset⟩
  · rcases hold.plan with e | hp
    · left; exact e
    · rcases step_cases hs with ⟨x, c', k, r, a, hu, hc⟩ | ⟨c', r, a, rfl, hc⟩ | ⟨c', _, rfl⟩ | ⟨rfl, _⟩ |
        ⟨_, rfl⟩ | ⟨_, rfl⟩
      · obtain ⟨t, ht, rfl⟩ := updOne_ok hu
        by_cases hx : x = z
        · subst hx
          rcases hc with ⟨rfl, hz, rfl, rfl, rfl, rfl⟩ | ⟨rfl, hz, rfl, rfl, rfl, rfl⟩ |
            ⟨i, l, hio, hz, rfl, rfl, rfl, rfl⟩
          · -- added: it was there at the start only if it was removed in between
            cases hd : del with
            | true => exact absurd rfl (ho.2 hd)
            | false =>
              rcases h.stay hd with e | e
              · left; simp [e]
              · right; intro _ hb; exact absurd (e hb) hz
          · right; intro hm _; exact absurd hm names_del_self
          · by_cases hri : S.rld i = true
            · right; intro _ _; right
              rw [hri, track_change] at ht
              injection ht with ht
              subst ht
              exact ⟨_, get_put_same _ _ _, by simp, by simp [hri]⟩
            · by_cases ez : (s.flags.rldZones || S.rldAll i) = true
              · left; exact ez
              right
              intro h3 h4
              rcases hp h3 h4 with hp | hp
              · left
                intro j hj
                rw [← hp j hj]
                show (if x = x then (s.conf.cfg x).upd i l else s.conf.cfg x) j = s.conf.cfg x j
                rw [if_pos rfl]
                unfold ZCfg.upd
                rw [if_neg]
                intro e; subst e; exact hri hj
              · right; exact hp
        · -- another zone
          by_cases ez : (s.flags.rldZones || a) = true
          · left; exact ez
          right
          intro h3 h4
          have hzx : z ≠ x := fun e => hx e.symm
          rcases hc with ⟨_, _, _, _, _, rfl⟩ | ⟨_, _, _, _, _, rfl⟩ | ⟨i, l, _, _, _, _, _, rfl⟩
          · have h3' : z ∈ s.conf.names := (names_add hzx (s.conf.upd x noCfg).cfg).1 h3
            rcases hp h3' h4 with hp | hp
            · left; intro j hj; rw [← hp j hj]
              show (if z = x then noCfg else s.conf.cfg z) j = _
              rw [if_neg hzx]
            · right; exact hp
          · have h3' : z ∈ s.conf.names := (names_del hzx).1 h3
            rcases hp h3' h4 with hp | hp
            · left; intro j hj; rw [← hp j hj]
              show (if z = x then noCfg else s.conf.cfg z) j = _
              rw [if_neg hzx]
            · right; exact hp
          · rcases hp h3 h4 with hp | hp
            · left; intro j hj; rw [← hp j hj]
              show (if z = x then _ else s.conf.cfg z) j = _
              rw [if_neg hzx]
            · right; exact hp
      · rcases hc with ⟨_, rfl, hnil⟩ | ⟨i, g, _, rfl, rfl, rfl⟩
        · left; simp [updAny]
        · by_cases hri : S.rld i = true
          · left; simp [updAny, hri]
          · right
            intro h3 h4
            rcases hp h3 h4 with hp | hp
            · left
              intro j hj
              rw [← hp j hj]
              show ((s.conf.cfg z).upd i (g (s.conf.cfg z i))) j = _
              unfold ZCfg.upd
              rw [if_neg]
              intro e; subst e; exact hri hj
            · right; exact hp
      · left; rfl
      · right; exact hp
      · left; rfl
      · left; rfl
  · intro hd
    rcases step_cases hs with ⟨x, c', k, r, a, hu, hc⟩ | ⟨c', r, a, rfl, hc⟩ | ⟨c', _, rfl⟩ | ⟨rfl, _⟩ |
      ⟨_, rfl⟩ | ⟨_, rfl⟩
    · obtain ⟨t, ht, rfl⟩ := updOne_ok hu
      rcases h.stay hd with e | e
      · left; simp [e]
      · right
        intro hb
        have hm := e hb
        rcases hc with ⟨_, _, _, _, _, rfl⟩ | ⟨rfl, _, _, _, _, rfl⟩ | ⟨i, l, _, _, _, _, _, rfl⟩
        · exact .tail _ hm
        · have hzx : z ≠ x := by
            intro e; subst e; exact ho.1 hd rfl
          exact (names_del hzx).2 hm
        · exact hm
    · rcases hc with ⟨_, rfl, hnil⟩ | ⟨i, g, _, rfl, rfl, rfl⟩
      · left; simp [updAny]
      · rcases h.stay hd with e | e
        · left; simp [updAny, e]
        · right; exact e
    · left; rfl
    · exact h.stay hd
    · left; rfl
    · left; rfl

theorem planned {S : Schema} {v : Srv} {cmds : List (List Op)} {s : Txn} {z : Name} {del : Bool}
    (ho : ∀ os ∈ cmds, ∀ o ∈ os, Once z del o)
    (h : commands S (begin' v) cmds = some s) : Planned S v.conf z del s.conf s.flags s.trie :=
  commands_inv (S := S) (Planned S v.conf z del) (Once z del) planned_step planned_old cmds _ s ho
    ⟨.inr (fun _ _ => .inl (fun _ _ => rfl)), fun _ => .inr id, fun _ y hy => by cases hy⟩ h

/-! Only elsewhere -/

/-- Nothing about the zone. -/
structure Aside (base : Conf) (z : Name) (c : Conf) (f : Flags) (t : Trie) : Prop where
  zones : f.rldZones = false
  entry : t.get z = none
  name : z ∈ c.names ↔ z ∈ base.names
  cfg : c.cfg z = base.cfg z

theorem aside_step {S : Schema} {base : Conf} {z : Name} (s s' : Txn) (o : Op)
    (ho : Elsewhere S z o = true) (h : Aside base z s.conf s.flags s.trie)
    (hs : step S s o = .ok s') : Aside base z s'.conf s'.flags s'.trie := by
  rcases step_cases hs with ⟨x, c', k, r, a, hu, hc⟩ | ⟨c', r, a, rfl, hc⟩ | ⟨c', rfl, rfl⟩ | ⟨rfl, _⟩ |
      ⟨rfl, rfl⟩ | ⟨rfl, rfl⟩
  · obtain ⟨t, ht, rfl⟩ := updOne_ok hu
    have hx : z ≠ x ∧ a = false := by
      rcases hc with ⟨rfl, _, _, _, rfl, _⟩ | ⟨rfl, _, _, _, rfl, _⟩ | ⟨i, l, (⟨w, rfl⟩ | ⟨w, rfl⟩), _, _, _, rfl, _⟩
      · simp only [Elsewhere, bne_iff_ne, ne_eq] at ho; exact ⟨fun e => ho e.symm, rfl⟩
      · simp only [Elsewhere, bne_iff_ne, ne_eq] at ho; exact ⟨fun e => ho e.symm, rfl⟩
      · simp only [Elsewhere, Bool.and_eq_true, bne_iff_ne, ne_eq, Bool.not_eq_true'] at ho
        exact ⟨fun e => ho.1 e.symm, ho.2⟩
      · simp only [Elsewhere, Bool.and_eq_true, bne_iff_ne, ne_eq, Bool.not_eq_true'] at ho
        exact ⟨fun e => ho.1 e.symm, ho.2⟩
    refine ⟨by simp [h.zones, hx.2], by rw [track_other ht hx.1]; exact h.entry, ?_, ?_⟩
    · rcases hc with ⟨_, _, _, _, _, rfl⟩ | ⟨rfl, _, _, _, _, rfl⟩ | ⟨i, l, _, _, _, _, _, rfl⟩
      · exact (names_add hx.1 (s.conf.upd x noCfg).cfg).trans h.name
      · exact (names_del hx.1).trans h.name
      · exact h.name
    · rw [← h.cfg]
      rcases hc with ⟨_, _, _, _, _, rfl⟩ | ⟨rfl, _, _, _, _, rfl⟩ | ⟨i, l, _, _, _, _, _, rfl⟩
      · show (if z = x then noCfg else s.conf.cfg z) = _
        rw [if_neg hx.1]
      · show (if z = x then noCfg else s.conf.cfg z) = _
        rw [if_neg hx.1]
      · show (if z = x then _ else s.conf.cfg z) = _
        rw [if_neg hx.1]
  · rcases hc with ⟨rfl, _⟩ | ⟨i, g, (⟨w, rfl⟩ | ⟨w, rfl⟩), _⟩ <;> cases ho
  · cases ho
  · exact h
  · cases ho
  · cases ho

theorem aside {S : Schema} {v : Srv} {cmds : List (List Op)} {s : Txn} {z : Name}
    (ho : ∀ os ∈ cmds, ∀ o ∈ os, Elsewhere S z o = true)
    (h : commands S (begin' v) cmds = some s) : Aside v.conf z s.conf s.flags s.trie := by
  refine commands_inv (S := S) (Aside v.conf z) (fun o => Elsewhere S z o = true) aside_step ?_ cmds _ s ho
    ⟨rfl, rfl, Iff.rfl, rfl⟩ h
  intro c s s' o hq h1 h2 hs
  have := aside_step s s' o hq h2 hs
  exact ⟨this.zones, this.entry, h1.name, h1.cfg⟩

end Knot.Confio
