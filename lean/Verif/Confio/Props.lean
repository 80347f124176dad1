import Verif.Confio.Lemmas5
/-!
# C51 — dynamic configuration of zones

Property theorems. `transact S r k v cmds` is a transaction given through the
control interface (begin, the commands, commit) on a server `v`; `S` are the
flags of the items of the zone section, `r` and `k` the semantic checks.
-/
namespace Knot
open Knot.Confio

/-- C51. What is committed is what the commands say, each done as a whole or not
at all; the same configuration is left in a transaction that is not accepted. -/
theorem C51_atomic (S : Schema) (r : Conf → Bool) (k : Conf → Name → Bool) (v : Srv)
    (cmds : List (List Op)) :
    (∀ v', transact S r k v cmds = .done v' → v'.conf = outcome S v.conf cmds) ∧
    (∀ s, transact S r k v cmds = .rejected s → s.conf = outcome S v.conf cmds) := by
  constructor
  · intro v' h
    obtain ⟨s, h1, _, h3⟩ := transact_done h
    rw [reload_conf h3, commands_effect h1]; rfl
  · intro s h
    unfold transact at h
    split at h
    · rename_i s1 h1
      split at h
      · split at h <;> cases h
      · injection h with h; subst h
        rw [commands_effect h1]; rfl
    · cases h

/-- C51. After a commit the server has the configured zones and no others,
whatever the commands were (and whatever became of them). -/
theorem C51_zones {S : Schema} {r : Conf → Bool} {k : Conf → Name → Bool} {v v' : Srv}
    {cmds : List (List Op)} (hv : Serves v) (h : transact S r k v cmds = .done v') : Serves v' := by
  obtain ⟨s, h1, _, h3⟩ := transact_done h
  exact serves_reload hv (namesKept h1) h3

/-- C51. After a commit a zone works with its configured settings (those whose
change needs a reload), whatever the commands were.
Partial: for a zone that was not both removed and added in the transaction; see
`C51_readded`. -/
theorem C51_reload_partial {S : Schema} {r : Conf → Bool} {k : Conf → Name → Bool} {v v' : Srv}
    {cmds : List (List Op)} {z : Name} (hs : Serves v) (hu : UpToDate S v z)
    (h : transact S r k v cmds = .done v')
    (hz : (∀ os ∈ cmds, .delZone z ∉ os) ∨ (∀ os ∈ cmds, .addZone z ∉ os)) : UpToDate S v' z := by
  obtain ⟨s, h1, _, h3⟩ := transact_done h
  have hp : ∃ del, Planned S v.conf z del s.conf s.flags s.trie := by
    rcases hz with hz | hz
    · exact ⟨false, planned (fun os hos o ho => ⟨fun _ e => hz os hos (e ▸ ho), fun e => by cases e⟩) h1⟩
    · exact ⟨true, planned (fun os hos o ho => ⟨fun e => (by cases e), fun _ e => hz os hos (e ▸ ho)⟩) h1⟩
  obtain ⟨del, hp⟩ := hp
  have hk := namesKept h1
  intro o ho i hi
  have hsv := (serves_reload hs hk h3 z).1 (by rw [ho]; rfl)
  rw [reload_conf h3] at hsv ⊢
  rcases reload_db h3 with ⟨_, rfl⟩ | ⟨hf, _, _, hdb, _⟩ | ⟨h4, h5, rfl⟩
  · have ho' : lookup (s.conf.names.map (fun z => (z, fresh v s.conf z))) z = some o := ho
    rw [lookup_map, if_pos hsv] at ho'
    injection ho' with ho'; subst ho'; rfl
  · rw [hdb, lookup_map, if_pos hsv] at ho
    injection ho with ho; subst ho
    rcases newObj_cases (v := v) s.conf s.trie z with e | ⟨o', ho', e, hr⟩
    · rw [e]; rfl
    · rw [e, mark_cfg]
      have hb : z ∈ v.conf.names := (hs z).1 (by rw [ho']; rfl)
      rcases hp.plan with e' | hp'
      · rw [e'] at hf; cases hf
      · rcases hp' hsv hb with hq | ⟨y, hy, hyr, _⟩
        · rw [hq i hi]; exact hu o' ho' i hi
        · rw [mark_some (p := (z, o')) hy, hyr] at hr; cases hr
  · have hb : z ∈ v.conf.names := by rw [← hk h5 h4]; exact hsv
    rcases hp.plan with e' | hp'
    · rw [e'] at h4; cases h4
    · rcases hp' hsv hb with hq | ⟨y, hy, _, hf⟩
      · rw [hq i hi]; exact hu o ho i hi
      · rw [h5] at hf; cases hf

/-- C51. A transaction about other zones leaves the zone alone: the same object
with the same settings serves it. -/
theorem C51_untouched {S : Schema} {r : Conf → Bool} {k : Conf → Name → Bool} {v v' : Srv}
    {cmds : List (List Op)} {z : Name} (hv : Sound v) (h : transact S r k v cmds = .done v')
    (hz : ∀ os ∈ cmds, ∀ o ∈ os, Elsewhere S z o = true) :
    lookup v'.db z = lookup v.db z ∧ v'.conf.get z = v.conf.get z := by
  obtain ⟨s, h1, _, h3⟩ := transact_done h
  have ha := aside hz h1
  constructor
  · rcases reload_db h3 with ⟨hf, _⟩ | ⟨_, _, _, hdb, _⟩ | ⟨_, _, rfl⟩
    · rw [ha.zones] at hf; cases hf
    · rw [hdb, lookup_map]
      have hs := sound_serves hv z
      cases hl : lookup v.db z with
      | none =>
        rw [hl] at hs
        rw [if_neg]
        intro hm
        have := hs.2 (ha.name.1 hm)
        cases this
      | some o =>
        rw [hl] at hs
        rw [if_pos (ha.name.2 (hs.1 rfl))]
        unfold newObj
        rw [lookup_mark, hl, Option.map_some]
        rw [mark_none (p := (z, o)) ha.entry]
        dsimp only
        rw [(hv.unmarked _ (lookup_mem hl)).1]
        rfl
    · rfl
  · rw [reload_conf h3]
    unfold Conf.get
    rw [ha.cfg]
    by_cases hm : z ∈ v.conf.names
    · rw [if_pos hm, if_pos (ha.name.2 hm)]
    · rw [if_neg hm, if_neg (fun e => hm (ha.name.1 e))]

/-- C51. The server does not stop on a failed assertion.
Partial: zones are named one by one, each command has one value, and no zone
that is a catalog member is added; see `C51_crash_whole`, `C51_crash_undone`,
`C51_crash_member`, `C51_crash_reloaded`. -/
theorem C51_no_crash_partial {S : Schema} {r : Conf → Bool} {k : Conf → Name → Bool} {v : Srv}
    {ops : List Op} (hv : Sound v) (hi : ∀ o ∈ ops, Individual o = true)
    (hm : ∀ z ∈ v.members, .addZone z ∉ ops) : transact S r k v (single ops) ≠ .crashed := by
  obtain ⟨s, h1, hs⟩ := indiv_run (S := S) (v := v) (ops := ops)
    (fun o ho => ⟨hi o ho, fun z hz e => hm z hz (e ▸ ho)⟩)
  unfold transact
  rw [h1]
  dsimp only
  split
  · rename_i hc
    split
    · intro e; cases e
    · rename_i hr
      exfalso
      unfold reload at hr
      split at hr
      · cases hr
      · rename_i hz
        split at hr
        · unfold reloadChanged at hr
          split at hr
          · rename_i ha
            rw [List.any_eq_true] at ha
            obtain ⟨p, hp, ha⟩ := ha
            rw [Bool.and_eq_true, Bool.or_eq_true, decide_eq_true_eq] at ha
            have hg := hs.uniq p hp
            rcases ha.2 with hl | hl
            · exact (((hs.names p.1).2 p.2 hg).1 ha.1).1 ((sound_serves hv p.1).1 hl)
            · have := hs.mem p.1 hl p.2 hg
              rw [ha.1] at this; cases this
          · dsimp only at hr
            split at hr
            · rename_i ha
              rw [List.any_eq_true] at ha
              obtain ⟨q, hq, ha⟩ := ha
              obtain ⟨p, hp, rfl⟩ := List.mem_map.1 hq
              rw [Bool.and_eq_true, mark_fst] at ha
              have hne : p.1 ∉ s.conf.names := by
                intro hm
                rw [lookup_map, if_pos hm] at ha
                cases ha.2
              cases hg : s.trie.get p.1 with
              | none =>
                rw [mark_none hg, (hv.unmarked p hp).1] at ha
                cases ha.1
              | some y =>
                rw [mark_some hg] at ha
                have hck : s.flags.check = false := by
                  cases e : s.flags.check with
                  | false => rfl
                  | true => exact absurd (hs.chk e) hz
                have hy : y ≠ { unset := true } := by
                  intro e; rw [e] at ha; cases ha.1
                exact hne (check_zone hc (mem_checkZones hck hg hy)).1
            · cases hr
        · cases hr
  · intro e; cases e

/-- C51. After a commit no zone object in use is freed, and every replaced or
removed one is.
Partial: each command has one value; see `C51_dangling`. -/
theorem C51_memory_partial {S : Schema} {r : Conf → Bool} {k : Conf → Name → Bool} {v v' : Srv}
    {ops : List Op} (hv : Sound v) (h : transact S r k v (single ops) = .done v') :
    Sound v' ∧ NoLeak v v' := by
  obtain ⟨s, h1, _, h3⟩ := transact_done h
  exact sound_reload hv (namesKept h1) (names_or_zones h1) h3

/-- C51. A zone that was added or whose settings were changed is checked before
the commit.
Partial: each command has one value, and no file is included (its sections are
checked as they are read). -/
theorem C51_checked_partial {S : Schema} {r : Conf → Bool} {k : Conf → Name → Bool} {v v' : Srv}
    {ops : List Op} (hb : ∀ o ∈ ops, IsBulk o = false)
    (h : transact S r k v (single ops) = .done v') {z : Name} (hz : z ∈ v'.conf.names)
    (hd : v'.conf.get z ≠ v.conf.get z) : k v'.conf z = true := by
  obtain ⟨s, h1, h2, h3⟩ := transact_done h
  rw [reload_conf h3] at hz hd ⊢
  refine (check_zone h2 ?_).2
  by_cases hck : s.flags.check = true
  · unfold checkZones; rw [if_pos hck]; exact hz
  · have hck' : s.flags.check = false := by simpa using hck
    rcases same_or_check hb h1 with e | ⟨hn, hs⟩
    · exact absurd e hck
    · cases hg : s.trie.get z with
      | none => exact absurd (hs z hg) hd
      | some y =>
        refine mem_checkZones hck' hg ?_
        intro e
        subst e
        exact absurd hz ((((hn z).2 _ hg).2 rfl).2.1 rfl)

/-- C51. The comparison before a commit covers every zone that was added, removed
or changed, and only zones that exist before or after.
Partial: each command has one value. -/
theorem C51_diff_partial {S : Schema} {v : Srv} {ops : List Op} {s : Txn}
    (h : commands S (begin' v) (single ops) = some s) :
    (∀ z, s.conf.get z ≠ v.conf.get z → z ∈ diffZones v s) ∧
    (∀ z ∈ diffZones v s, z ∈ v.conf.names ∨ z ∈ s.conf.names) := by
  have hu : Uniq s.trie := single_inv (S := S) (fun s => Uniq s.trie) (fun _ => True)
    (fun _ _ _ _ hu hs => step_uniq hs hu) ops _ s (fun _ _ => trivial) uniq_nil h
  unfold diffZones
  rcases same_or_diff h with e | ⟨hn, hs⟩
  · rw [if_pos e]
    constructor
    · intro z hz
      rw [List.mem_append, List.mem_filter, decide_eq_true_eq]
      by_cases hb : z ∈ v.conf.names
      · exact .inl hb
      · right
        refine ⟨?_, hb⟩
        apply Decidable.byContradiction
        intro hc
        apply hz
        unfold Conf.get
        rw [if_neg hb, if_neg hc]
    · intro z hz
      rw [List.mem_append, List.mem_filter] at hz
      rcases hz with hz | hz
      · exact .inl hz
      · exact .inr hz.1
  · by_cases e : s.flags.diff = true
    · rw [if_pos e]
      constructor
      · intro z hz
        rw [List.mem_append, List.mem_filter, decide_eq_true_eq]
        by_cases hb : z ∈ v.conf.names
        · exact .inl hb
        · right
          refine ⟨?_, hb⟩
          apply Decidable.byContradiction
          intro hc
          apply hz
          unfold Conf.get
          rw [if_neg hb, if_neg hc]
      · intro z hz
        rw [List.mem_append, List.mem_filter] at hz
        rcases hz with hz | hz
        · exact .inl hz
        · exact .inr hz.1
    · rw [if_neg e]
      constructor
      · intro z hz
        cases hg : s.trie.get z with
        | none => exact absurd (hs z hg) hz
        | some y => exact List.mem_map.2 ⟨_, mem_of_get hg, rfl⟩
      · intro z hz
        obtain ⟨p, hp, rfl⟩ := List.mem_map.1 hz
        have hg := hu p hp
        obtain ⟨ha, hb⟩ := (hn p.1).2 p.2 hg
        cases es : p.2.set with
        | true => exact .inr (ha es).2.1
        | false => exact .inl (hb es).1

/-- C51. A transaction is accepted when the configuration it leads to passes the
checks, and its zones are then served.
Partial: zones are named one by one, each command has one value, no zone that is
a catalog member is added, and no zone is both changed and removed; see
`C51_changed_then_removed`. -/
theorem C51_accepted_partial {S : Schema} {r : Conf → Bool} {k : Conf → Name → Bool} {v : Srv}
    {ops : List Op} (hv : Sound v) (hi : ∀ o ∈ ops, Individual o = true)
    (hm : ∀ z ∈ v.members, .addZone z ∉ ops)
    (hz : ∀ z ∈ v.conf.names, .delZone z ∈ ops →
      (∀ i x, .setItem z i x ∉ ops) ∧ (∀ i x, .unsetItem z i x ∉ ops))
    (hr : r (outcome S v.conf (single ops)) = true)
    (hk : ∀ z ∈ (outcome S v.conf (single ops)).names, k (outcome S v.conf (single ops)) z = true) :
    ∃ v', transact S r k v (single ops) = .done v' := by
  have hc := C51_no_crash_partial (S := S) (r := r) (k := k) hv hi hm
  obtain ⟨s, h1, hs⟩ := indiv_run (S := S) (v := v) (ops := ops)
    (fun o ho => ⟨hi o ho, fun z hz e => hm z hz (e ▸ ho)⟩)
  have he : s.conf = outcome S v.conf (single ops) := commands_effect h1
  rw [← he] at hr hk
  have hok : check r k s = true := by
    refine accepted h1 hs hr hk ?_
    intro z hzb hd o ho hio
    rcases hio with ⟨i, x, rfl⟩ | ⟨i, x, rfl⟩
    · exact (hz z hzb hd).1 i x ho
    · exact (hz z hzb hd).2 i x ho
  unfold transact at hc ⊢
  rw [h1] at hc ⊢
  dsimp only at hc ⊢
  rw [if_pos hok] at hc ⊢
  cases hrl : reload v s with
  | none => rw [hrl] at hc; exact absurd rfl hc
  | some v' => exact ⟨v', rfl⟩

/-- C51. A command with several values, all of which can be done, does the same
as commands with one value each (so what is proved of these holds of it). -/
theorem C51_units (S : Schema) (r : Conf → Bool) (k : Conf → Name → Bool) (v : Srv)
    (a b : List (List Op)) (os : List Op) (h : effects S (outcome S v.conf a) os ≠ none) :
    transact S r k v (a ++ os :: b) = transact S r k v (a ++ single os ++ b) := by
  have : commands S (begin' v) (a ++ os :: b) = commands S (begin' v) (a ++ single os ++ b) := by
    rw [commands_append, commands_append, commands_append]
    cases ha : commands S (begin' v) a with
    | none => rfl
    | some s =>
      have he : s.conf = outcome S v.conf a := commands_effect ha
      simp only [Option.bind_some]
      rw [units_single os s (by rw [he]; exact h)]
      simp only [commands]
      cases command S s os <;> rfl
  unfold transact
  rw [this]

/-! ## Findings -/

/-- C51. Finding: a zone that is changed and then removed in one transaction makes
the commit fail, whatever the settings are: the check of the zone asks only
whether the zone was removed and nothing else. -/
theorem C51_changed_then_removed (S : Schema) (r : Conf → Bool) (k : Conf → Name → Bool) (v : Srv)
    {z : Name} (hz : z ∈ v.conf.names) (i : Item) (x : Val) :
    ∃ s, transact S r k v (single [.setItem z i x, .delZone z]) = .rejected s ∧ z ∉ s.conf.names := by
  have hf : ∀ l : List Name, z ∉ l.filter (· != z) := by
    intro l h; have := (List.mem_filter.1 h).2; simp at this
  simp [transact, single, commands, command, units, step, hz, updOne, track, begin', Trie.get, Trie.put,
    Trie.del, Conf.upd, check, checkZones, hf]

/-- C51. Finding: the server stops on an assertion when a zone was changed (or
added), then all zones were removed, and the zone is added. -/
theorem C51_crash_whole (S : Schema) (r : Conf → Bool) (k : Conf → Name → Bool) (v : Srv)
    {z : Name} (o : Op) (ho : (z ∈ v.conf.names ∧ ∃ i x, o = .setItem z i x) ∨
      (z ∉ v.conf.names ∧ o = .addZone z)) (more : List (List Op)) :
    transact S r k v (single [o, .delZones, .addZone z] ++ more) = .crashed := by
  rcases ho with ⟨hz, i, x, rfl⟩ | ⟨hz, rfl⟩
  · have hne : v.conf.names ≠ [] := by intro e; rw [e] at hz; cases hz
    simp [transact, single, commands, command, units, step, hz, updOne, track, begin', Trie.get, Trie.put,
      Trie.del, Conf.upd, updAny, hne]
  · simp [transact, single, commands, command, units, step, hz, updOne, track, begin', Trie.get, Trie.put,
      Trie.del, Conf.upd, updAny]

/-- C51. Finding: a command that is undone leaves its changed zones behind; when a
zone is added by a command that fails later, adding it again stops the server. -/
theorem C51_crash_undone (S : Schema) (r : Conf → Bool) (k : Conf → Name → Bool) (v : Srv)
    {z : Name} (hz : z ∉ v.conf.names) (more : List (List Op)) :
    transact S r k v ([.addZone z, .bad] :: [.addZone z] :: more) = .crashed := by
  simp [transact, commands, command, units, step, hz, updOne, track, begin', Trie.get, Trie.put,
    Trie.del, Conf.upd]

/-- C51. Finding: adding a zone that is a member of a catalog stops the server
after the commit. -/
theorem C51_crash_member (S : Schema) (r : Conf → Bool) (k : Conf → Name → Bool) (v : Srv)
    {z : Name} (hz : z ∉ v.conf.names) (hm : z ∈ v.members)
    (hr : r (outcome S v.conf [[.addZone z]]) = true)
    (hk : k (outcome S v.conf [[.addZone z]]) z = true) :
    transact S r k v [[.addZone z]] = .crashed := by
  simp [outcome, effects, effect, hz] at hr hk
  simp [transact, commands, command, units, step, hz, updOne, track, begin', Trie.get, Trie.put,
    Trie.del, Conf.upd, check, checkZones, hr, hk, reload, reloadChanged, hm]

/-- C51. Finding: a zone removed and added again in one transaction keeps its
object, so it goes on with the settings that were removed. -/
theorem C51_readded (S : Schema) (r : Conf → Bool) (k : Conf → Name → Bool) {v : Srv} (hv : Sound v)
    {z : Name} {o : Obj} (hz : z ∈ v.conf.names) (ho : lookup v.db z = some o)
    (hr : r (outcome S v.conf (single [.delZone z, .addZone z])) = true)
    (hk : k (outcome S v.conf (single [.delZone z, .addZone z])) z = true) :
    ∃ v' o', transact S r k v (single [.delZone z, .addZone z]) = .done v' ∧
      lookup v'.db z = some o' ∧ o'.gen = o.gen ∧ o'.cfg = o.cfg ∧ v'.conf.cfg z = noCfg := by
  have hf : ∀ l : List Name, z ∉ l.filter (· != z) := by
    intro l h; have := (List.mem_filter.1 h).2; simp at this
  have hcmd : ∃ c, commands S (begin' v) (single [.delZone z, .addZone z])
      = some ⟨c, { rldZone := true }, [(z, {})]⟩ ∧ z ∈ c.names ∧ c.cfg z = noCfg := by
    refine ⟨⟨z :: v.conf.names.filter (· != z), fun y => if y = z then noCfg else
      if y = z then noCfg else v.conf.cfg y⟩, ?_, List.mem_cons_self, if_pos rfl⟩
    simp [single, commands, command, units, step, hz, updOne, track, begin', Trie.get, Trie.put,
      Trie.del, Conf.upd, hf]
  obtain ⟨c, hcmd, hzc, hcfg⟩ := hcmd
  have he : c = outcome S v.conf (single [.delZone z, .addZone z]) := commands_effect hcmd
  rw [← he] at hr hk
  have hck : check r k ⟨c, { rldZone := true }, [(z, {})]⟩ = true := by
    simp [check, checkZones, hr, hk, hzc]
  have hun := hv.unmarked _ (lookup_mem ho)
  have hmk : mark [(z, {})] (z, o) = (z, { o with change := {} }) := by simp [mark, Trie.get]
  have hnone : ∀ p ∈ v.db.map (mark [(z, {})]), p.2.change.reload = false := by
    intro p hp
    obtain ⟨q, hq, rfl⟩ := List.mem_map.1 hp
    by_cases e : z = q.1
    · have : mark [(z, {})] q = (q.1, { q.2 with change := {} }) := by simp [mark, Trie.get, e]
      rw [this]
    · rw [mark_none (by simp [Trie.get, e])]
      exact (hv.unmarked q hq).1
  have hrl : ∃ v', reload v ⟨c, { rldZone := true }, [(z, {})]⟩ = some v' := by
    unfold reload
    rw [if_neg (by simp), if_pos rfl]
    unfold reloadChanged
    rw [if_neg (by simp)]
    dsimp only
    rw [if_neg]
    · exact ⟨_, rfl⟩
    · intro ha
      rw [List.any_eq_true] at ha
      obtain ⟨p, hp, ha⟩ := ha
      rw [hnone p hp] at ha
      cases ha
  obtain ⟨v', hrl⟩ := hrl
  refine ⟨v', { o with change := {} }, ?_, ?_, rfl, rfl, ?_⟩
  · unfold transact
    rw [hcmd]
    dsimp only
    rw [if_pos hck, hrl]
  · rcases reload_db hrl with ⟨h, _⟩ | ⟨_, _, _, hdb, _⟩ | ⟨_, h, _⟩
    · cases h
    · rw [hdb, lookup_map, if_pos hzc]
      unfold newObj
      rw [lookup_mark, ho, Option.map_some, hmk]
      rfl
    · cases h
  · rw [reload_conf hrl]; exact hcfg

/-- C51. Finding: when a command that removes a zone fails at a later value, the
zone stays configured and served, but its object is freed at the commit. -/
theorem C51_dangling (S : Schema) (r : Conf → Bool) (k : Conf → Name → Bool) {v : Srv} (hv : Sound v)
    {z : Name} {o : Obj} (hz : z ∈ v.conf.names) (ho : lookup v.db z = some o)
    (hr : r v.conf = true) :
    ∃ v' o', transact S r k v [[.delZone z, .bad]] = .done v' ∧ v'.conf = v.conf ∧
      lookup v'.db z = some o' ∧ (z, o'.gen) ∈ v'.freed := by
  have hcmd : commands S (begin' v) [[.delZone z, .bad]]
      = some ⟨v.conf, { rldZone := true }, [(z, { unset := true })]⟩ := by
    simp [commands, command, units, step, hz, updOne, track, begin', Trie.get, Trie.put, Trie.del]
  have hck : check r k ⟨v.conf, { rldZone := true }, [(z, { unset := true })]⟩ = true := by
    simp [check, checkZones, hr]
  have hun := hv.unmarked _ (lookup_mem ho)
  have hmk : mark [(z, { unset := true })] (z, o) = (z, { o with change := { unset := true } }) := by
    simp [mark, Trie.get]
  have hnone : ∀ p ∈ v.db.map (mark [(z, { unset := true })]), p.2.change.reload = false := by
    intro p hp
    obtain ⟨q, hq, rfl⟩ := List.mem_map.1 hp
    by_cases e : z = q.1
    · have : mark [(z, { unset := true })] q = (q.1, { q.2 with change := { unset := true } }) := by
        simp [mark, Trie.get, e]
      rw [this]
    · rw [mark_none (by simp [Trie.get, e])]
      exact (hv.unmarked q hq).1
  have hrl : ∃ v', reload v ⟨v.conf, { rldZone := true }, [(z, { unset := true })]⟩ = some v' := by
    unfold reload
    rw [if_neg (by simp), if_pos rfl]
    unfold reloadChanged
    rw [if_neg (by simp)]
    dsimp only
    rw [if_neg]
    · exact ⟨_, rfl⟩
    · intro ha
      rw [List.any_eq_true] at ha
      obtain ⟨p, hp, ha⟩ := ha
      rw [hnone p hp] at ha
      cases ha
  obtain ⟨v', hrl⟩ := hrl
  refine ⟨v', { o with change := { unset := true } }, ?_, reload_conf hrl, ?_⟩
  · unfold transact
    rw [hcmd]
    dsimp only
    rw [if_pos hck, hrl]
  · rcases reload_db hrl with ⟨h, _⟩ | ⟨_, _, _, hdb, _, hfreed⟩ | ⟨_, h, _⟩
    · cases h
    · constructor
      · rw [hdb, lookup_map, if_pos hz]
        unfold newObj
        rw [lookup_mark, ho, Option.map_some, hmk]
        rfl
      · rw [hfreed, List.mem_append]
        right
        refine List.mem_map.2 ⟨(z, { o with change := { unset := true } }),
          List.mem_filter.2 ⟨List.mem_map.2 ⟨(z, o), lookup_mem ho, hmk⟩, rfl⟩, rfl⟩
    · cases h

/-- C51. Finding: when an item of a zone was changed, the zone removed, and then an
item of every zone changed that needs no reload, the server stops after the
commit. -/
theorem C51_crash_reloaded (S : Schema) (r : Conf → Bool) (k : Conf → Name → Bool) {v : Srv}
    (hv : Sound v) {y z : Name} (hz : z ∈ v.conf.names) (hy : y ∈ v.conf.names) (hyz : y ≠ z)
    {i j : Item} (hi : S.rld i = true) (hia : S.rldAll i = false) (hj : S.rld j = false)
    (hja : S.rldAll j = false) (x w : Val) (hr : ∀ c, r c = true) (hk : ∀ c n, k c n = true) :
    transact S r k v (single [.setItem z i x, .delZone z, .setAll j w]) = .crashed := by
  have hfz : ∀ l : List Name, z ∉ l.filter (· != z) := by
    intro l h; have := (List.mem_filter.1 h).2; simp at this
  have hfy : y ∈ v.conf.names.filter (· != z) := List.mem_filter.2 ⟨hy, by simpa using hyz⟩
  have hne : v.conf.names.filter (· != z) ≠ [] := by intro e; rw [e] at hfy; cases hfy
  have hcmd : ∃ c, commands S (begin' v) (single [.setItem z i x, .delZone z, .setAll j w])
      = some ⟨c, { rldZone := true, check := true, diff := true },
          [(z, { unset := true, change := true, reload := true })]⟩ ∧ z ∉ c.names := by
    simp [single, commands, command, units, step, hz, updOne, track,
      begin', Trie.get, Trie.put, Trie.del, hi, hia, hj, hja, updAny, Conf.upd, Conf.all, hne]
  obtain ⟨c, hcmd, hzc⟩ := hcmd
  have hck : check r k ⟨c, { rldZone := true, check := true, diff := true },
      [(z, { unset := true, change := true, reload := true })]⟩ = true := by
    simp [check, checkZones, hr, hk]
  obtain ⟨o, ho⟩ := Option.isSome_iff_exists.1 ((sound_serves hv z).2 hz)
  have hrl : reload v ⟨c, { rldZone := true, check := true, diff := true },
      [(z, { unset := true, change := true, reload := true })]⟩ = none := by
    unfold reload
    rw [if_neg (by simp), if_pos rfl]
    unfold reloadChanged
    rw [if_neg (by simp)]
    dsimp only
    rw [if_pos]
    rw [List.any_eq_true]
    refine ⟨_, List.mem_map.2 ⟨(z, o), lookup_mem ho, rfl⟩, ?_⟩
    rw [mark_fst, lookup_map, if_neg hzc]
    simp [mark, Trie.get]
  unfold transact
  rw [hcmd]
  dsimp only
  rw [if_pos hck, hrl]

/-! ## The hypotheses are met -/

namespace Confio.Ex

/-- Item 0 needs a reload of the zone, item 9 of all zones, item 1 has more values. -/
def S : Schema := { rld := (· == 0), rldAll := (· == 9), multi := (· == 1) }

/-- Two zones, with settings, and a catalog member. -/
def conf : Conf := { names := [1, 2], cfg := fun z i => if i = 0 then [z] else [] }

def obj (z : Name) : Obj := { gen := 0, cfg := conf.cfg z, change := {} }

def v : Srv :=
  { conf := conf, db := [(1, obj 1), (2, obj 2)], members := [7], gen := 1, freed := [(1, 0)].tail }

theorem sound : Sound v :=
  { shape := ⟨obj, rfl⟩
    past := by decide
    pastFreed := by decide
    unmarked := by decide
    alive := by decide }

def yes : Conf → Bool := fun _ => true
def ok : Conf → Name → Bool := fun c z => (c.cfg z 0).length ≤ 1

/-- A zone changed, one added with a setting, one removed; one command undone. -/
def cmds : List (List Op) :=
  [[.setItem 1 0 5], [.addZone 3], [.setItem 3 0 6, .bad], [.delZone 2]]

/-- The committed transaction: `C51_atomic`, `C51_zones`, `C51_reload_partial` speak of it. -/
example : ∃ v', transact S yes ok v cmds = .done v' ∧ v'.conf.names = [3, 1] ∧
    (lookup v'.db 1).map (fun o => (o.gen, o.cfg 0)) = some (1, [5]) ∧
    (lookup v'.db 3).map (fun o => (o.gen, o.cfg 0)) = some (1, []) ∧
    v'.freed = [(1, 0), (2, 0)] := ⟨_, rfl, rfl, rfl, rfl, rfl⟩

example : Serves v ∧ UpToDate S v 1 ∧ UpToDate S v 3 ∧
    (∀ os ∈ cmds, Op.delZone 1 ∉ os) ∧ (∀ os ∈ cmds, Op.addZone 2 ∉ os) :=
  ⟨sound_serves sound, fun o h i _ => (by injection h with h; subst h; rfl),
   fun o h => (by cases h), by simp [cmds], by simp [cmds]⟩

/-- `C51_untouched`: zone 2 while zone 1 is changed and removed zones are added. -/
example : Sound v ∧ (∀ os ∈ [[Op.setItem 1 0 5, .addZone 3], [.plain]], ∀ o ∈ os, Elsewhere S 2 o = true) ∧
    ∃ v', transact S yes ok v [[.setItem 1 0 5, .addZone 3], [.plain]] = .done v' ∧
      (lookup v'.db 2).map (·.gen) = some 0 ∧ (lookup v'.db 1).map (·.gen) = some 1 :=
  ⟨sound, by decide, _, rfl, rfl, rfl⟩

/-- Operations given one by one. -/
def ops : List Op := [.setItem 1 0 5, .addZone 3, .setItem 3 1 6, .unsetItem 3 1 none, .delZone 2, .bad]

/-- `C51_no_crash_partial`, `C51_memory_partial`, `C51_checked_partial`, `C51_diff_partial`,
`C51_accepted_partial`. -/
example : Sound v ∧ (∀ o ∈ ops, Individual o = true) ∧ (∀ o ∈ ops, IsBulk o = false) ∧
    (∀ z ∈ v.members, Op.addZone z ∉ ops) ∧
    (∀ z ∈ v.conf.names, Op.delZone z ∈ ops →
      (∀ i x, Op.setItem z i x ∉ ops) ∧ (∀ i x, Op.unsetItem z i x ∉ ops)) ∧
    yes (outcome S v.conf (single ops)) = true ∧
    (∀ z ∈ (outcome S v.conf (single ops)).names, ok (outcome S v.conf (single ops)) z = true) :=
  ⟨sound, by decide, by decide, by simp [v, ops], by simp [v, conf, ops], rfl, by decide⟩

example : ∃ v', transact S yes ok v (single ops) = .done v' ∧ 1 ∈ v'.conf.names ∧
    v'.freed = [(1, 0), (2, 0)] := ⟨_, rfl, by decide, rfl⟩

example : ∃ v', transact S yes ok v (single ops) = .done v' ∧ v'.conf.get 1 ≠ v.conf.get 1 := by
  refine ⟨_, rfl, fun h => ?_⟩
  have h2 : (some [5] : Option (List Val)) = some [1] := congrArg (Option.map (fun g : ZCfg => g 0)) h
  revert h2; decide

example : ∃ s, commands S (begin' v) (single ops) = some s ∧ diffZones v s = [2, 3, 1] := ⟨_, rfl, rfl⟩

/-- `C51_units`. -/
example : effects S (outcome S v.conf [[.plain]]) [.setItem 1 0 5, .addZone 3] ≠ none := by
  simp [effects, effect, outcome, v, conf]

/-- The hypotheses of the findings. -/
example : 1 ∈ v.conf.names ∧ 2 ∈ v.conf.names ∧ 3 ∉ v.conf.names ∧ 7 ∉ v.conf.names ∧ 7 ∈ v.members ∧
    (lookup v.db 1).isSome = true ∧ S.rld 0 = true ∧ S.rldAll 0 = false ∧ S.rld 1 = false ∧
    S.rldAll 1 = false ∧ yes (outcome S v.conf [[.addZone 7]]) = true ∧
    ok (outcome S v.conf [[.addZone 7]]) 7 = true ∧
    ok (outcome S v.conf (single [.delZone 1, .addZone 1])) 1 = true := by decide

/-- `C51_readded`: the zone had a setting, so it now works with one that is not configured. -/
example : ∃ v', transact S yes ok v (single [.delZone 1, .addZone 1]) = .done v' ∧
    (lookup v'.db 1).map (fun o => o.cfg 0) = some [1] ∧ v'.conf.cfg 1 0 = [] := ⟨_, rfl, rfl, rfl⟩

end Confio.Ex

end Knot
