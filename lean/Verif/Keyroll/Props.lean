import Verif.Keyroll.Lemmas3
import Verif.Keyroll.Lemmas5
/-!
# C35: states of keys and automatic rollovers
-/
namespace Knot
open Keyroll Keyroll.Spec

/-! ## States -/

/-- C35: the state of a key is that of the latest stage whose timer has come, unless the key is at the end of both kinds of
rollovers. -/
theorem C35_state (k : Key) (m : Nat) (hm : m ≠ 0) (h : ¬(Come k.t.retire m ∧ Come k.t.postActive m)) :
    keyState k m = stateOf k.t m := by
  rw [keyState_spec k hm]
  unfold stateOf stages
  by_cases h1 : Come k.t.remove m
  · simp [h1]
  by_cases h2 : Come k.t.revoke m
  · simp [h1, h2]
  by_cases h3 : Come k.t.postActive m
  · have h4 : ¬Come k.t.retire m := fun h4 => h ⟨h4, h3⟩
    simp [h1, h2, h3, h4]
  by_cases h4 : Come k.t.retire m
  · simp [h1, h2, h3, h4]
  by_cases h5 : Come k.t.retireActive m
  · simp [h1, h2, h3, h4, h5]
  by_cases h6 : Come k.t.active m
  · simp [h1, h2, h3, h4, h5, h6]
  by_cases h7 : Come k.t.ready m
  · simp [h1, h2, h3, h4, h5, h6, h7]
  by_cases h8 : Come k.t.publish m
  · simp [h1, h2, h3, h4, h5, h6, h7, h8]
  by_cases h9 : Come k.t.preActive m
  · simp [h1, h2, h3, h4, h5, h6, h7, h8, h9]
  · simp [h1, h2, h3, h4, h5, h6, h7, h8, h9]

theorem Keyroll.rank_bounds (k : Key) {m : Nat} (hm : m ≠ 0) (h : ¬(Come k.t.retire m ∧ Come k.t.postActive m)) :
    (Come k.t.remove m → 8 ≤ rank (keyState k m)) ∧ (Come k.t.revoke m → 7 ≤ rank (keyState k m)) ∧
    (Come k.t.postActive m → 6 ≤ rank (keyState k m)) ∧ (Come k.t.retire m → 6 ≤ rank (keyState k m)) ∧
    (Come k.t.retireActive m → 5 ≤ rank (keyState k m)) ∧ (Come k.t.active m → 4 ≤ rank (keyState k m)) ∧
    (Come k.t.ready m → 3 ≤ rank (keyState k m)) ∧ (Come k.t.publish m → 2 ≤ rank (keyState k m)) ∧
    (Come k.t.preActive m → 1 ≤ rank (keyState k m)) := by
  have hs := keyState_spec k hm
  generalize keyState k m = st at hs
  cases st <;> simp only [rank] <;> grind (splits := 20)

/-- C35: the state never goes back while time passes. -/
theorem C35_forward (k : Key) (m m' : Nat) (hm : m ≠ 0) (hle : m ≤ m') (h : ¬(Come k.t.retire m' ∧ Come k.t.postActive m')) :
    rank (keyState k m) ≤ rank (keyState k m') := by
  have mono : ∀ {x}, Come x m → Come x m' := fun hx => ⟨hx.1, Nat.le_trans hx.2 hle⟩
  have b := rank_bounds k (by omega : m' ≠ 0) h
  rw [keyState_spec k hm]
  split
  · next c => exact b.1 (mono c)
  split
  · next c => exact b.2.1 (mono c)
  split
  · next c =>
    split
    · exact Nat.zero_le _
    · exact b.2.2.1 (mono c)
  split
  · next c => exact b.2.2.2.1 (mono c)
  split
  · next c => exact b.2.2.2.2.1 (mono c)
  split
  · next c => exact b.2.2.2.2.2.1 (mono c)
  split
  · next c => exact b.2.2.2.2.2.2.1 (mono c)
  split
  · next c => exact b.2.2.2.2.2.2.2.1 (mono c)
  split
  · next c => exact b.2.2.2.2.2.2.2.2 (mono c)
  · exact Nat.zero_le _

example : keyState ⟨{ publish := 10, active := 20, retire := 30, remove := 40 }, false, true, false, 13⟩ 25 = .active ∧
    keyState ⟨{ publish := 10, active := 20, retire := 30, remove := 40 }, false, true, false, 13⟩ 30 = .retired := by
  decide

/-- C35, finding: a key with both timers set goes back from "retired" to "invalid" when the second one comes. -/
theorem C35_backward : ∃ (k : Key) (m m' : Nat), m ≤ m' ∧ keyState k m = .retired ∧ keyState k m' = .invalid :=
  ⟨⟨{ publish := 10, active := 20, retire := 30, postActive := 40 }, false, true, false, 13⟩, 35, 45, by decide, by decide, by decide⟩

/-! ## Waiting times -/

/-- C35: in a run of the rollover, whatever the keys, the policy and the flags, every key only makes steps whose waiting time is
over, new keys are added at the end, and a key is deleted only after it has been removed for the delay set. -/
theorem C35_timeline (p : Policy) (now : Nat) (hn : now ≠ 0) (fuel : Nat) (f : Flags) (l r : List Key)
    (h : rollover p now fuel f l = .ok (some r)) : Run p now l r := run_rollover hn fuel f l r h

/-- C35: a run ends only when no step of a key it may touch is due: no key waits longer than it has to, and an expired key is
replaced unless a rollover is under way. -/
theorem C35_progress (p : Policy) (now : Nat) (hn : now ≠ 0) (hm : p.manual = false) (fuel : Nat) (f : Flags) (l r : List Key)
    (h : rollover p now fuel f l = .ok (some r)) (k : Key) (hk : k ∈ r) (hp : k.pubOnly = false)
    (hf : (k.ksk = true → f.allowKsk = true) ∧ (k.zsk = true → f.allowZsk = true)) : ¬Due p now (Busy r now) k := by
  refine rollover_progress hn hm fuel f l r h k hk ?_
  unfold skipped
  cases h1 : k.ksk <;> cases h2 : k.zsk <;> simp_all

/-- A policy for examples. -/
def Keyroll.examplePolicy : Policy :=
  { manual := false, alg := 13, sts := false, zskLife := 1000, kskLife := 0, delDelay := 0, propagation := 10, maxTtl := 100,
    keyTtl := 50, sbmTimeout := 0, keepDeleted := false }

/-- The keys after the first run at 1000. -/
def Keyroll.exampleKeys : List Key :=
  [⟨{ created := 1000, publish := 1000, ready := 1000 }, true, false, false, 13⟩,
   ⟨{ created := 1000, publish := 1000, active := 1000 }, false, true, false, 13⟩]

example : rollover examplePolicy 1000 5 {} [] = .ok (some exampleKeys) := by decide +kernel

/-- At 2000 a ZSK rollover starts, at 2060 the new key is used, at 2170 the old one is removed. -/
example : rollover examplePolicy 2000 5 {} exampleKeys =
      .ok (some (exampleKeys ++ [⟨{ created := 2000, publish := 2000 }, false, true, false, 13⟩])) ∧
    rollover examplePolicy 2060 5 {} (exampleKeys ++ [⟨{ created := 2000, publish := 2000 }, false, true, false, 13⟩]) =
      .ok (some [⟨{ created := 1000, publish := 1000, ready := 1000 }, true, false, false, 13⟩,
        ⟨{ created := 1000, publish := 1000, active := 1000, retire := 2060 }, false, true, false, 13⟩,
        ⟨{ created := 2000, publish := 2000, active := 2060 }, false, true, false, 13⟩]) := by
  decide +kernel

theorem Keyroll.length_setT (l : List Key) (i : Nat) (g : Timing → Timing) : (setT l i g).length = l.length := by
  unfold setT; split <;> simp

theorem Keyroll.retireBoth_replaced {now : Nat} (d : Nat) (l : List Key) (new : Key) (i : Nat) (hnew : l[i]? = some new)
    (hksk : new.ksk = true) (hready : keyState new now = .ready) :
    ∃ ad : Bool, (retireBoth now d l new)[i]? = some new ∧ (retireBoth now d l new).length = l.length ∧
      ∀ (j : Nat) (k : Key), l[j]? = some k → ∃ k', (retireBoth now d l new)[j]? = some k' ∧
        (k' = k ∨ (keyState k now = .active ∨ keyState k now = .retireActive) ∧ Replaced now d ad k k') := by
  unfold retireBoth
  split
  · exact ⟨false, hnew, rfl, fun j k hk => ⟨k, hk, .inl rfl⟩⟩
  · next jo hjo =>
    obtain ⟨old, hold, hq⟩ := findIdx_some hjo
    rw [hksk] at hq
    simp only [Bool.and_eq_true, Bool.or_eq_true, Bool.not_eq_true', beq_iff_eq, true_and, reduceCtorEq, false_and,
      or_false] at hq
    rw [hold]; dsimp only
    rw [if_pos hksk]
    generalize had : (old.alg != new.alg) = ad
    have hio : jo ≠ i := by
      intro e; subst e; rw [hold] at hnew; cases hnew; rw [hready] at hq; simp at hq
    have hrep : Replaced now d ad old { old with t := retireOld now d ad old old.t } := by
      unfold retireOld
      cases ad with
      | true => rw [if_pos rfl, if_pos hq.1]; exact .kskAlg hq.1 rfl
      | false =>
        rw [if_neg (by simp), if_pos hq.1]
        split
        · next hz => exact .csk hq.1 hz rfl
        · next hz => exact .ksk hq.1 (by simpa using hz) rfl
    have c1 : (setT l jo (retireOld now d ad old))[i]? = some new := by
      rw [getElem?_setT, hnew, Option.map_some, if_neg hio]
    have c3 : ∀ (j : Nat) (k : Key), l[j]? = some k → ∃ k', (setT l jo (retireOld now d ad old))[j]? = some k' ∧
        (k' = k ∨ (keyState k now = .active ∨ keyState k now = .retireActive) ∧ Replaced now d ad k k') := by
      intro j k hk
      rw [getElem?_setT, hk, Option.map_some]
      by_cases e : jo = j
      · subst e; rw [hold] at hk; cases hk
        rw [if_pos rfl]; exact ⟨_, rfl, .inr ⟨.inl hq.2, hrep⟩⟩
      · rw [if_neg e]; exact ⟨_, rfl, .inl rfl⟩
    refine ⟨ad, ?_⟩
    split
    · exact ⟨c1, length_setT _ _ _, c3⟩
    · next z hz =>
      obtain ⟨kz, hkz, hqz⟩ := findIdx_some hz
      simp only [Bool.and_eq_true, Bool.or_eq_true, Bool.not_eq_true', beq_iff_eq, bne_iff_ne] at hqz
      have hzi : z ≠ i := by
        intro e; subst e; rw [c1] at hkz; cases hkz; rw [hqz.1.1.2] at hksk; cases hksk
      have hzo : jo ≠ z := by
        intro e; subst e
        rw [getElem?_setT, hold, Option.map_some, if_pos rfl] at hkz; cases hkz
        have := hqz.1.1.2; dsimp only at this; rw [hq.1] at this; cases this
      refine ⟨?_, by rw [length_setT, length_setT], ?_⟩
      · rw [getElem?_setT, c1, Option.map_some, if_neg hzi]
      · intro j k hk
        rw [getElem?_setT]
        by_cases e : z = j
        · subst e
          have hzl : l[z]? = some kz := by
            rw [getElem?_setT, hk, Option.map_some, if_neg hzo] at hkz; rw [hk]; exact hkz
          rw [hkz, Option.map_some, if_pos rfl]
          rw [hk] at hzl; cases hzl
          refine ⟨_, rfl, .inr ⟨hqz.2, ?_⟩⟩
          unfold retireZsk
          cases ad with
          | true => exact Replaced.zskAlg (k := kz) hqz.1.1.2 hqz.1.1.1 rfl
          | false => exact Replaced.zsk (k := kz) hqz.1.1.2 hqz.1.1.1 rfl
        · obtain ⟨k', h1, h2⟩ := c3 j k hk
          rw [h1, Option.map_some, if_neg e]
          exact ⟨k', rfl, h2⟩

/-- Nothing is due just before, and the step is due in time. -/
example : ¬Due examplePolicy 1999 False ⟨{ created := 1000, publish := 1000, active := 1000 }, false, true, false, 13⟩ ∧
    Due examplePolicy 2000 False ⟨{ created := 1000, publish := 1000, active := 1000 }, false, true, false, 13⟩ := by
  constructor
  · simp [Due, examplePolicy, Waited, (by decide : keyState ⟨{ created := 1000, publish := 1000, active := 1000 }, false, true, false, 13⟩ 1999 = .active)]
  · simp [Due, examplePolicy, Waited, (by decide : keyState ⟨{ created := 1000, publish := 1000, active := 1000 }, false, true, false, 13⟩ 2000 = .active)]

/-- C35: confirming a submission makes one submitted KSK active, and every other key either stays as it is or was signing and is
replaced, not before the delay asked for. -/
theorem C35_confirm (now d : Nat) (hn : now ≠ 0) (l r : List Key) (h : confirm now d l = .ok (some r)) :
    ∃ (i : Nat) (new : Key) (algdiff : Bool), l[i]? = some new ∧ new.ksk = true ∧ keyState new now = .ready ∧
      r[i]? = some { new with t := { new.t with active := now } } ∧ r.length = l.length ∧
      ∀ (j : Nat) (k : Key), j ≠ i → l[j]? = some k →
        ∃ k', r[j]? = some k' ∧ (k' = k ∨ (keyState k now = .active ∨ keyState k now = .retireActive) ∧ Replaced now d algdiff k k') := by
  unfold confirm at h
  split at h
  · cases h
  · next i hi =>
    obtain ⟨new, hnew, hq⟩ := findIdx_some hi
    simp only [Bool.and_eq_true, Bool.not_eq_true', beq_iff_eq] at hq
    have hready := hq.2
    have hksk := hq.1.1
    obtain ⟨ad, b1, b2, b3⟩ := retireBoth_replaced d l new i hnew hksk hready
    unfold newSignatures at h
    rw [hnew] at h; dsimp only at h
    rw [b1] at h; dsimp only at h
    rw [hksk, if_pos rfl, if_pos hready] at h
    simp only [Res.bind_ok, Res.ok.injEq, Option.some.injEq] at h
    subst h
    have ta := tmin_now hn (state_ready hn hready).2.1
    refine ⟨i, new, ad, hnew, hksk, hready, ?_, ?_, ?_⟩
    · rw [getElem?_setT, b1, Option.map_some, if_pos rfl, ta]
    · rw [length_setT, b2]
    · intro j k hj hk
      obtain ⟨k', h1, h2⟩ := b3 j k hk
      refine ⟨k', ?_, h2⟩
      rw [getElem?_setT, h1, Option.map_some, if_neg (fun e => hj e.symm)]

/-! ## The set of keys -/

/-- C35: what a key does in the zone is given by its state. -/
theorem C35_roles (k : Key) (now : Nat) (hn : now ≠ 0) (other : Bool) (hp : k.pubOnly = false) (h : InOrder k.t now) :
    ((setKey k now other).isPublic, (setKey k now other).active, (setKey k now other).kskPlus, (setKey k now other).zskPlus) =
      role k.ksk k.zsk (decide (Come k.t.preActive now)) other (keyState k now) := by
  obtain ⟨h1, h2, h3, h4, h5, h6, h7, h8⟩ := h
  rw [keyState_spec k hn]
  unfold setKey isPublished isReady isActive
  simp only [past_iff hn, hp, h7]
  by_cases c1 : Come k.t.remove now
  · simp [c1, h6 c1, role]
  by_cases c2 : Come k.t.postActive now
  · have e : ¬Come k.t.retire now := fun e => h8 ⟨e, c2⟩
    simp [c1, c2, e, h5 c2, role]
  by_cases c3 : Come k.t.retire now
  · simp [c1, c2, c3, h4 c3, h2 (h4 c3), role]
  by_cases c4 : Come k.t.retireActive now
  · simp [c1, c2, c3, c4, h3 c4, h2 (h3 c4), role]
  by_cases c5 : Come k.t.active now
  · simp [c1, c2, c3, c4, c5, h2 c5, role]
  by_cases c6 : Come k.t.ready now
  · simp [c1, c2, c3, c4, c5, c6, h1 c6, role]
  by_cases c7 : Come k.t.publish now
  · by_cases c8 : Come k.t.preActive now <;> simp [c1, c2, c3, c4, c5, c6, c7, c8, role]
  · by_cases c8 : Come k.t.preActive now <;> simp [c1, c2, c3, c4, c5, c6, c7, c8, role]

example : InOrder { publish := 10, ready := 20, active := 30, retireActive := 40 } 50 ∧
    role true true false true .retireActive = (true, false, true, false) := by
  refine ⟨⟨?_, ?_, ?_, ?_, ?_, ?_, ?_, ?_⟩, rfl⟩ <;> simp [Come]

/-- C35: the set of keys of a zone is accepted for signing exactly when it serves a validating resolver. -/
theorem C35_accepted (l : List Key) (now : Nat) : loadZoneKeys l now = none ↔ l ≠ [] ∧ Signable (zoneKeys l now) := by
  unfold loadZoneKeys
  split
  · next h => simp only [reduceCtorEq, false_iff]; intro hx; cases l <;> simp_all
  · next h => rw [walk_iff]; cases l <;> simp_all

theorem Keyroll.reach_inv {a : Nat} {s : Bool} {t : Nat} {l : List Key} (h : Reach a s t l) : t ≠ 0 ∧ (l = [] ∨ Inv a s t l) := by
  induction h with
  | start ht => exact ⟨ht, .inl rfl⟩
  | wait _ hle ih => exact ⟨by omega, ih.2.imp id fun h => inv_mono h hle⟩
  | @run t l l' p f fuel _ ha hs hf hr ih =>
    subst ha hs
    refine ⟨ih.1, ?_⟩
    have hi : Inv p.alg p.sts t l ∨ Inv p.alg p.sts t (initialKeys p f t l) := ih.2.elim (fun e => .inr (by subst e; exact inv_start ih.1 f (hf rfl).1 (hf rfl).2)) .inl
    rcases inv_rollover ih.1 fuel f _ hi with h | ⟨r, h1, h2⟩
    · rw [hr] at h; cases h
    · rw [hr] at h1; cases h1
      rcases h2 with h2 | h2
      · rw [h2.2]; exact ih.2
      · exact .inr h2
  | confirm d _ hc ih =>
    refine ⟨ih.1, ?_⟩
    rcases ih.2 with e | hi
    · subst e; cases hc
    · rcases inv_confirm ih.1 d hi with h | ⟨r, h1, h2⟩
      · rw [hc] at h; cases h
      · rw [hc] at h1; cases h1; exact .inr h2

/-- C35: while the algorithm and the scheme of the policy stay, whatever else changes, whichever rollovers are forced and whenever
submissions are confirmed, a zone that has keys can be signed at every later time, also when no run happens in between.
Missing for the full property: changes of the algorithm and of the scheme. -/
theorem C35_signable_partial (a : Nat) (s : Bool) (t : Nat) (l : List Key) (ha : a < 256) (h : Reach a s t l) (hl : l ≠ [])
    (m : Nat) (hm : t ≤ m) : Signable (zoneKeys l m) ∧ loadZoneKeys l m = none := by
  obtain ⟨ht, h⟩ := reach_inv h
  have hi := inv_mono (h.resolve_left hl) hm
  exact ⟨inv_signable (by omega) ha hi, inv_load (by omega) ha hi⟩

/-- C35: in such a history a run never fails and no assertion is hit. -/
theorem C35_run_partial (p : Policy) (f : Flags) (fuel t : Nat) (l : List Key) (h : Reach p.alg p.sts t l)
    (hf : l = [] → f.allowKsk = true ∧ f.allowZsk = true) :
    rollover p t fuel f l = .ok none ∨ ∃ r, rollover p t fuel f l = .ok (some r) ∧ (p.manual = true ∨ r ≠ []) := by
  obtain ⟨ht, h⟩ := reach_inv h
  have hi : Inv p.alg p.sts t l ∨ Inv p.alg p.sts t (initialKeys p f t l) := h.elim (fun e => .inr (by subst e; exact inv_start ht f (hf rfl).1 (hf rfl).2)) .inl
  rcases inv_rollover ht fuel f _ hi with h | ⟨r, h1, h2⟩
  · exact .inl h
  · refine .inr ⟨r, h1, h2.imp (·.1) fun hi => ?_⟩
    obtain ⟨k, hk, -⟩ := hi.ksk
    intro e; subst e; cases hk

/-- C35: nor does a confirmation hit an assertion. -/
theorem C35_confirm_safe_partial (a : Nat) (s : Bool) (d t : Nat) (l : List Key) (h : Reach a s t l) :
    ∃ r, confirm t d l = .ok r := by
  obtain ⟨ht, h⟩ := reach_inv h
  rcases h with e | hi
  · subst e; exact ⟨none, rfl⟩
  · rcases inv_confirm ht d hi with h | ⟨r, h, -⟩
    · exact ⟨_, h⟩
    · exact ⟨_, h⟩

example : Reach 13 false 2000 exampleKeys :=
  .wait (.run examplePolicy {} 5 (.start (by decide)) rfl rfl (fun _ => ⟨rfl, rfl⟩) (by decide +kernel)) (by decide : 1000 ≤ 2000)

/-! ## Findings -/

/-- C35, finding: a KSK rollover forced right after the algorithm of the policy was changed publishes a KSK of the new algorithm
at once and alone: the zone can no longer be signed. -/
theorem C35_forced_algorithm : ∃ r, loadZoneKeys exampleKeys 2000 = none ∧
    rollover { examplePolicy with alg := 15 } 2000 5 { forceKsk := true } exampleKeys = .ok (some r) ∧
    loadZoneKeys r 2000 = some .ezoneInval :=
  ⟨exampleKeys ++ [⟨{ created := 2000, publish := 2000 }, true, false, false, 15⟩], by decide +kernel, by decide +kernel,
    by decide +kernel⟩

/-- A CSK in use. -/
def Keyroll.exampleCsk : List Key := [⟨{ created := 1000, publish := 1000, ready := 1000, active := 1500 }, true, true, false, 13⟩]

/-- C35, finding: a KSK rollover forced right after the policy was changed from one CSK to KSK and ZSK makes only a KSK. When its
submission is confirmed the CSK is retired, there is no ZSK, and the zone can no longer be signed. -/
theorem C35_forced_scheme : ∃ r r' r'', loadZoneKeys exampleCsk 2000 = none ∧
    rollover examplePolicy 2000 5 { forceKsk := true } exampleCsk = .ok (some r) ∧
    rollover examplePolicy 2060 5 {} r = .ok (some r') ∧
    confirm 2100 0 r' = .ok (some r'') ∧ loadZoneKeys r'' 2100 = some .ezoneInval := by
  refine ⟨_, _, _, by decide +kernel, rfl, rfl, rfl, by decide +kernel⟩

/-- The CSK in use and the ZSK made by force. -/
def Keyroll.exampleStuck : List Key :=
  [⟨{ created := 1000, publish := 1000, ready := 1000, active := 1500 }, true, true, false, 13⟩,
   ⟨{ created := 2000, publish := 2000, active := 2060 }, false, true, false, 13⟩]

/-- C35, finding: a ZSK rollover forced in a zone signed with one CSK never ends. The ZSK becomes active beside the CSK, from
then on a rollover counts as running, and no run at any later time makes, replaces or retires a key, forced or not, although
both keys are past their lifetimes. -/
theorem C35_forced_zsk : ∃ p r, p.kskLife = 2000 ∧ p.zskLife = 2000 ∧
    rollover p 2000 5 { forceZsk := true } exampleCsk = .ok (some r) ∧
    rollover p 2060 5 {} r = .ok (some exampleStuck) ∧
    ∀ m fuel forceKsk forceZsk, 2060 ≤ m →
      rollover p m (fuel + 1) { forceKsk, forceZsk } exampleStuck = .ok (some exampleStuck) := by
  refine ⟨{ examplePolicy with sts := true, kskLife := 2000, zskLife := 2000 },
    exampleCsk ++ [⟨{ created := 2000, publish := 2000 }, false, true, false, 13⟩], rfl, rfl, by decide +kernel, by decide +kernel, ?_⟩
  intro m fuel fk fz hm
  have hm0 : m ≠ 0 := by omega
  have z : ¬Come 0 m := not_come_zero m
  have c1 : Come 1000 m := ⟨by decide, by omega⟩
  have c2 : Come 1500 m := ⟨by decide, by omega⟩
  have c3 : Come 2000 m := ⟨by decide, by omega⟩
  have c4 : Come 2060 m := ⟨by decide, by omega⟩
  have s1 : keyState ⟨{ created := 1000, publish := 1000, ready := 1000, active := 1500 }, true, true, false, 13⟩ m = .active := by
    rw [keyState_spec _ hm0]; simp [z, c2]
  have s2 : keyState ⟨{ created := 2000, publish := 2000, active := 2060 }, false, true, false, 13⟩ m = .active := by
    rw [keyState_spec _ hm0]; simp [z, c4]
  have hrun : running exampleStuck m = true := by
    unfold running exampleStuck; simp [rolling, s1, s2]
  have hk : keyPresent exampleStuck m true true = true := by
    unfold keyPresent exampleStuck; simp [s1]
  have hg : generating { examplePolicy with sts := true, kskLife := 2000, zskLife := 2000 } { forceKsk := fk, forceZsk := fz } m
      exampleStuck = exampleStuck := by
    unfold generating initialKeys; simp [hk, forcedKsk, forcedZsk, algorithmRoll, schemeRoll, hrun]
  have cl : ∀ x, x ≤ 2060 → clearTimer x m = x := fun x hx => by unfold clearTimer; split <;> omega
  have f1 : clearFuture m ⟨{ created := 1000, publish := 1000, ready := 1000, active := 1500 }, true, true, false, 13⟩ =
      ⟨{ created := 1000, publish := 1000, ready := 1000, active := 1500 }, true, true, false, 13⟩ := by
    simp [clearFuture, cl]
  have f2 : clearFuture m ⟨{ created := 2000, publish := 2000, active := 2060 }, false, true, false, 13⟩ =
      ⟨{ created := 2000, publish := 2000, active := 2060 }, false, true, false, 13⟩ := by
    simp [clearFuture, cl]
  have hnx : nextAction { examplePolicy with sts := true, kskLife := 2000, zskLife := 2000 } { forceKsk := fk, forceZsk := fz } m
      exampleStuck = (exampleStuck, {}) := by
    have hr := hrun
    unfold exampleStuck at hr
    unfold nextAction exampleStuck
    simp [nextLoop, skipped, f1, f2, kskAction, zskAction, s1, s2, hr, tcmp]
  rw [rollover, hg, hnx]
  have np : ¬past 0 m := not_past_zero hm0
  simp [examplePolicy, np]

/-- C35. The step that a run makes next is of a key that the run may touch and for which the step is due, and it is the step of
the state of the key. -/
theorem C35_chosen (p : Policy) (now : Nat) (hn : now ≠ 0) (f : Flags) (l l' : List Key) (n : Next)
    (h : nextAction p f now l = (l', n)) (hp : n.time ≠ 0 ∧ n.time ≤ now) :
    ∃ k, l'[n.idx]? = some k ∧ n.ksk = k.ksk ∧ Permitted f k ∧ Due p now (Busy l' now) k ∧ n.act = stepOf k.ksk (keyState k now) := by
  have := chosen_due (p := p) hn f l
  rw [h] at this
  exact this ((past_iff hn).2 hp)

/-- An active ZSK of the example is due for its successor. -/
example : ((nextAction examplePolicy {} 2000 exampleKeys).2.time, (nextAction examplePolicy {} 2000 exampleKeys).2.act) =
    (2000, .generate) := by decide +kernel

/-- C35. Before its steps a run makes keys exactly for one of the reasons: keys that the zone must have are missing, a rollover
is forced, or the algorithm or the scheme of the policy is not the one of the keys. -/
theorem C35_new_keys (p : Policy) (now : Nat) (hn : now ≠ 0) (f : Flags) (l : List Key) :
    generating p f now l ≠ l ↔ Reason p f now l :=
  generating_ne hn f l

/-- The only KSK is removed: one is made. -/
example : Reason examplePolicy {} 2000 [⟨{ created := 1000, publish := 1000, active := 1000, remove := 1500 }, true, false, false, 13⟩] :=
  (C35_new_keys _ _ (by decide) _ _).1 (by decide +kernel)

/-- The keys of the example are enough. -/
example : ¬Reason examplePolicy {} 2000 exampleKeys := fun h =>
  absurd ((C35_new_keys _ _ (by decide) _ _).2 h) (by decide +kernel)

/-- C35. A run that keeps the timers to come changes the keys only if there is a reason to make keys or a step is due for a key
that it may touch. -/
theorem C35_quiet (p : Policy) (now : Nat) (hn : now ≠ 0) (f : Flags) (hp : f.preserve = true) (fuel : Nat) (l r : List Key)
    (h : rollover p now fuel f l = .ok (some r)) (hne : r ≠ l) :
    Reason p f now l ∨ ∃ k ∈ l, Permitted f k ∧ Due p now (Busy l now) k :=
  rollover_changes hn f hp fuel l r h hne

/-- The example is changed at the end of the lifetime of the ZSK, and not before if ZSKs are not to be touched. -/
example : rollover examplePolicy 2000 5 { preserve := true } exampleKeys ≠ .ok (some exampleKeys) ∧
    rollover examplePolicy 2000 5 { preserve := true, allowZsk := false } exampleKeys = .ok (some exampleKeys) := by
  decide +kernel

end Knot
