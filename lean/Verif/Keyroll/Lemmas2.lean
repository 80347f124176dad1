import Verif.Keyroll.Lemmas
/-!
# Lemmas: every action of a rollover is an allowed step
-/
namespace Knot.Keyroll
open Spec

variable {p : Policy} {now : Nat}

theorem run_refl : ∀ l : List Key, Run p now l l
  | [] => .nil
  | k :: l => .keep (evolved_refl k) (run_refl l)

theorem run_trans {l1 l2 l3 : List Key} (hn : now ≠ 0) (h1 : Run p now l1 l2) (h2 : Run p now l2 l3) : Run p now l1 l3 := by
  induction h1 generalizing l3 with
  | nil => exact h2
  | keep e _ ih =>
    cases h2 with
    | keep e2 r2 => exact .keep (evolved_trans hn e e2) (ih r2)
    | delete e2 a b r2 => exact .delete (evolved_trans hn e e2) a b (ih r2)
  | delete e a b _ ih => exact .delete e a b (ih h2)
  | make f _ ih => exact .make f (ih h2)

theorem run_fresh (k : Key) (h : Fresh p now k) : ∀ l : List Key, Run p now l (l ++ [k])
  | [] => .make h (run_refl _)
  | a :: l => .keep (evolved_refl a) (run_fresh k h l)

theorem run_map (g : Key → Key) : ∀ l : List Key, (∀ k ∈ l, Evolved p now k (g k)) → Run p now l (l.map g)
  | [], _ => .nil
  | a :: l, h => .keep (h a (by simp)) (run_map g l fun k hk => h k (by simp [hk]))

theorem run_set (k' : Key) : ∀ (l : List Key) (i : Nat), (∀ k, l[i]? = some k → Evolved p now k k') → Run p now l (l.set i k')
  | [], _, _ => .nil
  | a :: l, 0, h => .keep (h a (by simp)) (run_refl l)
  | a :: l, i + 1, h => .keep (evolved_refl a) (run_set k' l i fun k hk => h k (by simpa using hk))

theorem run_setT (l : List Key) (i : Nat) (g : Timing → Timing)
    (h : ∀ k, l[i]? = some k → Evolved p now k { k with t := g k.t }) : Run p now l (setT l i g) := by
  unfold setT
  split
  · next k hk => exact run_set _ l i fun k2 h2 => by rw [hk] at h2; cases h2; exact h k hk
  · exact run_refl l

theorem run_erase : ∀ (l : List Key) (i : Nat), p.keepDeleted = false →
    (∀ k, l[i]? = some k → Waited now k.t.remove p.delDelay) → Run p now l (l.eraseIdx i)
  | [], _, _, _ => .nil
  | a :: l, 0, hd, h => .delete (evolved_refl a) hd (h a (by simp)) (run_refl l)
  | a :: l, i + 1, hd, h => .keep (evolved_refl a) (run_erase l i hd fun k hk => h k (by simpa using hk))

/-! ## Making keys -/

theorem run_generate (l : List Key) (ksk zsk : Bool) (w : Nat) (pre : Bool)
    (hr : ksk = true ∧ zsk = p.sts ∨ ksk = false ∧ zsk = true) (hw : w = 0 ∨ w = now ∧ pre = false) :
    Run p now l (generateKey p now l ksk zsk w pre) := by
  refine run_fresh _ ?_ l
  unfold Fresh
  cases ksk <;> cases pre <;> grind

theorem run_generateKsk (l : List Key) (w : Nat) (pre : Bool) (hw : w = 0 ∨ w = now ∧ pre = false) :
    Run p now l (generateKsk p now l w pre) := run_generate l _ _ w pre (.inl ⟨rfl, rfl⟩) hw

theorem run_generateZsk (l : List Key) (w : Nat) (pre : Bool) (hw : w = 0 ∨ w = now ∧ pre = false) :
    Run p now l (generateZsk p now l w pre) := run_generate l _ _ w pre (.inr ⟨rfl, rfl⟩) hw

theorem run_initial (hn : now ≠ 0) (f : Flags) (l : List Key) : Run p now l (initialKeys p f now l) := by
  unfold initialKeys
  split
  · dsimp only
    refine run_trans hn (l2 := if f.allowKsk = true then generateKsk p now l now false else l) ?_ ?_
    · split
      · exact run_generateKsk _ _ _ (.inr ⟨rfl, rfl⟩)
      · exact run_refl _
    · generalize (if f.allowKsk = true then generateKsk p now l now false else l) = l2
      split
      · exact run_generateZsk _ _ _ (.inr ⟨rfl, rfl⟩)
      · exact run_refl _
  · exact run_refl _

theorem run_forcedKsk (f : Flags) (l : List Key) : Run p now l (forcedKsk p f now l) := by
  unfold forcedKsk; split
  · exact run_generateKsk _ _ _ (.inl rfl)
  · exact run_refl _

theorem run_forcedZsk (f : Flags) (l : List Key) : Run p now l (forcedZsk p f now l) := by
  unfold forcedZsk; split
  · exact run_generateZsk _ _ _ (.inl rfl)
  · exact run_refl _

theorem run_algorithm (hn : now ≠ 0) (f : Flags) (l : List Key) : Run p now l (algorithmRoll p f now l) := by
  unfold algorithmRoll; split
  · dsimp only; split
    · exact run_generateKsk _ _ _ (.inl rfl)
    · exact run_trans hn (run_generateKsk l 0 true (.inl rfl)) (run_generateZsk _ _ _ (.inl rfl))
  · exact run_refl _

theorem run_scheme (hn : now ≠ 0) (f : Flags) (l : List Key) : Run p now l (schemeRoll p f now l) := by
  unfold schemeRoll; split
  · dsimp only; split
    · exact run_generateKsk _ _ _ (.inl rfl)
    · exact run_trans hn (run_generateKsk l 0 false (.inl rfl)) (run_generateZsk _ _ _ (.inl rfl))
  · exact run_refl _

theorem run_generating (hn : now ≠ 0) (f : Flags) (l : List Key) : Run p now l (generating p f now l) :=
  run_trans hn (run_initial hn f l) (run_trans hn (run_forcedKsk f _) (run_trans hn (run_forcedZsk f _)
    (run_trans hn (run_algorithm hn f _) (run_scheme hn f _))))

/-! ## The next action -/

/-- What the result of next_action() stands for. -/
def Chosen (p : Policy) (now : Nat) (keys : List Key) (n : Next) : Prop :=
  n.time = 0 ∨ ∃ k run, keys[n.idx]? = some k ∧ n.ksk = k.ksk ∧ k.pubOnly = false ∧
    (if k.ksk then kskAction p now run k else zskAction p now run k) = some (n.time, n.act)

theorem nextLoop_spec (hn : now ≠ 0) (f : Flags) : ∀ (n i : Nat) (keys : List Key) (res : Next),
    Chosen p now keys res → (res.time = 0 ∨ res.idx < i) →
    Run p now keys (nextLoop p f now n i keys res).1 ∧
    Chosen p now (nextLoop p f now n i keys res).1 (nextLoop p f now n i keys res).2
  | 0, i, keys, res, h, _ => by simpa only [nextLoop] using ⟨run_refl _, h⟩
  | n + 1, i, keys, res, h, hi => by
    simp only [nextLoop]
    cases hk : keys[i]? with
    | none => exact ⟨run_refl _, h⟩
    | some k =>
      dsimp only
      split
      · exact nextLoop_spec hn f n (i + 1) keys res h (by omega)
      · next hs =>
        have hev : Evolved p now k (if f.preserve = true then k else clearFuture now k) := by
          split
          · exact evolved_refl _
          · exact evolved_clear _
        generalize hk' : (if f.preserve = true then k else clearFuture now k) = k' at hev ⊢
        have hrun : Run p now keys (keys.set i k') := run_set _ _ _ fun k2 h2 => by rw [hk] at h2; cases h2; exact hev
        have hlt : i < keys.length := by
          rcases Nat.lt_or_ge i keys.length with h | h
          · exact h
          · rw [List.getElem?_eq_none h] at hk; cases hk
        have hget : (keys.set i k')[i]? = some k' := by simp [hlt]
        have hpub : k'.pubOnly = false := by
          rw [hev.same.2.2.1]; unfold skipped at hs; revert hs; cases k.pubOnly <;> simp
        have hch : Chosen p now (keys.set i k') res := by
          rcases h with h | ⟨k2, run, h2, h3⟩
          · exact .inl h
          · rcases hi with hi | hi
            · exact .inl hi
            · exact .inr ⟨k2, run, by rw [List.getElem?_set_ne (by omega)]; exact h2, h3⟩
        split
        · have := nextLoop_spec hn f n (i + 1) (keys.set i k') res hch (by omega)
          exact ⟨run_trans hn hrun this.1, this.2⟩
        · next t a hta =>
          have hc2 : Chosen p now (keys.set i k') (if tcmp t res.time < 0 then ⟨t, a, i, k'.ksk⟩ else res) := by
            split
            · exact .inr ⟨k', _, hget, rfl, hpub, hta⟩
            · exact hch
          have := nextLoop_spec hn f n (i + 1) (keys.set i k') _ hc2 (by split; exact .inr (Nat.lt_succ_self i); omega)
          exact ⟨run_trans hn hrun this.1, this.2⟩

theorem nextAction_spec (hn : now ≠ 0) (f : Flags) (keys : List Key) :
    Run p now keys (nextAction p f now keys).1 ∧ Chosen p now (nextAction p f now keys).1 (nextAction p f now keys).2 :=
  nextLoop_spec hn f _ _ _ _ (.inl rfl) (.inl rfl)

theorem not_past_zero (hn : now ≠ 0) : ¬past 0 now := by rw [past_iff hn]; unfold Come; simp

/-! ## The actions -/

/-- Steps in which only some of the timers change. -/
local macro "ev" : tactic => `(tactic|
  (refine ⟨⟨rfl, rfl, rfl, rfl, rfl, rfl⟩, .inl rfl, ?_, ?_, ?_, ?_, ?_, ?_, ?_⟩ <;> try exact .inl (.inl rfl)))


theorem tadd_come {x d : Nat} (h : Come (tadd x d) now) : Waited now x d := by
  unfold tadd Come Waited at *; split at h <;> omega

theorem afterKeyTtl_come {x : Nat} (h : Come (afterKeyTtl p x) now) : Waited now x (sum32 p.propagation p.keyTtl) := by
  unfold afterKeyTtl at h; split at h
  · unfold Come at h; omega
  · exact tadd_come h

theorem afterMaxTtl_come {x : Nat} (h : Come (afterMaxTtl p x) now) : Waited now x (sum32 p.propagation p.maxTtl) := by
  unfold afterMaxTtl at h; split at h
  · unfold Come at h; omega
  · exact tadd_come h

theorem kskRemoveTime_come {x : Nat} {c : Bool} (h : Come (kskRemoveTime p x c) now) :
    Waited now x (p.propagation + if c then p.maxTtl else p.keyTtl) := by
  unfold kskRemoveTime at h; split at h
  · unfold Come at h; omega
  · exact tadd_come h

theorem reallyTime_come {x : Nat} (h : Come (reallyTime p now x) now) : p.keepDeleted = false ∧ Waited now x p.delDelay := by
  unfold reallyTime at h; dsimp only at h
  cases hk : p.keepDeleted with
  | true => simp only [hk, if_true] at h; unfold Come at h; split at h <;> simp at h
  | false =>
    simp only [hk, Bool.false_eq_true, if_false] at h
    split at h
    · unfold Come at h; omega
    · exact ⟨rfl, tadd_come h⟩

theorem tmin_retired {a b : Nat} (h1 : Come a now) (h2 : ¬Come b now) : tmin a b = a := by
  unfold tmin Come at *; grind

theorem run_publish {l : List Key} {i : Nat} {r : List Key} (hn : now ≠ 0) (h : execPublish now l i = .ok r)
    (hw : ∀ k, l[i]? = some k → Waited now k.t.preActive (sum32 p.propagation p.maxTtl)) : Run p now l r := by
  unfold execPublish at h
  split at h
  · cases h
  · next k hk =>
    split at h
    · next hs =>
      cases h
      refine run_setT _ _ _ fun k2 h2 => ?_
      rw [hk] at h2; cases h2
      have := state_preActive hn hs
      ev; exact .inr ⟨⟨rfl, this.2.1⟩, hw k hk⟩
    · cases h

theorem run_submit {l : List Key} {i : Nat} {r : List Key} (hn : now ≠ 0) (h : submitKey now l i = .ok r)
    (hw : ∀ k, l[i]? = some k → Waited now k.t.publish (sum32 p.propagation p.keyTtl)) : Run p now l r := by
  unfold submitKey at h
  split at h
  · cases h
  · next k hk =>
    split at h
    · next hs =>
      cases h
      refine run_trans hn (run_map _ l fun k2 _ => ?_) (run_setT _ _ _ fun k2 h2 => ?_)
      · split
        · next hc =>
          have hk2 : k2.ksk = true ∧ keyState k2 now = .ready := by
            simp only [Bool.and_eq_true, beq_iff_eq] at hc; exact ⟨hc.1.1, hc.2⟩
          have := state_ready hn hk2.2
          ev; exact .inr ⟨⟨rfl, this.2.1⟩, .inl ⟨hk2.1, this.1⟩⟩
        · exact evolved_refl _
      · rw [List.getElem?_map, hk] at h2
        have hnr : (k.ksk && !k.pubOnly && keyState k now == .ready) = false := by rw [hs.1]; simp
        rw [Option.map_some, hnr] at h2
        cases h2
        have := state_published hn hs.1
        ev; exact .inr ⟨⟨rfl, this.2.1⟩, hs.2, hw k hk⟩
    · cases h

theorem run_remove {l : List Key} {i : Nat} {r : List Key} (hn : now ≠ 0) (h : removeOld now l i = .ok r)
    (hw : ∀ k, l[i]? = some k → ¬Come k.t.remove now ∧ (Waited now k.t.postActive (sum32 p.propagation p.keyTtl) ∨
       k.ksk = false ∧ Waited now k.t.retire (sum32 p.propagation p.maxTtl) ∨
       k.ksk = true ∧ Waited now k.t.retire (p.propagation + if k.zsk then p.maxTtl else p.keyTtl))) : Run p now l r := by
  unfold removeOld at h
  split at h
  · cases h
  · next k hk =>
    split at h
    · cases h
      refine run_setT _ _ _ fun k2 h2 => ?_
      rw [hk] at h2; cases h2
      ev; exact .inr ⟨⟨rfl, (hw k hk).1⟩, .inr (hw k hk).2⟩
    · cases h

theorem run_reallyRemove {l : List Key} {i : Nat} {r : List Key} (h : reallyRemove p now l i = .ok r)
    (hw : ∀ k, l[i]? = some k → Waited now k.t.remove p.delDelay) : Run p now l r := by
  unfold reallyRemove at h
  split at h
  · cases h
  · split at h
    · next hs => cases h; exact run_erase _ _ hs.2 hw
    · cases h

theorem come_now (hn : now ≠ 0) : Come now now := ⟨hn, Nat.le_refl _⟩

theorem getElem?_setT (l : List Key) (i : Nat) (g : Timing → Timing) (j : Nat) :
    (setT l i g)[j]? = (l[j]?).map fun k => if i = j then { k with t := g k.t } else k := by
  unfold setT
  split
  · next k hk =>
    by_cases h : i = j
    · subst h
      have : i < l.length := by
        rcases Nat.lt_or_ge i l.length with h | h
        · exact h
        · rw [List.getElem?_eq_none h] at hk; cases hk
      rw [List.getElem?_set_self this, hk]; simp
    · rw [List.getElem?_set_ne h]; simp [h]
  · next hk =>
    by_cases h : i = j
    · subst h; simp [hk]
    · simp [h]

theorem rolloverFriend_spec {all : List Key} : ∀ (l : List Key) (i : Nat) (r : Option Nat) (j : Nat),
    rolloverFriend now all i l r = some j →
    r = some j ∨ ∃ m k, j = i + m ∧ l[m]? = some k ∧ k.zsk = true ∧ keyState k now = .retireActive
  | [], _, r, j, h => .inl (by simpa [rolloverFriend] using h)
  | k :: l, i, r, j, h => by
    rw [rolloverFriend] at h
    generalize (if (k.ksk && k.zsk) = true then 2 else 3) = magic at h
    rcases rolloverFriend_spec l (i + 1) _ j h with h | ⟨m, k2, h1, h2, h3⟩
    · split at h
      · next hc =>
        cases h
        simp only [Bool.and_eq_true, beq_iff_eq] at hc
        exact .inr ⟨0, k, rfl, rfl, hc.1.1, hc.1.2⟩
      · exact .inl h
    · exact .inr ⟨m + 1, k2, by omega, by simpa using h2, h3⟩

theorem run_kskRetire {l : List Key} {i : Nat} {r : List Key} (hn : now ≠ 0) (h : kskRetire now l i = .ok r) : Run p now l r := by
  unfold kskRetire at h
  split at h
  · cases h
  · next k hk =>
    split at h
    · next hs =>
      have st := state_retireActive hn hs
      split at h
      · next j hj =>
        cases h
        rcases rolloverFriend_spec l 0 none j hj with h | ⟨m, kj, hm, hkj, -, hsj⟩
        · cases h
        · rw [Nat.zero_add] at hm; subst hm
          have stj := state_retireActive hn hsj
          refine run_trans hn (run_setT _ _ _ fun k2 h2 => ?_) (run_setT _ _ _ fun k2 h2 => ?_)
          · rw [hk] at h2; cases h2
            ev; exact .inr ⟨⟨rfl, st.2.2.1⟩, .inr st.1⟩
          · rw [getElem?_setT, hkj, Option.map_some] at h2
            cases h2
            split
            · ev
            · ev; exact .inr ⟨⟨rfl, stj.2.2.1⟩, .inr stj.1⟩
      · cases h
        refine run_setT _ _ _ fun k2 h2 => ?_
        rw [hk] at h2; cases h2
        ev; exact .inr ⟨⟨rfl, st.2.1⟩, .inr st.1⟩
    · cases h

theorem findIdx_some {l : List Key} {q : Key → Bool} {j : Nat} (h : l.findIdx? q = some j) : ∃ k, l[j]? = some k ∧ q k = true := by
  rw [List.findIdx?_eq_some_iff_getElem] at h
  obtain ⟨hj, hq, -⟩ := h
  exact ⟨l[j], by simp [hj], hq⟩

theorem evolved_retireOld (hn : now ≠ 0) (k : Key) (d : Bool) (hs : keyState k now = .active) :
    Evolved p now k { k with t := retireOld now 0 d k k.t } := by
  have st := state_active hn hs
  unfold retireOld
  split
  · split
    · ev
      · exact .inr ⟨⟨rfl, st.2.1⟩, st.1⟩
      · exact .inr ⟨⟨rfl, st.2.2.2.1⟩, .inl st.1⟩
    · ev; exact .inr ⟨⟨rfl, st.2.1⟩, st.1⟩
  · split
    · next hk =>
      split
      · ev
        · exact .inr ⟨⟨rfl, st.2.1⟩, st.1⟩
        · exact .inr ⟨⟨rfl, st.2.2.1⟩, .inl st.1⟩
      · next hz =>
        ev
        · exact .inr ⟨⟨rfl, st.2.1⟩, st.1⟩
        · exact .inr ⟨⟨rfl, st.2.2.2.2⟩, .inl ⟨hk, by simpa using hz, st.1, come_now hn⟩⟩
    · ev; exact .inr ⟨⟨rfl, st.2.2.1⟩, .inl st.1⟩

theorem evolved_retireZsk (hn : now ≠ 0) (k : Key) (d : Bool) (hs : keyState k now = .active ∨ keyState k now = .retireActive) :
    Evolved p now k { k with t := retireZsk now 0 d k.t } := by
  have st : (Come k.t.active now ∨ Come k.t.retireActive now) ∧ ¬Come k.t.retire now ∧ ¬Come k.t.postActive now := by
    rcases hs with hs | hs
    · have := state_active hn hs; grind
    · have := state_retireActive hn hs; grind
  unfold retireZsk
  split
  · ev; exact .inr ⟨⟨rfl, st.2.2⟩, st.1⟩
  · ev; exact .inr ⟨⟨rfl, st.2.1⟩, st.1⟩

theorem run_retireBoth (hn : now ≠ 0) (l : List Key) (new : Key) : Run p now l (retireBoth now 0 l new) := by
  unfold retireBoth
  split
  · exact run_refl _
  · next j hj =>
    obtain ⟨k, hk, hq⟩ := findIdx_some hj
    rw [hk]; dsimp only
    simp only [Bool.and_eq_true, beq_iff_eq] at hq
    have h1 : Run p now l (setT l j (retireOld now 0 (k.alg != new.alg) k)) :=
      run_setT _ _ _ fun k2 h2 => by rw [hk] at h2; cases h2; exact evolved_retireOld hn k _ hq.2
    refine run_trans hn h1 ?_
    split
    · split
      · exact run_refl _
      · next z hz =>
        obtain ⟨kz, hkz, hqz⟩ := findIdx_some hz
        simp only [Bool.and_eq_true, Bool.or_eq_true, beq_iff_eq] at hqz
        exact run_setT _ _ _ fun k2 h2 => by rw [hkz] at h2; cases h2; exact evolved_retireZsk hn kz _ hqz.2
    · exact run_refl _

theorem retireBoth_get (d : Nat) (l : List Key) (new : Key) (i : Nat) (k : Key) (h : (retireBoth now d l new)[i]? = some k) :
    ∃ k0, l[i]? = some k0 ∧ k.ksk = k0.ksk ∧ k.zsk = k0.zsk ∧ k.t.publish = k0.t.publish ∧ k.t.ready = k0.t.ready ∧
      k.t.active = k0.t.active := by
  have key : ∀ (l : List Key) (j : Nat) (g : Timing → Timing) (k : Key),
      (∀ t, (g t).publish = t.publish ∧ (g t).ready = t.ready ∧ (g t).active = t.active) → (setT l j g)[i]? = some k →
      ∃ k0, l[i]? = some k0 ∧ k.ksk = k0.ksk ∧ k.zsk = k0.zsk ∧ k.t.publish = k0.t.publish ∧ k.t.ready = k0.t.ready ∧
        k.t.active = k0.t.active := by
    intro l j g k hg h
    rw [getElem?_setT] at h
    cases hk : l[i]? with
    | none => rw [hk] at h; cases h
    | some k0 =>
      rw [hk] at h; cases h
      refine ⟨k0, rfl, ?_⟩
      split <;> simp [hg]
  have g1 : ∀ b old t, (retireOld now d b old t).publish = t.publish ∧ (retireOld now d b old t).ready = t.ready ∧
      (retireOld now d b old t).active = t.active := by
    intro b old t; unfold retireOld; grind
  have g2 : ∀ b t, (retireZsk now d b t).publish = t.publish ∧ (retireZsk now d b t).ready = t.ready ∧
      (retireZsk now d b t).active = t.active := by
    intro b t; unfold retireZsk; grind
  unfold retireBoth at h
  split at h
  · exact ⟨k, h, rfl, rfl, rfl, rfl, rfl⟩
  · split at h
    · exact ⟨k, h, rfl, rfl, rfl, rfl, rfl⟩
    · dsimp only at h
      split at h
      · split at h
        · exact key _ _ _ _ (g1 _ _) h
        · obtain ⟨k1, h1, e1⟩ := key _ _ _ _ (g2 _) h
          obtain ⟨k0, h0, e0⟩ := key _ _ _ _ (g1 _ _) h1
          exact ⟨k0, h0, by grind⟩
      · exact key _ _ _ _ (g1 _ _) h

theorem tmin_now (hn : now ≠ 0) {x : Nat} (h : ¬Come x now) : tmin now x = now := by
  unfold tmin Come at *; grind

theorem run_replace {l : List Key} {i : Nat} {r : List Key} (hn : now ≠ 0) (h : newSignatures now 0 l i = .ok r)
    (hw : ∀ k, l[i]? = some k → k.ksk = false → Waited now k.t.publish (sum32 p.propagation p.keyTtl)) : Run p now l r := by
  unfold newSignatures at h
  split at h
  · cases h
  · next new hnew =>
    dsimp only at h
    split at h
    · cases h
    · next k hk =>
      obtain ⟨k0, h0, e⟩ := retireBoth_get 0 l new i k hk
      rw [hnew] at h0; cases h0
      refine run_trans hn (run_retireBoth hn l new) ?_
      cases hksk : new.ksk with
      | true =>
        rw [hksk, if_pos rfl] at h
        split at h
        · next hs =>
          cases h
          have st := state_ready hn hs
          refine run_setT _ _ _ fun k2 h2 => ?_
          rw [hk] at h2; cases h2
          ev; exact .inr ⟨⟨tmin_now hn st.2.1, st.2.1⟩, .inl ⟨e.1.trans hksk, st.1⟩⟩
        · cases h
      | false =>
        simp only [hksk, Bool.false_eq_true, if_false] at h
        split at h
        · next hs =>
          cases h
          have st := state_published hn hs
          refine run_setT _ _ _ fun k2 h2 => ?_
          rw [hk] at h2; cases h2
          ev; exact .inr ⟨⟨tmin_now hn st.2.2.1, st.2.2.1⟩, .inr ⟨e.1.trans hksk, by
            have := hw new hnew hksk; rw [← e.2.2.1] at this; exact this⟩⟩
        · cases h

/-! ## The whole run -/

theorem run_exec {l : List Key} {n : Next} {r : List Key} (hn : now ≠ 0) (hc : Chosen p now l n) (ht : past n.time now)
    (h : execAction p now l n = .ok r) : Run p now l r := by
  rw [past_iff hn] at ht
  rcases hc with hc | ⟨k, run, hk, hksk, -, hact⟩
  · exact absurd hc ht.1
  · have only : ∀ k2, l[n.idx]? = some k2 → k2 = k := fun k2 h2 => by rw [hk] at h2; cases h2; rfl
    unfold execAction at h
    cases ha : n.act with
    | generate =>
      rw [ha] at h; cases h
      split
      · exact run_generateKsk _ _ _ (.inl rfl)
      · exact run_generateZsk _ _ _ (.inl rfl)
    | invalid => rw [ha] at h; cases h
    | retire => rw [ha] at h; exact run_kskRetire hn h
    | publish =>
      rw [ha] at h hact
      refine run_publish hn h fun k2 h2 => ?_
      rw [only k2 h2]
      have : n.time = afterMaxTtl p k.t.preActive := by unfold kskAction zskAction at hact; grind
      exact afterMaxTtl_come (this ▸ ht)
    | submit =>
      rw [ha] at h hact
      refine run_submit hn h fun k2 h2 => ?_
      rw [only k2 h2]
      have : n.time = afterKeyTtl p k.t.publish := by unfold kskAction zskAction at hact; grind
      exact afterKeyTtl_come (this ▸ ht)
    | replace =>
      rw [ha] at h hact
      refine run_replace hn h fun k2 h2 hf => ?_
      rw [only k2 h2] at hf ⊢
      have : n.time = afterKeyTtl p k.t.publish := by unfold zskAction at hact; grind
      exact afterKeyTtl_come (this ▸ ht)
    | remove =>
      rw [ha] at h hact
      refine run_remove hn h fun k2 h2 => ?_
      rw [only k2 h2]
      cases hs : keyState k now with
      | postActive =>
        have st := state_postActive hn hs
        have : n.time = afterKeyTtl p k.t.postActive := by unfold kskAction zskAction at hact; grind
        exact ⟨st.2.2, .inl (afterKeyTtl_come (this ▸ ht))⟩
      | retired =>
        have st := state_retired hn hs
        refine ⟨st.2.2, .inr ?_⟩
        have e := tmin_retired st.1 st.2.2
        cases hb : k.ksk with
        | true =>
          have : n.time = kskRemoveTime p k.t.retire k.zsk := by unfold kskAction at hact; rw [e] at hact; grind
          exact .inr ⟨rfl, kskRemoveTime_come (this ▸ ht)⟩
        | false =>
          have : n.time = afterMaxTtl p k.t.retire := by unfold zskAction at hact; rw [e] at hact; grind
          exact .inl ⟨rfl, afterMaxTtl_come (this ▸ ht)⟩
      | _ => unfold kskAction zskAction at hact; grind
    | reallyRemove =>
      rw [ha] at h hact
      have : n.time = reallyTime p now k.t.remove := by unfold kskAction zskAction at hact; grind
      have := reallyTime_come (this ▸ ht)
      exact run_reallyRemove h fun k2 h2 => by rw [only k2 h2]; exact this.2

theorem run_rollover (hn : now ≠ 0) : ∀ (fuel : Nat) (f : Flags) (l r : List Key),
    rollover p now fuel f l = .ok (some r) → Run p now l r
  | 0, _, _, _, h => by simp [rollover] at h
  | fuel + 1, f, l, r, h => by
    rw [rollover] at h
    split at h
    · cases h; exact run_refl _
    · have h1 := nextAction_spec (p := p) hn f (generating p f now l)
      have h0 := run_generating (p := p) hn f l
      generalize nextAction p f now (generating p f now l) = q at h h1
      obtain ⟨l1, n1⟩ := q
      dsimp only at h h1
      have h01 := run_trans hn h0 h1.1
      split at h
      · next hp =>
        cases hx : execAction p now l1 n1 with
        | err e => rw [hx] at h; cases h
        | ub => rw [hx] at h; cases h
        | ok l2 =>
          rw [hx] at h
          have h2 := run_trans hn h01 (run_exec hn h1.2 hp hx)
          have h3 := nextAction_spec (p := p) hn f l2
          simp only [Res.bind_ok] at h
          generalize nextAction p f now l2 = q at h h3
          obtain ⟨l3, n3⟩ := q
          dsimp only at h h3
          have h4 := run_trans hn h2 h3.1
          split at h
          · exact run_trans hn h4 (run_rollover hn fuel _ l3 r h)
          · cases h; exact h4
      · cases h; exact h01

end Knot.Keyroll
