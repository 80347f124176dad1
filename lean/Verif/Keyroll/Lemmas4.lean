import Verif.Keyroll.Lemmas2
/-!
# Lemmas: after a run nothing is due
-/
namespace Knot.Keyroll
open Spec

variable {p : Policy} {now : Nat}

theorem running_iff (l : List Key) (now : Nat) : running l now = true ↔ Busy l now := by
  have s1 : ∀ l : List Key, (l.map fun k => (rolling k now).2.1).sum =
      (l.filter fun k => !k.pubOnly && k.ksk && (keyState k now == .ready || keyState k now == .active)).length := by
    intro l
    induction l with
    | nil => rfl
    | cons k l ih =>
      rw [List.map_cons, List.sum_cons, ih, List.filter_cons]
      unfold rolling
      cases k.pubOnly <;> cases k.ksk <;> cases keyState k now <;> simp <;> omega
  have s2 : ∀ l : List Key, (l.map fun k => (rolling k now).2.2).sum =
      (l.filter fun k => !k.pubOnly && k.zsk && keyState k now == .active).length := by
    intro l
    induction l with
    | nil => rfl
    | cons k l ih =>
      rw [List.map_cons, List.sum_cons, ih, List.filter_cons]
      unfold rolling
      cases k.pubOnly <;> cases k.zsk <;> cases keyState k now <;> simp <;> omega
  have s3 : ∀ k : Key, (rolling k now).1 = true ↔
      k.pubOnly = false ∧ keyState k now ∈ [.preActive, .published, .retireActive, .postActive] := by
    intro k
    unfold rolling
    cases k.pubOnly <;> cases keyState k now <;> simp
  unfold running Busy
  rw [s1, s2]
  simp only [Bool.or_eq_true, List.any_eq_true, decide_eq_true_eq, s3, or_assoc]

theorem come_clear (x : Nat) : Come (clearTimer x now) now ↔ Come x now := by
  unfold clearTimer Come; split <;> omega

theorem state_clear (hn : now ≠ 0) (k : Key) : keyState (clearFuture now k) now = keyState k now := by
  rw [keyState_spec _ hn, keyState_spec _ hn]
  unfold clearFuture
  dsimp only
  split <;> simp only [come_clear]

theorem rolling_clear (hn : now ≠ 0) (k : Key) : rolling (clearFuture now k) now = rolling k now := by
  unfold rolling
  rw [state_clear hn]
  unfold clearFuture
  dsimp only
  split <;> rfl

theorem any_set {α : Type} (q : α → Bool) : ∀ (l : List α) (i : Nat) (x y : α), l[i]? = some x → q y = q x → (l.set i y).any q = l.any q
  | [], _, _, _, h, _ => by cases h
  | a :: l, 0, x, y, h, e => by simp only [List.getElem?_cons_zero, Option.some.injEq] at h; subst h; simp [e]
  | a :: l, i + 1, x, y, h, e => by
    simp only [List.getElem?_cons_succ] at h
    simp only [List.set_cons_succ, List.any_cons, any_set q l i x y h e]

theorem map_set {α : Type} (g : α → Nat) : ∀ (l : List α) (i : Nat) (x y : α), l[i]? = some x → g y = g x → (l.set i y).map g = l.map g
  | [], _, _, _, h, _ => by cases h
  | a :: l, 0, x, y, h, e => by simp only [List.getElem?_cons_zero, Option.some.injEq] at h; subst h; simp [e]
  | a :: l, i + 1, x, y, h, e => by
    simp only [List.getElem?_cons_succ] at h
    simp only [List.set_cons_succ, List.map_cons, map_set g l i x y h e]

theorem running_set {l : List Key} {i : Nat} {k k' : Key} (h : l[i]? = some k) (e : rolling k' now = rolling k now) :
    running (l.set i k') now = running l now := by
  unfold running
  rw [any_set _ l i k k' h (by rw [e]), map_set _ l i k k' h (by rw [e]), map_set _ l i k k' h (by rw [e])]

/-- The action for a key. -/
def actionOf (p : Policy) (now : Nat) (run : Bool) (k : Key) : Option (Nat × Act) :=
  if k.ksk then kskAction p now run k else zskAction p now run k

/-- No step of the key comes before the one chosen. -/
def NotBefore (p : Policy) (now : Nat) (run : Bool) (k : Key) (time : Nat) : Prop :=
  ∀ t a, actionOf p now run k = some (t, a) → t = 0 ∨ time ≠ 0 ∧ time ≤ t

theorem tcmp_lt (t r : Nat) : tcmp t r < 0 ↔ t ≠ 0 ∧ (r = 0 ∨ t < r) := by
  unfold tcmp; split <;> split <;> split <;> omega

theorem nextLoop_min (hn : now ≠ 0) (f : Flags) : ∀ (n i : Nat) (keys : List Key) (res : Next), i + n = keys.length →
    (∀ (j : Nat) (k : Key), j < i → keys[j]? = some k → skipped f k = false → NotBefore p now (running keys now) k res.time) →
    ∀ k ∈ (nextLoop p f now n i keys res).1, skipped f k = false →
      NotBefore p now (running (nextLoop p f now n i keys res).1 now) k (nextLoop p f now n i keys res).2.time
  | 0, i, keys, res, hl, h => by
    simp only [nextLoop]
    intro k hk hs
    obtain ⟨j, hj⟩ := List.getElem?_of_mem hk
    have : j < keys.length := by
      rcases Nat.lt_or_ge j keys.length with h | h
      · exact h
      · rw [List.getElem?_eq_none h] at hj; cases hj
    exact h j k (by omega) hj hs
  | n + 1, i, keys, res, hl, h => by
    simp only [nextLoop]
    cases hk : keys[i]? with
    | none => rw [List.getElem?_eq_none_iff] at hk; omega
    | some k =>
      dsimp only
      split
      · next hs =>
        refine nextLoop_min hn f n (i + 1) keys res (by omega) fun j k2 hj h2 hs2 => ?_
        by_cases e : j = i
        · subst e; rw [hk] at h2; cases h2; rw [hs] at hs2; cases hs2
        · exact h j k2 (by omega) h2 hs2
      · next hs =>
        have hro : rolling (if f.preserve = true then k else clearFuture now k) now = rolling k now := by
          split
          · rfl
          · exact rolling_clear hn k
        generalize (if f.preserve = true then k else clearFuture now k) = k' at hro ⊢
        have hrun := running_set hk hro
        have hlt : i < keys.length := by omega
        have old : ∀ (j : Nat) (k2 : Key), j < i → (keys.set i k')[j]? = some k2 → skipped f k2 = false →
            NotBefore p now (running (keys.set i k') now) k2 res.time := by
          intro j k2 hj h2 hs2
          rw [List.getElem?_set_ne (by omega)] at h2
          rw [hrun]; exact h j k2 hj h2 hs2
        have self : (keys.set i k')[i]? = some k' := by simp [hlt]
        split
        · next hnone =>
          refine nextLoop_min hn f n (i + 1) (keys.set i k') res (by simp; omega) fun j k2 hj h2 hs2 => ?_
          by_cases e : j = i
          · subst e; rw [self] at h2; cases h2
            intro t a hta; unfold actionOf at hta; rw [hnone] at hta; cases hta
          · exact old j k2 (by omega) h2 hs2
        · next t a hta =>
          refine nextLoop_min hn f n (i + 1) (keys.set i k') _ (by simp; omega) fun j k2 hj h2 hs2 => ?_
          have hlt' := tcmp_lt t res.time
          by_cases e : j = i
          · subst e; rw [self] at h2; cases h2
            intro t' a' hta'; unfold actionOf at hta'; rw [hta] at hta'; cases hta'
            split <;> (try dsimp only) <;> omega
          · have := old j k2 (by omega) h2 hs2
            intro t' a' hta'
            have := this t' a' hta'
            split <;> (try dsimp only) <;> omega

theorem nextAction_min (hn : now ≠ 0) (f : Flags) (keys : List Key) :
    ∀ k ∈ (nextAction p f now keys).1, skipped f k = false →
      NotBefore p now (running (nextAction p f now keys).1 now) k (nextAction p f now keys).2.time :=
  nextLoop_min hn f _ 0 keys {} (by simp) fun j k hj => by omega

theorem waited_tadd {x d : Nat} (h : Waited now x d) : Come (tadd x d) now := by
  unfold Waited tadd Come at *; split <;> omega

theorem waited_afterKey {x : Nat} (h : Waited now x (sum32 p.propagation p.keyTtl)) : Come (afterKeyTtl p x) now := by
  unfold afterKeyTtl; rw [if_neg h.1]; exact waited_tadd h

theorem waited_afterMax {x : Nat} (h : Waited now x (sum32 p.propagation p.maxTtl)) : Come (afterMaxTtl p x) now := by
  unfold afterMaxTtl; rw [if_neg h.1]; exact waited_tadd h

theorem waited_kskRemove {x : Nat} {c : Bool} (h : Waited now x (p.propagation + if c then p.maxTtl else p.keyTtl)) :
    Come (kskRemoveTime p x c) now := by
  unfold kskRemoveTime; rw [if_neg h.1]; exact waited_tadd h

theorem waited_life {x life : Nat} (hl : life ≠ 0) (h : Waited now x life) : Come (lifeTime x life) now := by
  unfold lifeTime tplus Waited Come at *; rw [if_neg (by omega), if_pos (by omega)]; omega

theorem waited_really (hn : now ≠ 0) {x : Nat} (hk : p.keepDeleted = false) (h : Waited now x p.delDelay) :
    Come (reallyTime p now x) now := by
  unfold reallyTime
  have c := waited_tadd h
  simp only [hk, Bool.false_eq_true, if_false]
  rw [if_neg]
  · exact c
  · rw [tcmp_pos hn]; exact fun h => h c

theorem due_action (hn : now ≠ 0) {run : Bool} {busy : Prop} (hb : run = true ↔ busy) {k : Key} (h : Due p now busy k) :
    ∃ t a, actionOf p now run k = some (t, a) ∧ Come t now := by
  unfold Due at h
  unfold actionOf
  cases hs : keyState k now with
  | invalid => rw [hs] at h; exact h.elim
  | revoked => rw [hs] at h; exact h.elim
  | preActive =>
    rw [hs] at h
    refine ⟨_, .publish, ?_, waited_afterMax h⟩
    cases hk : k.ksk <;> simp [kskAction, zskAction, hs]
  | published =>
    rw [hs] at h
    cases hk : k.ksk with
    | true => exact ⟨_, .submit, by simp [kskAction, hs], waited_afterKey h⟩
    | false => exact ⟨_, .replace, by simp [zskAction, hs], waited_afterKey h⟩
  | ready =>
    rw [hs] at h
    exact ⟨_, .replace, by simp [kskAction, hs, h.1], waited_life h.2.1 h.2.2⟩
  | active =>
    rw [hs] at h
    have hr : run = false := by
      cases hx : run with
      | false => rfl
      | true => exact absurd (hb.mp hx) h.1
    rcases h.2.2 with ⟨h1, h2, h3⟩ | ⟨h1, h2, h3⟩
    · exact ⟨_, .generate, by simp [kskAction, hs, h1, hr, h.2.1], waited_life h2 h3⟩
    · exact ⟨_, .generate, by simp [zskAction, hs, h1, hr, h.2.1], waited_life h2 h3⟩
  | retireActive =>
    rw [hs] at h
    exact ⟨_, .retire, by simp [kskAction, hs, h.1, h.2.1, h.2.2.1, h.2.2.2.1], waited_afterKey h.2.2.2.2⟩
  | postActive =>
    rw [hs] at h
    refine ⟨_, .remove, ?_, waited_afterKey h⟩
    cases hk : k.ksk <;> simp [kskAction, zskAction, hs]
  | retired =>
    rw [hs] at h
    have st := state_retired hn hs
    have e := tmin_retired st.1 st.2.2
    rcases h with ⟨h1, h2⟩ | ⟨h1, h2⟩
    · exact ⟨_, .remove, by simp [kskAction, hs, h1, e], waited_kskRemove h2⟩
    · exact ⟨_, .remove, by simp [zskAction, hs, h1, e], waited_afterMax h2⟩
  | removed =>
    rw [hs] at h
    refine ⟨_, .reallyRemove, ?_, waited_really hn h.1 h.2⟩
    cases hk : k.ksk <;> simp [kskAction, zskAction, hs]

theorem not_due (hn : now ≠ 0) (f : Flags) (keys : List Key) (h : ¬past (nextAction p f now keys).2.time now) :
    ∀ k ∈ (nextAction p f now keys).1, skipped f k = false → ¬Due p now (Busy (nextAction p f now keys).1 now) k := by
  intro k hk hs hd
  obtain ⟨t, a, hta, hc⟩ := due_action hn (running_iff _ now) hd
  have := nextAction_min hn f keys k hk hs t a hta
  rw [past_iff hn] at h
  unfold Come at *
  omega

theorem rollover_progress (hn : now ≠ 0) (hm : p.manual = false) : ∀ (fuel : Nat) (f : Flags) (l r : List Key),
    rollover p now fuel f l = .ok (some r) → ∀ k ∈ r, skipped f k = false → ¬Due p now (Busy r now) k
  | 0, _, _, _, h => by simp [rollover] at h
  | fuel + 1, f, l, r, h => by
    rw [rollover, hm] at h
    simp only [Bool.false_eq_true, if_false] at h
    have h1 := not_due (p := p) hn f (generating p f now l)
    generalize nextAction p f now (generating p f now l) = q at h h1
    obtain ⟨l1, n1⟩ := q
    dsimp only at h h1
    split at h
    · cases hx : execAction p now l1 n1 with
      | err e => rw [hx] at h; cases h
      | ub => rw [hx] at h; cases h
      | ok l2 =>
        rw [hx] at h
        simp only [Res.bind_ok] at h
        have h3 := not_due (p := p) hn f l2
        generalize nextAction p f now l2 = q at h h3
        obtain ⟨l3, n3⟩ := q
        dsimp only at h h3
        split at h
        · exact rollover_progress hn hm fuel { f with forceKsk := false, forceZsk := false } l3 r h
        · next hp => cases h; exact h3 hp
    · next hp => cases h; exact h1 hp

end Knot.Keyroll
