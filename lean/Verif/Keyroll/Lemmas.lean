import Verif.Keyroll.Spec
/-!
# Lemmas on key states and single steps
-/
namespace Knot.Keyroll
open Spec

theorem past_iff {x m : Nat} (hm : m ≠ 0) : past x m ↔ Come x m := by
  unfold past tcmp Come; split <;> split <;> split <;> omega

theorem past_zero {x : Nat} : past x 0 := by
  unfold past tcmp; split <;> split <;> split <;> omega

theorem tcmp_pos {x m : Nat} (hm : m ≠ 0) : tcmp x m > 0 ↔ ¬Come x m := by
  rw [← past_iff hm, past]; omega

theorem keyState_spec (k : Key) {m : Nat} (hm : m ≠ 0) :
    keyState k m = if Come k.t.remove m then .removed
      else if Come k.t.revoke m then .revoked
      else if Come k.t.postActive m then (if Come k.t.retire m then .invalid else .postActive)
      else if Come k.t.retire m then .retired
      else if Come k.t.retireActive m then .retireActive
      else if Come k.t.active m then .active
      else if Come k.t.ready m then .ready
      else if Come k.t.publish m then .published
      else if Come k.t.preActive m then .preActive
      else .invalid := by
  unfold keyState; simp only [hm, if_false, past_iff hm]

/-! What the state says about the timers -/

theorem state_removed {k : Key} {m : Nat} (hm : m ≠ 0) : keyState k m = .removed ↔ Come k.t.remove m := by
  rw [keyState_spec k hm]; grind

theorem state_preActive {k : Key} {m : Nat} (hm : m ≠ 0) (h : keyState k m = .preActive) :
    Come k.t.preActive m ∧ ¬Come k.t.publish m ∧ ¬Come k.t.ready m ∧ ¬Come k.t.active m ∧ ¬Come k.t.retireActive m ∧
    ¬Come k.t.retire m ∧ ¬Come k.t.postActive m ∧ ¬Come k.t.remove m := by
  rw [keyState_spec k hm] at h; grind

theorem state_published {k : Key} {m : Nat} (hm : m ≠ 0) (h : keyState k m = .published) :
    Come k.t.publish m ∧ ¬Come k.t.ready m ∧ ¬Come k.t.active m ∧ ¬Come k.t.retireActive m ∧
    ¬Come k.t.retire m ∧ ¬Come k.t.postActive m ∧ ¬Come k.t.remove m := by
  rw [keyState_spec k hm] at h; grind

theorem state_ready {k : Key} {m : Nat} (hm : m ≠ 0) (h : keyState k m = .ready) :
    Come k.t.ready m ∧ ¬Come k.t.active m ∧ ¬Come k.t.retireActive m ∧
    ¬Come k.t.retire m ∧ ¬Come k.t.postActive m ∧ ¬Come k.t.remove m := by
  rw [keyState_spec k hm] at h; grind

theorem state_active {k : Key} {m : Nat} (hm : m ≠ 0) (h : keyState k m = .active) :
    Come k.t.active m ∧ ¬Come k.t.retireActive m ∧ ¬Come k.t.retire m ∧ ¬Come k.t.postActive m ∧ ¬Come k.t.remove m := by
  rw [keyState_spec k hm] at h; grind

theorem state_retireActive {k : Key} {m : Nat} (hm : m ≠ 0) (h : keyState k m = .retireActive) :
    Come k.t.retireActive m ∧ ¬Come k.t.retire m ∧ ¬Come k.t.postActive m ∧ ¬Come k.t.remove m := by
  rw [keyState_spec k hm] at h; grind

theorem state_retired {k : Key} {m : Nat} (hm : m ≠ 0) (h : keyState k m = .retired) :
    Come k.t.retire m ∧ ¬Come k.t.postActive m ∧ ¬Come k.t.remove m := by
  rw [keyState_spec k hm] at h; grind

theorem state_postActive {k : Key} {m : Nat} (hm : m ≠ 0) (h : keyState k m = .postActive) :
    Come k.t.postActive m ∧ ¬Come k.t.retire m ∧ ¬Come k.t.remove m := by
  rw [keyState_spec k hm] at h; grind

/-! ## One step of a key -/

variable {p : Policy} {now : Nat}

theorem kept_refl (x : Nat) : Kept now x x := .inl rfl

theorem evolved_refl (k : Key) : Evolved p now k k :=
  ⟨⟨rfl, rfl, rfl, rfl, rfl, rfl⟩, kept_refl _, .inl (kept_refl _), .inl (kept_refl _), .inl (kept_refl _), .inl (kept_refl _),
    .inl (kept_refl _), .inl (kept_refl _), .inl (kept_refl _)⟩

theorem come_kept {old new : Nat} {P : Prop} (h : Kept now old new ∨ SetNow now old new ∧ P) (c : Come old now) : new = old := by
  unfold Kept SetNow Come at *; grind

theorem come_kept' {old new : Nat} (h : Kept now old new) (c : Come old now) : new = old := by
  unfold Kept Come at *; grind

theorem waited_come {x d : Nat} (h : Waited now x d) : Come x now := by unfold Waited Come at *; omega

theorem kept_trans {a b c : Nat} (h1 : Kept now a b) (h2 : Kept now b c) : Kept now a c := by unfold Kept at *; omega

theorem kept_set {a b c : Nat} (h1 : Kept now a b) (h2 : SetNow now b c) : SetNow now a c := by
  unfold Kept SetNow Come at *; grind

theorem set_kept {a b c : Nat} (h1 : SetNow now a b) (h2 : Kept now b c) : SetNow now a c := by
  unfold Kept SetNow Come at *; grind

theorem set_set {a b c : Nat} (hn : now ≠ 0) (h1 : SetNow now a b) (h2 : SetNow now b c) : False := by
  unfold SetNow Come at *; grind

theorem field_trans {a b c : Nat} {P Q : Prop} (hn : now ≠ 0) (h1 : Kept now a b ∨ SetNow now a b ∧ P)
    (h2 : Kept now b c ∨ SetNow now b c ∧ Q) (hPQ : P → Q) : Kept now a c ∨ SetNow now a c ∧ Q := by
  rcases h1 with h1 | ⟨h1, hp⟩ <;> rcases h2 with h2 | ⟨h2, hq⟩
  · exact .inl (kept_trans h1 h2)
  · exact .inr ⟨kept_set h1 h2, hq⟩
  · exact .inr ⟨set_kept h1 h2, hPQ hp⟩
  · exact (set_set hn h1 h2).elim

theorem evolved_trans {k1 k2 k3 : Key} (hn : now ≠ 0) (h1 : Evolved p now k1 k2) (h2 : Evolved p now k2 k3) :
    Evolved p now k1 k3 := by
  have e := h1.same
  refine ⟨by have := h2.same; grind, kept_trans h1.preActive h2.preActive, ?_, ?_, ?_, ?_, ?_, ?_, ?_⟩
  · refine field_trans hn h1.publish h2.publish fun h => ?_
    rw [come_kept' h2.preActive (waited_come h)]; exact h
  · rw [← e.1]
    refine field_trans hn h1.ready h2.ready fun h => ?_
    rw [come_kept h2.publish (waited_come h.2)]; grind
  · rw [← e.1]
    refine field_trans hn h1.active h2.active fun h => ?_
    rcases h with ⟨a, b⟩ | ⟨a, b⟩
    · rw [come_kept h2.ready b]; grind
    · rw [come_kept h2.publish (waited_come b)]; grind
  · refine field_trans hn h1.retireActive h2.retireActive fun h => ?_
    rw [come_kept h2.active h]; exact h
  · refine field_trans hn h1.retire h2.retire fun h => ?_
    rcases h with h | h
    · rw [come_kept h2.active h]; exact .inl h
    · rw [come_kept h2.retireActive h]; exact .inr h
  · refine field_trans hn h1.postActive h2.postActive fun h => ?_
    rcases h with h | h
    · rw [come_kept h2.active h]; exact .inl h
    · rw [come_kept h2.retireActive h]; exact .inr h
  · rw [← e.1, ← e.2.1]
    refine field_trans hn h1.remove h2.remove fun h => ?_
    rcases h with ⟨a, b, c, d⟩ | h | ⟨a, h⟩ | ⟨a, h⟩
    · refine .inl ⟨by grind, by grind, ?_, ?_⟩
      · rw [come_kept h2.active c]; exact c
      · rw [come_kept h2.retireActive d]; exact d
    · refine .inr (.inl ?_); rw [come_kept h2.postActive (waited_come h)]; exact h
    · refine .inr (.inr (.inl ⟨by grind, ?_⟩)); rw [come_kept h2.retire (waited_come h)]; exact h
    · refine .inr (.inr (.inr ⟨by grind, ?_⟩)); rw [come_kept h2.retire (waited_come h), e.2.1]; exact h

theorem kept_clear (x : Nat) : Kept now x (clearTimer x now) := by unfold Kept clearTimer; split <;> omega

theorem evolved_clear (k : Key) : Evolved p now k (clearFuture now k) := by
  unfold clearFuture; dsimp only
  split
  · exact ⟨⟨rfl, rfl, rfl, rfl, rfl, rfl⟩, kept_clear _, .inl (kept_clear _), .inl (kept_clear _), .inl (kept_clear _),
      .inl (kept_clear _), .inl (kept_clear _), .inl (kept_refl _), .inl (kept_clear _)⟩
  · exact ⟨⟨rfl, rfl, rfl, rfl, rfl, rfl⟩, kept_clear _, .inl (kept_clear _), .inl (kept_clear _), .inl (kept_clear _),
      .inl (kept_clear _), .inl (kept_refl _), .inl (kept_refl _), .inl (kept_refl _)⟩

end Knot.Keyroll
