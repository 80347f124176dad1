import Verif.Keyroll.Lemmas4
/-!
# Lemmas: the step chosen and the reasons to make keys
-/
namespace Knot.Keyroll
open Spec

variable {p : Policy} {now : Nat}

theorem skipped_iff (f : Flags) (k : Key) : skipped f k = false ↔ Permitted f k := by
  unfold skipped Permitted
  cases k.pubOnly <;> cases k.ksk <;> cases k.zsk <;> cases f.allowKsk <;> cases f.allowZsk <;> simp

/-- The result of next_action() with everything about the key. -/
def Picked (p : Policy) (f : Flags) (now : Nat) (keys : List Key) (n : Next) : Prop :=
  n.time = 0 ∨ ∃ k, keys[n.idx]? = some k ∧ n.ksk = k.ksk ∧ skipped f k = false ∧
    actionOf p now (running keys now) k = some (n.time, n.act)

theorem nextLoop_picked (hn : now ≠ 0) (f : Flags) : ∀ (n i : Nat) (keys : List Key) (res : Next),
    Picked p f now keys res → (res.time = 0 ∨ res.idx < i) →
    Picked p f now (nextLoop p f now n i keys res).1 (nextLoop p f now n i keys res).2
  | 0, i, keys, res, h, _ => by simpa only [nextLoop] using h
  | n + 1, i, keys, res, h, hi => by
    simp only [nextLoop]
    cases hk : keys[i]? with
    | none => exact h
    | some k =>
      dsimp only
      split
      · exact nextLoop_picked hn f n (i + 1) keys res h (by omega)
      · next hs =>
        have hsk : skipped f (if f.preserve = true then k else clearFuture now k) = skipped f k := by
          split
          · rfl
          · unfold clearFuture skipped; dsimp only; split <;> rfl
        have hro : rolling (if f.preserve = true then k else clearFuture now k) now = rolling k now := by
          split
          · rfl
          · exact rolling_clear hn k
        generalize (if f.preserve = true then k else clearFuture now k) = k' at hro hsk ⊢
        have hrun := running_set hk hro
        have hlt : i < keys.length := by
          rcases Nat.lt_or_ge i keys.length with h | h
          · exact h
          · rw [List.getElem?_eq_none h] at hk; cases hk
        have hget : (keys.set i k')[i]? = some k' := by simp [hlt]
        have hch : Picked p f now (keys.set i k') res := by
          rcases h with h | ⟨k2, h2, h3, h4, h5⟩
          · exact .inl h
          · rcases hi with hi | hi
            · exact .inl hi
            · exact .inr ⟨k2, by rw [List.getElem?_set_ne (by omega)]; exact h2, h3, h4, by rw [hrun]; exact h5⟩
        split
        · exact nextLoop_picked hn f n (i + 1) (keys.set i k') res hch (by omega)
        · next t a hta =>
          have hc2 : Picked p f now (keys.set i k') (if tcmp t res.time < 0 then ⟨t, a, i, k'.ksk⟩ else res) := by
            split
            · refine .inr ⟨k', hget, rfl, ?_, hta⟩
              rw [hsk]; simpa using hs
            · exact hch
          exact nextLoop_picked hn f n (i + 1) (keys.set i k') _ hc2 (by split; exact .inr (Nat.lt_succ_self i); omega)

theorem life_come {x life : Nat} (h : Come (lifeTime x life) now) : life ≠ 0 ∧ Waited now x life := by
  unfold lifeTime tplus Come Waited at *
  split at h
  · omega
  · rw [if_pos (by omega)] at h; omega

theorem action_due (hn : now ≠ 0) {run : Bool} {busy : Prop} (hb : run = true ↔ busy) {k : Key} {t : Nat} {a : Act}
    (h : actionOf p now run k = some (t, a)) (hc : Come t now) : Due p now busy k ∧ a = stepOf k.ksk (keyState k now) := by
  unfold actionOf at h
  unfold Due
  have hz : ∀ {x : Nat} {b : Act}, some (0, Act.invalid) = some (x, b) → x = 0 := by rintro x b ⟨⟩; rfl
  have hb' : run = false → ¬busy := fun h hh => by rw [hb.mpr hh] at h; cases h
  cases hs : keyState k now <;> cases hk : k.ksk <;>
    simp only [kskAction, zskAction, hs, hk, Bool.false_eq_true, if_false, if_true, Option.some.injEq, Prod.mk.injEq,
      reduceCtorEq] at h ⊢ <;> try exact h.elim
  case preActive.false => rw [← h.1] at hc; exact ⟨afterMaxTtl_come hc, h.2.symm⟩
  case preActive.true => rw [← h.1] at hc; exact ⟨afterMaxTtl_come hc, h.2.symm⟩
  case published.false => rw [← h.1] at hc; exact ⟨afterKeyTtl_come hc, h.2.symm⟩
  case published.true => rw [← h.1] at hc; exact ⟨afterKeyTtl_come hc, h.2.symm⟩
  case ready.true =>
    rw [← h.1] at hc
    have := life_come hc
    exact ⟨⟨trivial, this.1, this.2⟩, h.2.symm⟩
  case active.false =>
    split at h
    · next hr =>
      simp only [Bool.and_eq_true, Bool.not_eq_true', beq_iff_eq] at hr
      simp only [Option.some.injEq, Prod.mk.injEq] at h
      rw [← h.1] at hc
      have := life_come hc
      exact ⟨⟨hb' hr.1, hr.2, .inr ⟨trivial, this.1, this.2⟩⟩, h.2.symm⟩
    · rw [hz h] at hc; exact absurd rfl hc.1
  case active.true =>
    split at h
    · next hr =>
      simp only [Bool.and_eq_true, Bool.not_eq_true', beq_iff_eq] at hr
      simp only [Option.some.injEq, Prod.mk.injEq] at h
      rw [← h.1] at hc
      have := life_come hc
      exact ⟨⟨hb' hr.1, hr.2, .inl ⟨trivial, this.1, this.2⟩⟩, h.2.symm⟩
    · rw [hz h] at hc; exact absurd rfl hc.1
  case retireActive.false => rw [← h.1] at hc; exact absurd rfl hc.1
  case retireActive.true =>
    split at h
    · next hr =>
      simp only [Option.some.injEq, Prod.mk.injEq] at h
      rw [← h.1] at hc
      exact ⟨⟨trivial, hr.1, hr.2.1, hr.2.2, afterKeyTtl_come hc⟩, h.2.symm⟩
    · rw [hz h] at hc; exact absurd rfl hc.1
  case retired.false =>
    rw [← h.1] at hc
    have st := state_retired hn hs
    rw [tmin_retired st.1 st.2.2] at hc
    exact ⟨.inr ⟨trivial, afterMaxTtl_come hc⟩, h.2.symm⟩
  case retired.true =>
    rw [← h.1] at hc
    have st := state_retired hn hs
    rw [tmin_retired st.1 st.2.2] at hc
    exact ⟨.inl ⟨trivial, kskRemoveTime_come hc⟩, h.2.symm⟩
  case postActive.false => rw [← h.1] at hc; exact ⟨afterKeyTtl_come hc, h.2.symm⟩
  case postActive.true => rw [← h.1] at hc; exact ⟨afterKeyTtl_come hc, h.2.symm⟩
  case removed.false => rw [← h.1] at hc; exact ⟨reallyTime_come hc, h.2.symm⟩
  case removed.true => rw [← h.1] at hc; exact ⟨reallyTime_come hc, h.2.symm⟩

theorem chosen_due (hn : now ≠ 0) (f : Flags) (l : List Key) (h : past (nextAction p f now l).2.time now) :
    ∃ k, (nextAction p f now l).1[(nextAction p f now l).2.idx]? = some k ∧ (nextAction p f now l).2.ksk = k.ksk ∧
      Permitted f k ∧ Due p now (Busy (nextAction p f now l).1 now) k ∧
      (nextAction p f now l).2.act = stepOf k.ksk (keyState k now) := by
  have hp := nextLoop_picked (p := p) hn f l.length 0 l {} (.inl rfl) (.inl rfl)
  rw [past_iff hn] at h
  rcases hp with h0 | ⟨k, h1, h2, h3, h4⟩
  · exact absurd h0 h.1
  · obtain ⟨h5, h6⟩ := action_due hn (running_iff _ now) h4 h
    exact ⟨k, h1, h2, (skipped_iff f k).1 h3, h5, h6⟩

/-! ## Reasons -/

theorem keyPresent_iff (hn : now ≠ 0) (l : List Key) (ksk zsk : Bool) : keyPresent l now ksk zsk = true ↔ Has l now ksk zsk := by
  unfold keyPresent Has
  simp only [List.any_eq_true, Bool.and_eq_true, beq_iff_eq, Bool.not_eq_true', bne_iff_ne, ne_eq, state_removed hn, and_assoc]

theorem keyPresent_false (hn : now ≠ 0) (l : List Key) (ksk zsk : Bool) : keyPresent l now ksk zsk = false ↔ ¬Has l now ksk zsk := by
  rw [← keyPresent_iff hn]; simp

theorem come_tmin {a b : Nat} : Come (tmin a b) now ↔ Come a now ∨ Come b now := by
  unfold Come tmin; split
  · split <;> omega
  · omega

theorem algorithmPresent_iff (hn : now ≠ 0) (l : List Key) (a : Nat) : algorithmPresent l now a = 0 ↔ ¬Uses l now a := by
  unfold algorithmPresent Uses
  rw [List.countP_eq_zero]
  simp only [past_iff hn, come_tmin, Bool.and_eq_true, decide_eq_true_eq, bne_iff_ne, ne_eq, state_removed hn, beq_iff_eq,
    Bool.not_eq_true', not_exists, not_and]
  grind

theorem schemePresent_iff (hn : now ≠ 0) (l : List Key) : schemePresent p l now = true ↔ OfScheme p l now := by
  unfold schemePresent OfScheme
  split
  · simp only [Bool.or_eq_true, Bool.not_eq_true', keyPresent_false hn, keyPresent_iff hn]
    grind
  · simp only [Bool.and_eq_true, keyPresent_iff hn]

theorem running_false (l : List Key) : running l now = false ↔ ¬Busy l now := by
  rw [← running_iff]; simp

/-- A stage appends or does nothing. -/
def Appends (l r : List Key) : Prop := ∃ new, r = l ++ new

theorem appends_refl (l : List Key) : Appends l l := ⟨[], by simp⟩

theorem appends_trans {a b c : List Key} (h1 : Appends a b) (h2 : Appends b c) : Appends a c := by
  obtain ⟨x, rfl⟩ := h1; obtain ⟨y, rfl⟩ := h2; exact ⟨x ++ y, by simp⟩

theorem appends_gen (q : Policy) (l : List Key) (ksk zsk : Bool) (w : Nat) (pre : Bool) :
    Appends l (generateKey q now l ksk zsk w pre) := ⟨_, rfl⟩

theorem gen_ne {l l' : List Key} (h : Appends l l') (q : Policy) (ksk zsk : Bool) (w : Nat) (pre : Bool) :
    generateKey q now l' ksk zsk w pre ≠ l := by
  obtain ⟨x, rfl⟩ := h
  intro e
  have := congrArg List.length e
  simp [generateKey] at this

theorem append_ne {l l' : List Key} (h : Appends l l') {m : List Key} (hm : Appends m l) (hne : l ≠ m) : l' ≠ m := by
  obtain ⟨x, rfl⟩ := h; obtain ⟨y, rfl⟩ := hm
  intro e
  have := congrArg List.length e
  simp only [List.length_append] at this
  apply hne
  have : y = [] := by apply List.eq_nil_of_length_eq_zero; omega
  simp [this]

/-- Both stages of two: the first that changes something sees the list itself. -/
theorem stage_ne {g h : List Key → List Key} (hg : ∀ l, Appends l (g l)) (hh : ∀ l, Appends l (h l)) (l : List Key) :
    h (g l) ≠ l ↔ g l ≠ l ∨ h l ≠ l := by
  by_cases e : g l = l
  · rw [e]; simp
  · constructor
    · intro _; exact .inl e
    · intro _; exact append_ne (hh _) (hg _) e

theorem initial_ne (hn : now ≠ 0) (f : Flags) (l : List Key) : initialKeys p f now l ≠ l ↔
    (f.allowKsk = true ∧ ¬Has l now true false ∧ ¬Has l now true true) ∨
    (f.allowKsk = false ∧ f.allowZsk = true ∧ p.sts = false ∧ ¬Has l now false true ∧ ¬Has l now true true) := by
  unfold initialKeys
  simp only [← keyPresent_false hn]
  cases h1 : f.allowKsk with
  | true =>
    simp only [Bool.not_true, Bool.false_and, Bool.or_false, if_true]
    have hne : ∀ b : Bool, (if b = true then generateZsk p now (generateKsk p now l now false) now false
        else generateKsk p now l now false) ≠ l := by
      intro b
      cases b with
      | true => exact gen_ne (appends_gen _ _ _ _ _ _) _ _ _ _ _
      | false => exact gen_ne (appends_refl l) _ _ _ _ _
    split
    · next hc =>
      simp only [Bool.and_eq_true, Bool.not_eq_true'] at hc
      exact ⟨fun _ => .inl ⟨trivial, hc⟩, fun _ => hne _⟩
    · next hc =>
      simp only [Bool.and_eq_true, Bool.not_eq_true'] at hc
      constructor
      · intro h; exact absurd rfl h
      · rintro (⟨_, h⟩ | ⟨h, _⟩)
        · exact absurd h hc
        · cases h
  | false =>
    simp only [Bool.not_false, Bool.true_and, Bool.false_eq_true, if_false, false_and, false_or, true_and]
    cases h2 : f.allowZsk with
    | false =>
      simp
    | true =>
      simp only [Bool.true_and, true_and]
      cases h3 : p.sts with
      | true => simp
      | false =>
        simp only [Bool.not_false, Bool.true_and, true_and]
        have hne : generateZsk p now l now false ≠ l := gen_ne (appends_refl l) _ _ _ _ _
        cases h4 : keyPresent l now false true <;> cases h5 : keyPresent l now true true <;>
          cases h6 : keyPresent l now true false <;> simp [hne]

theorem forcedKsk_ne (f : Flags) (l : List Key) : forcedKsk p f now l ≠ l ↔
    f.forceKsk = true ∧ f.allowKsk = true ∧ ¬Busy l now := by
  unfold forcedKsk
  rw [← running_false]
  have hne : generateKsk p now l 0 false ≠ l := gen_ne (appends_refl l) _ _ _ _ _
  cases f.forceKsk <;> cases f.allowKsk <;> cases running l now <;> simp [hne]

theorem forcedZsk_ne (f : Flags) (l : List Key) : forcedZsk p f now l ≠ l ↔
    f.forceZsk = true ∧ f.allowZsk = true ∧ ¬Busy l now := by
  unfold forcedZsk
  rw [← running_false]
  have hne : generateZsk p now l 0 false ≠ l := gen_ne (appends_refl l) _ _ _ _ _
  cases f.forceZsk <;> cases f.allowZsk <;> cases running l now <;> simp [hne]

theorem two_ne (l : List Key) (pre b : Bool) : (if b = true then generateKsk p now l 0 pre
    else generateZsk p now (generateKsk p now l 0 pre) 0 pre) ≠ l := by
  cases b with
  | true => exact gen_ne (appends_refl l) _ _ _ _ _
  | false => exact gen_ne (appends_gen _ _ _ _ _ _) _ _ _ _ _

theorem algorithm_ne (hn : now ≠ 0) (f : Flags) (l : List Key) : algorithmRoll p f now l ≠ l ↔
    f.allowKsk = true ∧ f.allowZsk = true ∧ ¬Busy l now ∧ ¬Uses l now p.alg := by
  unfold algorithmRoll
  rw [← running_false, ← algorithmPresent_iff hn]
  split
  · next h => exact ⟨fun _ => ⟨h.2.2.1, h.2.2.2, h.2.1, h.1⟩, fun _ => two_ne _ _ _⟩
  · next h =>
    constructor
    · intro h'; exact absurd rfl h'
    · intro h'; exact absurd ⟨h'.2.2.2, h'.2.2.1, h'.1, h'.2.1⟩ h

theorem scheme_ne (hn : now ≠ 0) (f : Flags) (l : List Key) : schemeRoll p f now l ≠ l ↔
    f.allowKsk = true ∧ f.allowZsk = true ∧ ¬Busy l now ∧ ¬OfScheme p l now := by
  unfold schemeRoll
  rw [← running_false, ← schemePresent_iff hn, Bool.not_eq_true]
  split
  · next h => exact ⟨fun _ => ⟨h.2.1, h.2.2.1, h.2.2.2, h.1⟩, fun _ => two_ne _ _ _⟩
  · next h =>
    constructor
    · intro h'; exact absurd rfl h'
    · intro h'; exact absurd ⟨h'.2.2.2, h'.1, h'.2.1, h'.2.2.1⟩ h

theorem appends_ite {l a b : List Key} (c : Prop) [Decidable c] (h1 : Appends l a) (h2 : Appends l b) :
    Appends l (if c then a else b) := by split <;> assumption

theorem appends_initial (f : Flags) (l : List Key) : Appends l (initialKeys p f now l) := by
  unfold initialKeys
  refine appends_ite _ ?_ (appends_refl _)
  dsimp only
  have h : Appends l (if f.allowKsk = true then generateKsk p now l now false else l) :=
    appends_ite _ (appends_gen ..) (appends_refl _)
  exact appends_ite _ (appends_trans h (appends_gen ..)) h

theorem appends_two (l : List Key) (pre b : Bool) : Appends l (if b = true then generateKsk p now l 0 pre
    else generateZsk p now (generateKsk p now l 0 pre) 0 pre) :=
  appends_ite _ (appends_gen ..) (appends_trans (appends_gen ..) (appends_gen ..))

theorem generating_ne (hn : now ≠ 0) (f : Flags) (l : List Key) : generating p f now l ≠ l ↔ Reason p f now l := by
  have a1 := fun l => appends_initial (p := p) (now := now) f l
  have a2 : ∀ l, Appends l (forcedKsk p f now l) := fun l => by
    unfold forcedKsk; exact appends_ite _ (appends_gen ..) (appends_refl _)
  have a3 : ∀ l, Appends l (forcedZsk p f now l) := fun l => by
    unfold forcedZsk; exact appends_ite _ (appends_gen ..) (appends_refl _)
  have a4 : ∀ l, Appends l (algorithmRoll p f now l) := fun l => by
    unfold algorithmRoll; exact appends_ite _ (appends_two ..) (appends_refl _)
  have a5 : ∀ l, Appends l (schemeRoll p f now l) := fun l => by
    unfold schemeRoll; exact appends_ite _ (appends_two ..) (appends_refl _)
  have b2 : ∀ l, Appends l (forcedKsk p f now (initialKeys p f now l)) := fun l => appends_trans (a1 l) (a2 _)
  have b3 : ∀ l, Appends l (forcedZsk p f now (forcedKsk p f now (initialKeys p f now l))) :=
    fun l => appends_trans (b2 l) (a3 _)
  have b4 : ∀ l, Appends l (algorithmRoll p f now (forcedZsk p f now (forcedKsk p f now (initialKeys p f now l)))) :=
    fun l => appends_trans (b3 l) (a4 _)
  unfold generating
  rw [stage_ne (g := fun l => algorithmRoll p f now (forcedZsk p f now (forcedKsk p f now (initialKeys p f now l)))) b4 a5,
    stage_ne (g := fun l => forcedZsk p f now (forcedKsk p f now (initialKeys p f now l))) b3 a4,
    stage_ne (g := fun l => forcedKsk p f now (initialKeys p f now l)) b2 a3,
    stage_ne (g := fun l => initialKeys p f now l) a1 a2,
    initial_ne hn, forcedKsk_ne, forcedZsk_ne, algorithm_ne hn, scheme_ne hn]
  constructor
  · rintro (((((⟨h1, h2, h3⟩ | ⟨h1, h2, h3, h4, h5⟩) | ⟨h1, h2, h3⟩) | ⟨h1, h2, h3⟩) | ⟨h1, h2, h3, h4⟩) | ⟨h1, h2, h3, h4⟩)
    · exact .first h1 h2 h3
    · exact .firstZsk h1 h2 h3 h4 h5
    · exact .forcedKsk h1 h2 h3
    · exact .forcedZsk h1 h2 h3
    · exact .algorithm h1 h2 h3 h4
    · exact .scheme h1 h2 h3 h4
  · intro h
    cases h with
    | first h1 h2 h3 => exact .inl (.inl (.inl (.inl (.inl ⟨h1, h2, h3⟩))))
    | firstZsk h1 h2 h3 h4 h5 => exact .inl (.inl (.inl (.inl (.inr ⟨h1, h2, h3, h4, h5⟩))))
    | forcedKsk h1 h2 h3 => exact .inl (.inl (.inl (.inr ⟨h1, h2, h3⟩)))
    | forcedZsk h1 h2 h3 => exact .inl (.inl (.inr ⟨h1, h2, h3⟩))
    | algorithm h1 h2 h3 h4 => exact .inl (.inr ⟨h1, h2, h3, h4⟩)
    | scheme h1 h2 h3 h4 => exact .inr ⟨h1, h2, h3, h4⟩

theorem nextLoop_preserve (f : Flags) (hp : f.preserve = true) : ∀ (n i : Nat) (keys : List Key) (res : Next),
    (nextLoop p f now n i keys res).1 = keys
  | 0, i, keys, res => by simp only [nextLoop]
  | n + 1, i, keys, res => by
    simp only [nextLoop, hp, if_true]
    cases hk : keys[i]? with
    | none => rfl
    | some k =>
      have hs : keys.set i k = keys := by
        apply List.ext_getElem?
        intro j
        by_cases h : i = j
        · subst h
          have : i < keys.length := by
            rcases Nat.lt_or_ge i keys.length with h | h
            · exact h
            · rw [List.getElem?_eq_none h] at hk; cases hk
          simp [this] at hk ⊢
          exact hk.symm
        · rw [List.getElem?_set_ne h]
      dsimp only
      rw [hs]
      split
      · exact nextLoop_preserve f hp n (i + 1) keys res
      · split
        · exact nextLoop_preserve f hp n (i + 1) keys res
        · exact nextLoop_preserve f hp n (i + 1) keys _

theorem rollover_changes (hn : now ≠ 0) (f : Flags) (hp : f.preserve = true) (fuel : Nat) (l r : List Key)
    (h : rollover p now fuel f l = .ok (some r)) (hne : r ≠ l) :
    Reason p f now l ∨ ∃ k ∈ l, Permitted f k ∧ Due p now (Busy l now) k := by
  cases fuel with
  | zero => simp [rollover] at h
  | succ n =>
    rw [rollover] at h
    split at h
    · cases h; exact absurd rfl hne
    · by_cases hg : generating p f now l = l
      · right
        rw [hg] at h
        have he : (nextAction p f now l).1 = l := nextLoop_preserve f hp _ _ _ _
        by_cases ht : past (nextAction p f now l).2.time now
        · obtain ⟨k, h1, _, h3, h4, _⟩ := chosen_due hn f l ht
          rw [he] at h1 h4
          exact ⟨k, List.mem_of_getElem? h1, h3, h4⟩
        · dsimp only at h
          rw [if_neg ht, he] at h
          cases h; exact absurd rfl hne
      · exact .inl ((generating_ne hn f l).1 hg)

end Knot.Keyroll
