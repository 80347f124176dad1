import Verif.Keyroll.Lemmas2
/-!
# Lemmas: with one algorithm and one scheme the set of keys stays complete
-/
namespace Knot.Keyroll
open Spec

/-- Not replaced by another key. -/
def Current (k : Key) : Prop := k.t.retireActive = 0 ∧ k.t.retire = 0 ∧ k.t.remove = 0

/-- What holds of every key when the algorithm and the scheme do not change. -/
structure Sound (a : Nat) (s : Bool) (now : Nat) (k : Key) : Prop where
  pub : k.pubOnly = false
  alg : k.alg = a
  role : if k.ksk then k.zsk = s else k.zsk = true
  publish : Come k.t.publish now
  revoke : k.t.revoke = 0
  pre : k.t.preActive = 0
  post : k.t.postActive = 0
  ready : k.t.ready ≤ now
  active : k.t.active ≤ now
  retireActive : k.t.retireActive ≤ now
  life : Current k ∨ k.t.active ≠ 0 ∧
    (k.t.retireActive ≠ 0 ∧ (k.t.retire ≠ 0 ∨ k.t.remove ≠ 0) ∨ k.t.retireActive = 0 ∧ Come k.t.retire now ∧ k.t.remove ≤ now)

/-- The keys of a zone. -/
structure Inv (a : Nat) (s : Bool) (now : Nat) (l : List Key) : Prop where
  all : ∀ k ∈ l, Sound a s now k
  ksk : ∃ k ∈ l, Current k ∧ k.ksk = true
  zsk : ∃ k ∈ l, Current k ∧ k.zsk = true ∧ (k.t.active ≠ 0 ∨ k.ksk = true ∧ k.t.ready ≠ 0)

variable {p : Policy} {a : Nat} {s : Bool} {now : Nat}

theorem sound_mono {m : Nat} {k : Key} (h : Sound a s now k) (hm : now ≤ m) : Sound a s m k := by
  obtain ⟨h1, h2, h3, h4, h5, h6, h7, h8, h9, h10, h11⟩ := h
  unfold Come at *
  exact ⟨h1, h2, h3, by unfold Come; omega, h5, h6, h7, by omega, by omega, by omega, by unfold Come; grind⟩

theorem inv_mono {m : Nat} {l : List Key} (h : Inv a s now l) (hm : now ≤ m) : Inv a s m l :=
  ⟨fun k hk => sound_mono (h.all k hk) hm, h.ksk, h.zsk⟩

theorem clear_id {k : Key} (h : Sound a s now k) : clearFuture now k = k := by
  obtain ⟨h1, h2, h3, h4, h5, h6, h7, h8, h9, h10, h11⟩ := h
  have c : ∀ x, x ≤ now → clearTimer x now = x := fun x hx => by unfold clearTimer; split <;> omega
  unfold Come Current at *
  unfold clearFuture
  dsimp only
  rw [c k.t.preActive (by omega), c _ h4.2, c _ h8, c _ h9, c _ h10]
  split
  · next hr =>
    have : k.t.retire ≤ now ∧ k.t.remove ≤ now := by omega
    rw [c _ this.1, c _ this.2]
  · rfl

theorem set_same {l : List Key} {i : Nat} {k : Key} (h : l[i]? = some k) : l.set i k = l := by
  apply List.ext_getElem?
  intro j
  by_cases hij : i = j
  · subst hij
    have : i < l.length := by
      rcases Nat.lt_or_ge i l.length with h' | h'
      · exact h'
      · rw [List.getElem?_eq_none h'] at h; cases h
    rw [List.getElem?_set_self this, h]
  · rw [List.getElem?_set_ne hij]

theorem nextLoop_id (f : Flags) : ∀ (n i : Nat) (keys : List Key) (res : Next), (∀ k ∈ keys, clearFuture now k = k) →
    (nextLoop p f now n i keys res).1 = keys
  | 0, _, _, _, _ => rfl
  | n + 1, i, keys, res, h => by
    simp only [nextLoop]
    cases hk : keys[i]? with
    | none => rfl
    | some k =>
      have : (if f.preserve = true then k else clearFuture now k) = k := by
        split
        · rfl
        · exact h k (List.mem_of_getElem? hk)
      dsimp only
      rw [this, set_same hk]
      split
      · exact nextLoop_id f n (i + 1) keys res h
      · split
        · exact nextLoop_id f n (i + 1) keys _ h
        · exact nextLoop_id f n (i + 1) keys _ h

theorem nextAction_id {l : List Key} (f : Flags) (h : Inv a s now l) : (nextAction p f now l).1 = l :=
  nextLoop_id f _ _ _ _ fun k hk => clear_id (h.all k hk)

/-! ## New keys -/

theorem inv_append {l : List Key} {k : Key} (h : Inv a s now l) (hk : Sound a s now k) : Inv a s now (l ++ [k]) := by
  obtain ⟨k1, m1, h1⟩ := h.ksk
  obtain ⟨k2, m2, h2⟩ := h.zsk
  refine ⟨?_, ⟨k1, by simp [m1], h1⟩, ⟨k2, by simp [m2], h2⟩⟩
  intro x hx
  rw [List.mem_append, List.mem_singleton] at hx
  rcases hx with hx | hx
  · exact h.all x hx
  · rw [hx]; exact hk

theorem sound_fresh (hn : now ≠ 0) (ksk zsk : Bool) (w : Nat) (hz : if ksk then zsk = p.sts else zsk = true) (hw : w ≤ now) :
    Sound p.alg p.sts now
      { t := { created := now, active := if ksk then 0 else w, ready := if ksk then w else 0,
               publish := if false then 0 else now, preActive := if false then now else 0 },
        ksk := ksk, zsk := zsk, pubOnly := false, alg := p.alg } := by
  refine ⟨rfl, rfl, hz, ⟨by simpa using hn, by simp⟩, rfl, by simp, rfl, ?_, ?_, by simp, .inl ⟨rfl, rfl, rfl⟩⟩
  · dsimp only; split <;> omega
  · dsimp only; split <;> omega

theorem inv_genKsk (hn : now ≠ 0) {l : List Key} {w : Nat} (hw : w ≤ now) (h : Inv p.alg p.sts now l) :
    Inv p.alg p.sts now (generateKsk p now l w false) :=
  inv_append h (sound_fresh hn true p.sts w (by simp) hw)

theorem inv_genZsk (hn : now ≠ 0) {l : List Key} {w : Nat} (hw : w ≤ now) (h : Inv p.alg p.sts now l) :
    Inv p.alg p.sts now (generateZsk p now l w false) :=
  inv_append h (sound_fresh hn false true w (by simp) hw)

theorem inv_initial (hn : now ≠ 0) (f : Flags) {l : List Key} (h : Inv p.alg p.sts now l) :
    Inv p.alg p.sts now (initialKeys p f now l) := by
  unfold initialKeys
  split
  · have h1 : Inv p.alg p.sts now (if f.allowKsk = true then generateKsk p now l now false else l) := by
      split
      · exact inv_genKsk hn (Nat.le_refl _) h
      · exact h
    revert h1
    generalize (if f.allowKsk = true then generateKsk p now l now false else l) = l1
    intro h1
    dsimp only; split
    · exact inv_genZsk hn (Nat.le_refl _) h1
    · exact h1
  · exact h

theorem inv_start (hn : now ≠ 0) (f : Flags) (hk : f.allowKsk = true) (hz : f.allowZsk = true) :
    Inv p.alg p.sts now (initialKeys p f now []) := by
  have s1 := sound_fresh (p := p) hn true p.sts now (by simp) (Nat.le_refl _)
  have s2 := sound_fresh (p := p) hn false true now (by simp) (Nat.le_refl _)
  have e : initialKeys p f now [] = if p.sts then generateKsk p now [] now false
      else generateZsk p now (generateKsk p now [] now false) now false := by
    unfold initialKeys
    cases hs : p.sts <;> simp [hk, hz, hs, keyPresent, generateKsk, generateKey]
  rw [e]
  cases hs : p.sts with
  | true =>
    simp only [hs] at s1
    rw [if_pos rfl]
    unfold generateKsk generateKey
    rw [hs]
    refine ⟨?_, ⟨_, List.mem_singleton.mpr rfl, ⟨rfl, rfl, rfl⟩, rfl⟩, ⟨_, List.mem_singleton.mpr rfl, ⟨rfl, rfl, rfl⟩, rfl, ?_⟩⟩
    · intro k hk
      simp only [List.nil_append, List.mem_singleton] at hk
      rw [hk]; exact s1
    · exact .inr ⟨rfl, by simpa using hn⟩
  | false =>
    simp only [hs] at s1 s2
    rw [if_neg (by simp)]
    unfold generateZsk generateKsk generateKey
    rw [hs]
    refine ⟨?_, ⟨_, List.mem_append_left _ (List.mem_singleton.mpr rfl), ⟨rfl, rfl, rfl⟩, rfl⟩,
      ⟨_, List.mem_append_right _ (List.mem_singleton.mpr rfl), ⟨rfl, rfl, rfl⟩, rfl, ?_⟩⟩
    · intro k hk
      simp only [List.nil_append, List.mem_append, List.mem_singleton] at hk
      rcases hk with hk | hk
      · rw [hk]; exact s1
      · rw [hk]; exact s2
    · exact .inl (by simpa using hn)

theorem inv_algorithm (hn : now ≠ 0) (f : Flags) {l : List Key} (h : Inv p.alg p.sts now l) :
    algorithmRoll p f now l = l := by
  unfold algorithmRoll
  rw [if_neg]
  intro hc
  have hz := hc.1
  unfold algorithmPresent at hz
  rw [List.countP_eq_zero] at hz
  obtain ⟨k, hk, hcur, hzsk, hact⟩ := h.zsk
  have hs := h.all k hk
  refine hz k hk ?_
  have hp : past (tmin (tmin k.t.preActive k.t.ready) k.t.active) now := by
    rw [past_iff hn, hs.pre]
    have := hs.ready; have := hs.active
    unfold tmin Come; grind
  have hst : keyState k now ≠ .removed := by
    rw [ne_eq, state_removed hn, hcur.2.2]; simp [Come]
  simp [hp, hst, hs.alg, hs.pub]

theorem inv_generating (hn : now ≠ 0) (f : Flags) {l : List Key} (h : Inv p.alg p.sts now (initialKeys p f now l)) :
    Inv p.alg p.sts now (generating p f now l) := by
  unfold generating
  generalize initialKeys p f now l = l1 at h
  have h2 : Inv p.alg p.sts now (forcedKsk p f now l1) := by
    unfold forcedKsk; split
    · exact inv_genKsk hn (Nat.zero_le _) h
    · exact h
  generalize forcedKsk p f now l1 = l2 at h2
  have h3 : Inv p.alg p.sts now (forcedZsk p f now l2) := by
    unfold forcedZsk; split
    · exact inv_genZsk hn (Nat.zero_le _) h2
    · exact h2
  generalize forcedZsk p f now l2 = l3 at h3
  rw [inv_algorithm hn f h3]
  unfold schemeRoll; split
  · dsimp only; split
    · exact inv_genKsk hn (Nat.zero_le _) h3
    · exact inv_genZsk hn (Nat.zero_le _) (inv_genKsk hn (Nat.zero_le _) h3)
  · exact h3

/-! ## The actions -/

theorem mem_setT {l : List Key} {i : Nat} {g : Timing → Timing} {k : Key} (h : k ∈ setT l i g) :
    k ∈ l ∨ ∃ x, l[i]? = some x ∧ k = { x with t := g x.t } := by
  obtain ⟨j, hj⟩ := List.getElem?_of_mem h
  rw [getElem?_setT] at hj
  cases hl : l[j]? with
  | none => rw [hl] at hj; cases hj
  | some x =>
    rw [hl, Option.map_some] at hj
    split at hj
    · next e => subst e; cases hj; exact .inr ⟨x, hl, rfl⟩
    · cases hj; exact .inl (List.mem_of_getElem? hl)

theorem mem_setT_self {l : List Key} {i : Nat} {g : Timing → Timing} {x : Key} (h : l[i]? = some x) :
    { x with t := g x.t } ∈ setT l i g := by
  have : (setT l i g)[i]? = some { x with t := g x.t } := by rw [getElem?_setT, h]; simp
  exact List.mem_of_getElem? this

theorem mem_setT_other {l : List Key} {i : Nat} {g : Timing → Timing} {x k : Key} (h : l[i]? = some x) (hk : k ∈ l) (hne : k ≠ x) :
    k ∈ setT l i g := by
  obtain ⟨j, hj⟩ := List.getElem?_of_mem hk
  have : (setT l i g)[j]? = some k := by
    rw [getElem?_setT, hj, Option.map_some, if_neg]
    intro e; subst e; rw [h] at hj; cases hj; exact hne rfl
  exact List.mem_of_getElem? this

/-- A step of one key that keeps it sound, and keeps it current or happens to a key that is not. -/
theorem inv_setT {l : List Key} {i : Nat} {g : Timing → Timing} {x : Key} (h : Inv a s now l) (hx : l[i]? = some x)
    (hs : Sound a s now { x with t := g x.t })
    (hc : Current x → Current { x with t := g x.t } ∧ (x.t.active ≠ 0 → (g x.t).active ≠ 0) ∧ (x.t.ready ≠ 0 → (g x.t).ready ≠ 0)) :
    Inv a s now (setT l i g) := by
  refine ⟨?_, ?_, ?_⟩
  · intro k hk
    rcases mem_setT hk with hk | ⟨y, hy, rfl⟩
    · exact h.all k hk
    · rw [hx] at hy; cases hy; exact hs
  · obtain ⟨k, hk, hcur, hb⟩ := h.ksk
    by_cases e : k = x
    · subst e; exact ⟨_, mem_setT_self hx, (hc hcur).1, hb⟩
    · exact ⟨k, mem_setT_other hx hk e, hcur, hb⟩
  · obtain ⟨k, hk, hcur, hb, ha⟩ := h.zsk
    by_cases e : k = x
    · subst e
      refine ⟨_, mem_setT_self hx, (hc hcur).1, hb, ?_⟩
      have := hc hcur
      rcases ha with ha | ha
      · exact .inl (this.2.1 ha)
      · exact .inr ⟨ha.1, this.2.2 ha.2⟩
    · exact ⟨k, mem_setT_other hx hk e, hcur, hb, ha⟩

theorem inv_submit (hn : now ≠ 0) {l : List Key} {i : Nat} {k : Key} (h : Inv a s now l) (hk : l[i]? = some k)
    (hs : keyState k now = .published) (hb : k.ksk = true) : ∃ r, submitKey now l i = .ok r ∧ Inv a s now r := by
  unfold submitKey
  rw [hk]; dsimp only
  rw [if_pos ⟨hs, hb⟩]
  refine ⟨_, rfl, ?_⟩
  have hnr : (k.ksk && !k.pubOnly && keyState k now == .ready) = false := by rw [hs]; simp
  have st := state_published hn hs
  have snd : Sound a s now k := h.all k (List.mem_of_getElem? hk)
  refine inv_setT (x := k) ?_ (by rw [List.getElem?_map, hk, Option.map_some, hnr]; rfl) ?_ ?_
  · refine ⟨?_, ?_, ?_⟩
    · intro x hx
      rw [List.mem_map] at hx
      obtain ⟨y, hy, rfl⟩ := hx
      have := h.all y hy
      split
      · next hc =>
        simp only [Bool.and_eq_true, beq_iff_eq] at hc
        have st := state_ready hn hc.2
        obtain ⟨h1, h2, h3, h4, h5, h6, h7, h8, h9, h10, h11⟩ := this
        refine ⟨h1, h2, h3, h4, h5, h6, h7, h8, Nat.le_refl _, h10, ?_⟩
        rcases h11 with h11 | h11
        · exact .inl h11
        · exact absurd ⟨h11.1, h9⟩ st.2.1
      · exact this
    · obtain ⟨y, hy, hcur, hb⟩ := h.ksk
      refine ⟨_, List.mem_map_of_mem hy, ?_, ?_⟩
      · split <;> exact hcur
      · split <;> exact hb
    · obtain ⟨y, hy, hcur, hb, ha⟩ := h.zsk
      refine ⟨_, List.mem_map_of_mem hy, ?_, ?_, ?_⟩
      · split <;> exact hcur
      · split <;> exact hb
      · split
        · exact .inl hn
        · exact ha
  · obtain ⟨h1, h2, h3, h4, h5, h6, h7, h8, h9, h10, h11⟩ := snd
    exact ⟨h1, h2, h3, h4, h5, h6, h7, Nat.le_refl _, h9, h10, h11⟩
  · exact fun hc => ⟨hc, fun h => h, fun _ => hn⟩

theorem inv_remove (hn : now ≠ 0) {l : List Key} {i : Nat} {k : Key} (h : Inv a s now l) (hk : l[i]? = some k)
    (hs : keyState k now = .retired) : ∃ r, removeOld now l i = .ok r ∧ Inv a s now r := by
  unfold removeOld
  rw [hk]; dsimp only
  rw [if_pos (.inl hs)]
  refine ⟨_, rfl, ?_⟩
  have st := state_retired hn hs
  have snd : Sound a s now k := h.all k (List.mem_of_getElem? hk)
  refine inv_setT (x := k) h hk ?_ ?_
  · obtain ⟨h1, h2, h3, h4, h5, h6, h7, h8, h9, h10, h11⟩ := snd
    refine ⟨h1, h2, h3, h4, h5, h6, h7, h8, h9, h10, ?_⟩
    unfold Current Come at *
    rcases h11 with h11 | h11
    · omega
    · refine .inr ⟨h11.1, ?_⟩; dsimp only; omega
  · intro hc; unfold Current Come at *; omega

theorem mem_erase {l : List Key} {i : Nat} {k x : Key} (hx : l[i]? = some x) (hk : k ∈ l) (hne : k ≠ x) : k ∈ l.eraseIdx i := by
  rw [List.mem_eraseIdx_iff_getElem?]
  obtain ⟨j, hj⟩ := List.getElem?_of_mem hk
  refine ⟨j, ?_, hj⟩
  intro e; subst e; rw [hx] at hj; cases hj; exact hne rfl

theorem inv_really (hn : now ≠ 0) {l : List Key} {i : Nat} {k : Key} (h : Inv a s now l) (hk : l[i]? = some k)
    (hs : keyState k now = .removed) (hd : p.keepDeleted = false) : ∃ r, reallyRemove p now l i = .ok r ∧ Inv a s now r := by
  unfold reallyRemove
  rw [hk]; dsimp only
  rw [if_pos ⟨hs, hd⟩]
  refine ⟨_, rfl, ?_⟩
  rw [state_removed hn] at hs
  refine ⟨fun x hx => h.all x (List.mem_of_mem_eraseIdx hx), ?_, ?_⟩
  · obtain ⟨y, hy, hcur, hb⟩ := h.ksk
    refine ⟨y, mem_erase hk hy ?_, hcur, hb⟩
    intro e; subst e; exact hs.1 hcur.2.2
  · obtain ⟨y, hy, hcur, hb⟩ := h.zsk
    refine ⟨y, mem_erase hk hy ?_, hcur, hb⟩
    intro e; subst e; exact hs.1 hcur.2.2

theorem sound_retireOld (hn : now ≠ 0) {k : Key} (d : Nat) (h : Sound a s now k) (hs : keyState k now = .active) :
    Sound a s now { k with t := retireOld now d false k k.t } := by
  have st := state_active hn hs
  obtain ⟨h1, h2, h3, h4, h5, h6, h7, h8, h9, h10, h11⟩ := h
  unfold retireOld Come Current at *
  simp only [Bool.false_eq_true, if_false]
  split
  · split
    · exact ⟨h1, h2, h3, h4, h5, h6, h7, h8, h9, Nat.le_refl _, .inr ⟨st.1.1, .inl ⟨hn, .inl (by simp; omega)⟩⟩⟩
    · exact ⟨h1, h2, h3, h4, h5, h6, h7, h8, h9, Nat.le_refl _, .inr ⟨st.1.1, .inl ⟨hn, .inr (by simp; omega)⟩⟩⟩
  · refine ⟨h1, h2, h3, h4, h5, h6, h7, h8, h9, h10, .inr ⟨st.1.1, ?_⟩⟩
    simp only [Come]
    omega

theorem sound_retireZsk (hn : now ≠ 0) {k : Key} (d : Nat) (h : Sound a s now k)
    (hs : keyState k now = .active ∨ keyState k now = .retireActive) : Sound a s now { k with t := retireZsk now d false k.t } := by
  have st : Come k.t.active now ∧ ¬Come k.t.remove now := by
    rcases hs with hs | hs
    · have := state_active hn hs; exact ⟨this.1, this.2.2.2.2⟩
    · have := state_retireActive hn hs
      have h9 := h.active; have h11 := h.life
      unfold Come Current at *
      omega
  obtain ⟨h1, h2, h3, h4, h5, h6, h7, h8, h9, h10, h11⟩ := h
  unfold retireZsk Come Current at *
  simp only [Bool.false_eq_true, if_false]
  refine ⟨h1, h2, h3, h4, h5, h6, h7, h8, h9, h10, .inr ⟨st.1.1, ?_⟩⟩
  simp only [Come]
  omega

theorem retireBoth_inv (hn : now ≠ 0) {l : List Key} {i : Nat} {new : Key} (d : Nat) (h : Inv a s now l) (hnew : l[i]? = some new)
    (hst : keyState new now = if new.ksk then .ready else .published) :
    (∀ k ∈ retireBoth now d l new, Sound a s now k) ∧ (retireBoth now d l new)[i]? = some new ∧
    (new.ksk = false → ∀ k ∈ l, k.ksk = true → k ∈ retireBoth now d l new) ∧
    (new.zsk = false → ∀ k ∈ l, k.zsk = true → k ∈ retireBoth now d l new) := by
  have hn1 : keyState new now ≠ .active ∧ keyState new now ≠ .retireActive := by rw [hst]; split <;> simp
  have triv : (∀ k ∈ l, Sound a s now k) ∧ l[i]? = some new ∧ (new.ksk = false → ∀ k ∈ l, k.ksk = true → k ∈ l) ∧
    (new.zsk = false → ∀ k ∈ l, k.zsk = true → k ∈ l) := ⟨h.all, hnew, fun _ _ h _ => h, fun _ _ h _ => h⟩
  have hsn := h.all new (List.mem_of_getElem? hnew)
  unfold retireBoth
  split
  · exact triv
  · next j hj =>
    obtain ⟨old, hold, hq⟩ := findIdx_some hj
    rw [hold]; dsimp only
    simp only [Bool.and_eq_true, Bool.or_eq_true, Bool.not_eq_true', beq_iff_eq] at hq
    have hso := h.all old (List.mem_of_getElem? hold)
    have hal : (old.alg != new.alg) = false := by rw [hso.alg, hsn.alg]; simp
    rw [hal]
    have hne : new ≠ old := fun e => hn1.1 (e ▸ hq.2)
    have b1 : ∀ k ∈ setT l j (retireOld now d false old), Sound a s now k := by
      intro k hk
      rcases mem_setT hk with hk | ⟨y, hy, rfl⟩
      · exact h.all k hk
      · rw [hold] at hy; cases hy; exact sound_retireOld hn d hso hq.2
    have b2 : (setT l j (retireOld now d false old))[i]? = some new := by
      rw [getElem?_setT, hnew, Option.map_some, if_neg]
      intro e; subst e; rw [hold] at hnew; cases hnew; exact hne rfl
    have b3 : new.ksk = false → ∀ k ∈ l, k.ksk = true → k ∈ setT l j (retireOld now d false old) := by
      intro hf k hk hkk
      refine mem_setT_other hold hk ?_
      intro e; subst e; rw [hf, hkk] at hq; simp at hq
    have hzk : new.zsk = false → new.ksk = true ∧ s = false := by
      intro hf
      have := hsn.role
      rw [hf] at this
      cases hb : new.ksk <;> simp [hb] at this <;> grind
    have b4 : new.zsk = false → ∀ k ∈ l, k.zsk = true → k ∈ setT l j (retireOld now d false old) := by
      intro hf k hk hkk
      refine mem_setT_other hold hk ?_
      intro e; subst e
      have := hzk hf
      have ro := hso.role
      rw [this.1] at hq; simp at hq
      rw [hq.1, this.2, hkk] at ro; simp at ro
    split
    · next hkk =>
      split
      · exact ⟨b1, b2, b3, b4⟩
      · next z hz =>
        obtain ⟨kz, hkz, hqz⟩ := findIdx_some hz
        simp only [Bool.and_eq_true, Bool.or_eq_true, Bool.not_eq_true', beq_iff_eq, bne_iff_ne] at hqz
        have hsz := b1 kz (List.mem_of_getElem? hkz)
        have hnz : new.zsk = true := by
          rcases hqz.1.2 with h | h
          · exact absurd (hsz.alg.trans hsn.alg.symm) h
          · exact h
        refine ⟨?_, ?_, fun hf => by rw [hf] at hkk; simp at hkk, fun hf => by rw [hf] at hnz; simp at hnz⟩
        · intro k hk
          rcases mem_setT hk with hk | ⟨y, hy, rfl⟩
          · exact b1 k hk
          · rw [hkz] at hy; cases hy; exact sound_retireZsk hn d hsz hqz.2
        · rw [getElem?_setT, b2, Option.map_some, if_neg]
          intro e; subst e; rw [hkz] at b2; cases b2
          rw [hqz.1.1.2] at hkk; simp at hkk
    · exact ⟨b1, b2, b3, b4⟩

theorem inv_replace (hn : now ≠ 0) {l : List Key} {i : Nat} {new : Key} (d : Nat) (h : Inv a s now l) (hnew : l[i]? = some new)
    (hst : keyState new now = if new.ksk then .ready else .published) :
    ∃ r, newSignatures now d l i = .ok r ∧ Inv a s now r := by
  obtain ⟨b1, b2, b3, b4⟩ := retireBoth_inv hn d h hnew hst
  unfold newSignatures
  rw [hnew]; dsimp only
  rw [b2]; dsimp only
  rw [if_pos hst]
  refine ⟨_, rfl, ?_⟩
  have hsn := h.all new (List.mem_of_getElem? hnew)
  have stt : ¬Come new.t.active now := by
    rw [keyState_spec new hn] at hst; grind
  have hcur : Current new := by
    rcases hsn.life with h | h
    · exact h
    · exact absurd ⟨h.1, hsn.active⟩ stt
  have hact := tmin_now hn stt
  refine ⟨?_, ?_, ?_⟩
  · intro k hk
    rcases mem_setT hk with hk | ⟨y, hy, rfl⟩
    · exact b1 k hk
    · rw [b2] at hy; cases hy
      obtain ⟨h1, h2, h3, h4, h5, h6, h7, h8, h9, h10, h11⟩ := hsn
      exact ⟨h1, h2, h3, h4, h5, h6, h7, h8, by simp [hact], h10, .inl hcur⟩
  · cases hb : new.ksk with
    | true => exact ⟨_, mem_setT_self b2, hcur, hb⟩
    | false =>
      obtain ⟨k, hk, hc, hkk⟩ := h.ksk
      exact ⟨k, mem_setT_other b2 (b3 hb k hk hkk) (fun e => by rw [e, hb] at hkk; cases hkk), hc, hkk⟩
  · cases hb : new.zsk with
    | true => exact ⟨_, mem_setT_self b2, hcur, hb, .inl (by simp [hact, hn])⟩
    | false =>
      obtain ⟨k, hk, hc, hkk, ha⟩ := h.zsk
      exact ⟨k, mem_setT_other b2 (b4 hb k hk hkk) (fun e => by rw [e, hb] at hkk; cases hkk), hc, hkk, ha⟩

theorem inv_exec (hn : now ≠ 0) {l : List Key} {n : Next} (h : Inv p.alg p.sts now l) (hc : Chosen p now l n)
    (ht : past n.time now) : ∃ r, execAction p now l n = .ok r ∧ Inv p.alg p.sts now r := by
  rw [past_iff hn] at ht
  rcases hc with hc | ⟨k, run, hk, hksk, -, hact⟩
  · exact absurd hc ht.1
  · have snd := h.all k (List.mem_of_getElem? hk)
    unfold execAction
    cases ha : n.act with
    | generate =>
      refine ⟨_, rfl, ?_⟩
      split
      · exact inv_genKsk hn (Nat.zero_le _) h
      · exact inv_genZsk hn (Nat.zero_le _) h
    | invalid =>
      rw [ha] at hact
      exfalso
      have : n.time = 0 := by unfold kskAction zskAction at hact; grind
      exact ht.1 this
    | retire =>
      rw [ha] at hact
      exfalso
      have : k.t.retire = 0 ∧ k.t.postActive = 0 ∧ k.t.remove = 0 ∧ keyState k now = .retireActive := by
        unfold kskAction zskAction at hact; grind
      have st := state_retireActive hn this.2.2.2
      have := snd.life
      unfold Current Come at *
      omega
    | publish =>
      rw [ha] at hact
      exfalso
      have : keyState k now = .preActive := by unfold kskAction zskAction at hact; grind
      have st := state_preActive hn this
      exact st.2.1 snd.publish
    | submit =>
      rw [ha] at hact
      have : keyState k now = .published ∧ k.ksk = true := by unfold kskAction zskAction at hact; grind
      exact inv_submit hn h hk this.1 this.2
    | replace =>
      rw [ha] at hact
      have : keyState k now = if k.ksk then .ready else .published := by unfold kskAction zskAction at hact; grind
      exact inv_replace hn 0 h hk this
    | remove =>
      rw [ha] at hact
      have : keyState k now = .retired ∨ keyState k now = .postActive := by unfold kskAction zskAction at hact; grind
      rcases this with this | this
      · exact inv_remove hn h hk this
      · exact absurd snd.post (state_postActive hn this).1.1
    | reallyRemove =>
      rw [ha] at hact
      have h1 : n.time = reallyTime p now k.t.remove ∧ keyState k now = .removed := by unfold kskAction zskAction at hact; grind
      exact inv_really hn h hk h1.2 (reallyTime_come (h1.1 ▸ ht)).1

theorem inv_rollover (hn : now ≠ 0) : ∀ (fuel : Nat) (f : Flags) (l : List Key),
    Inv p.alg p.sts now l ∨ Inv p.alg p.sts now (initialKeys p f now l) →
    rollover p now fuel f l = .ok none ∨
    ∃ r, rollover p now fuel f l = .ok (some r) ∧ (p.manual = true ∧ r = l ∨ Inv p.alg p.sts now r)
  | 0, _, _, _ => .inl rfl
  | fuel + 1, f, l, h => by
    rw [rollover]
    split
    · next hm => exact .inr ⟨_, rfl, .inl ⟨hm, rfl⟩⟩
    · have hi : Inv p.alg p.sts now (initialKeys p f now l) := h.elim (inv_initial hn f) id
      have hg := inv_generating hn f hi
      have e1 := nextAction_id (p := p) f hg
      have hc := (nextAction_spec (p := p) hn f (generating p f now l)).2
      generalize generating p f now l = l1 at hg e1 hc
      generalize nextAction p f now l1 = q at e1 hc
      obtain ⟨l2, n1⟩ := q
      dsimp only at e1 hc ⊢
      subst e1
      split
      · next hp =>
        obtain ⟨r, hr, hri⟩ := inv_exec hn hg hc hp
        rw [hr]; simp only [Res.bind_ok]
        have e2 := nextAction_id (p := p) f hri
        generalize nextAction p f now r = q at e2
        obtain ⟨l3, n2⟩ := q
        dsimp only at e2 ⊢
        subst e2
        split
        · rcases inv_rollover hn fuel { f with forceKsk := false, forceZsk := false } l3 (.inl hri) with h | ⟨r, h1, h2 | h2⟩
          · exact .inl h
          · exact .inr ⟨r, h1, .inr (h2.2 ▸ hri)⟩
          · exact .inr ⟨r, h1, .inr h2⟩
        · exact .inr ⟨_, rfl, .inr hri⟩
      · exact .inr ⟨_, rfl, .inr hg⟩

theorem inv_confirm (hn : now ≠ 0) (d : Nat) {l : List Key} (h : Inv a s now l) :
    confirm now d l = .ok none ∨ ∃ r, confirm now d l = .ok (some r) ∧ Inv a s now r := by
  unfold confirm
  split
  · exact .inl rfl
  · next i hi =>
    obtain ⟨k, hk, hq⟩ := findIdx_some hi
    simp only [Bool.and_eq_true, beq_iff_eq] at hq
    obtain ⟨r, hr, hri⟩ := inv_replace hn d h hk (by rw [hq.1.1, hq.2]; rfl)
    rw [hr]
    exact .inr ⟨r, rfl, hri⟩

/-! ## The keys in the zone -/

theorem usage_iff (zs : List ZKey) (a : Nat) :
    ((usage zs a).1 = true ↔ ∃ z ∈ zs, z.alg = a ∧ z.ksk = true ∧ z.isPublic = true ∧ z.pubOnly = false) ∧
    ((usage zs a).2.1 = true ↔ ∃ z ∈ zs, z.alg = a ∧ z.zsk = true ∧ z.isPublic = true ∧ z.pubOnly = false) ∧
    ((usage zs a).2.2.1 = true ↔ ∃ z ∈ zs, z.alg = a ∧ z.ksk = true ∧ (z.active = true ∨ z.kskPlus = true) ∧ z.pubOnly = false) ∧
    ((usage zs a).2.2.2 = true ↔ ∃ z ∈ zs, z.alg = a ∧ z.zsk = true ∧ (z.active = true ∨ z.zskPlus = true) ∧ z.pubOnly = false) := by
  unfold usage
  simp only [List.any_eq_true, Bool.and_eq_true, Bool.or_eq_true, Bool.not_eq_true', beq_iff_eq]
  refine ⟨?_, ?_, ?_, ?_⟩ <;> (constructor <;> (rintro ⟨z, hz, h⟩; exact ⟨z, hz, by grind⟩))

theorem complete_iff (zs : List ZKey) (a : Nat) : Complete zs a ↔
    ((usage zs a).1 = true ∧ (usage zs a).2.1 = true ∧ (usage zs a).2.2.1 = true ∧ (usage zs a).2.2.2 = true) := by
  have := usage_iff zs a
  constructor
  · rintro ⟨h1, h2, h3, h4⟩
    exact ⟨this.1.mpr h1, this.2.1.mpr h2, this.2.2.1.mpr h3, this.2.2.2.mpr h4⟩
  · rintro ⟨h1, h2, h3, h4⟩
    exact ⟨this.1.mp h1, this.2.1.mp h2, this.2.2.1.mp h3, this.2.2.2.mp h4⟩

theorem walkLoop_iff (zs : List ZKey) : ∀ (as : List Nat) (hv : Bool), walkLoop zs hv as = none ↔
    (hv = true ∨ ∃ a ∈ as, Complete zs a) ∧
    ∀ a ∈ as, ((usage zs a).1 = true ∨ (usage zs a).2.1 = true) → Complete zs a
  | [], hv => by cases hv <;> simp [walkLoop]
  | a :: as, hv => by
    rw [walkLoop]
    dsimp only
    have hc := complete_iff zs a
    split
    · next h =>
      rw [walkLoop_iff zs as hv]
      simp only [Bool.and_eq_true, Bool.not_eq_true'] at h
      grind
    · split
      · next h =>
        rw [walkLoop_iff zs as true]
        simp only [Bool.and_eq_true] at h
        grind
      · next h1 h2 =>
        simp only [Bool.and_eq_true, Bool.not_eq_true'] at h1 h2
        have : ¬Complete zs a := by rw [hc]; grind
        simp only [reduceCtorEq, false_iff]
        intro hx
        have := hx.2 a (by simp)
        grind

theorem walk_iff (zs : List ZKey) : walkAlgorithms zs = none ↔ Signable zs := by
  unfold walkAlgorithms Signable
  rw [walkLoop_iff]
  simp only [Bool.false_eq_true, false_or, List.mem_range]
  refine and_congr Iff.rfl ?_
  constructor
  · intro h z hz hl hp hi hr
    refine h z.alg hl ?_
    have := usage_iff zs z.alg
    rcases hr with hr | hr
    · exact .inl (this.1.mpr ⟨z, hz, rfl, hr, hi, hp⟩)
    · exact .inr (this.2.1.mpr ⟨z, hz, rfl, hr, hi, hp⟩)
  · intro h a ha hu
    have := usage_iff zs a
    rcases hu with hu | hu
    · obtain ⟨z, hz, rfl, h1, h2, h3⟩ := this.1.mp hu
      exact h z hz ha h3 h2 (.inl h1)
    · obtain ⟨z, hz, rfl, h1, h2, h3⟩ := this.2.1.mp hu
      exact h z hz ha h3 h2 (.inr h1)

theorem not_come_zero (m : Nat) : ¬Come 0 m := by unfold Come; simp

/-- The role of a current key in the zone. -/
theorem setKey_current (hn : now ≠ 0) {k : Key} (b : Bool) (h : Sound a s now k) (hc : Current k) :
    setKey k now b = ZKey.mk k.ksk k.zsk a true
      (k.ksk && decide (k.t.ready ≠ 0 ∧ k.t.active = 0)) (decide (k.t.active ≠ 0))
      (k.ksk && !decide (k.t.active ≠ 0)) ((k.ksk && decide (k.t.ready ≠ 0 ∧ k.t.active = 0)) && !b) false false := by
  obtain ⟨h1, h2, h3, h4, h5, h6, h7, h8, h9, h10, h11⟩ := h
  obtain ⟨c1, c2, c3⟩ := hc
  have r : Come k.t.ready now ↔ k.t.ready ≠ 0 := by unfold Come; omega
  have ac : Come k.t.active now ↔ k.t.active ≠ 0 := by unfold Come; omega
  unfold setKey isPublished isReady isActive
  simp only [past_iff hn, c1, c2, c3, h5, h6, h7, not_come_zero, h4, r, ac, h1, h2]
  simp

theorem inv_signable (hn : now ≠ 0) (ha : a < 256) {l : List Key} (h : Inv a s now l) : Signable (zoneKeys l now) := by
  have mem : ∀ k ∈ l, setKey k now (algHasActiveZsk l now k.alg) ∈ zoneKeys l now := fun k hk => List.mem_map_of_mem hk
  have hcomp : Complete (zoneKeys l now) a := by
    obtain ⟨k, hk, hkc, hkk⟩ := h.ksk
    obtain ⟨z, hz, hzc, hzz, hza⟩ := h.zsk
    have mk := mem k hk
    have mz := mem z hz
    rw [setKey_current hn _ (h.all k hk) hkc] at mk
    rw [setKey_current hn _ (h.all z hz) hzc] at mz
    refine ⟨⟨_, mk, rfl, hkk, rfl, rfl⟩, ⟨_, mz, rfl, hzz, rfl, rfl⟩, ⟨_, mk, rfl, hkk, ?_, rfl⟩, ?_⟩
    · dsimp only
      rw [hkk]
      by_cases e : k.t.active = 0 <;> simp [e]
    · by_cases e : z.t.active = 0
      · have e' : z.ksk = true ∧ z.t.ready ≠ 0 := hza.resolve_left (fun h => h e)
        cases hb : algHasActiveZsk l now z.alg with
        | false =>
          refine ⟨_, mz, rfl, hzz, ?_, rfl⟩
          rw [hb]; simp [e, e']
        | true =>
          unfold algHasActiveZsk at hb
          simp only [List.any_eq_true, Bool.and_eq_true, beq_iff_eq] at hb
          obtain ⟨y, hy, ⟨hya, hyz⟩, hyact⟩ := hb
          have sy := h.all y hy
          refine ⟨_, mem y hy, ?_, ?_, ?_, ?_⟩
          · have := sy.alg; unfold setKey; grind
          · unfold setKey; grind
          · have := sy.pub; have := sy.revoke
            left
            unfold setKey
            simp only [past_iff hn]
            have nr : ¬Come y.t.revoke now := by rw [sy.revoke]; exact not_come_zero _
            grind
          · have := sy.pub; unfold setKey; grind
      · exact ⟨_, mz, rfl, hzz, .inl (by simp [e]), rfl⟩
  refine ⟨⟨a, ha, hcomp⟩, ?_⟩
  intro z hz _ _ _ _
  obtain ⟨k, hk, rfl⟩ := List.mem_map.mp hz
  have : (setKey k now (algHasActiveZsk l now k.alg)).alg = a := by
    have := (h.all k hk).alg; unfold setKey; grind
  rw [this]; exact hcomp

theorem inv_load (hn : now ≠ 0) (ha : a < 256) {l : List Key} (h : Inv a s now l) : loadZoneKeys l now = none := by
  unfold loadZoneKeys
  rw [if_neg]
  · exact (walk_iff _).mpr (inv_signable hn ha h)
  · obtain ⟨k, hk, -⟩ := h.ksk
    have := List.length_pos_of_mem hk
    omega

end Knot.Keyroll
