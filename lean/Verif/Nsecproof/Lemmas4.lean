import Verif.Nsecproof.Lemmas3
/-!
# NSEC proofs: the wildcards visited
-/
namespace Knot.Nsecproof
open Dname (Name canonCmp lowerName)
open Nsecchain (Included present lastIn noNsec)
open Answer

/-- What changes with a name `m` answered from the node `x`. -/
structure Keeps (st : St) (x : Name) (r : St × State) : Prop where
  name : r.2 ≠ .follow → r.1.name = st.name
  mono : ∀ w ∈ st.wild, w ∈ r.1.wild
  new : ∀ w ∈ r.1.wild, w ∈ st.wild ∨ w = (x, st.name)

theorem visit_keeps (z : Zone) (st : St) (x : Name) :
    (visit z st x).name = st.name ∧ (∀ w ∈ st.wild, w ∈ (visit z st x).wild) ∧
    (∀ w ∈ (visit z st x).wild, w ∈ st.wild ∨ w = (x, st.name)) ∧
    ((z.node x).nonauth = false → (x, st.name) ∈ (visit z st x).wild) := by
  unfold visit
  split
  · rename_i h; exact ⟨rfl, fun _ h => h, fun _ h => .inl h, fun e => by rw [h] at e; cases e⟩
  · simp; intro a b h; exact .inl h

theorem followEnd_keeps (z : Zone) (st : St) (k : Nat) (x y : Name) : Keeps st x (followEnd z st k x y) := by
  obtain ⟨v1, v2, v3, _⟩ := visit_keeps z st x
  unfold followEnd
  split
  · exact ⟨fun _ => rfl, fun _ h => h, fun _ h => .inl h⟩
  · split
    · split
      · exact ⟨fun _ => v1, v2, v3⟩
      · exact ⟨by simp, v2, v3⟩
    · exact ⟨by simp, fun _ h => h, fun _ h => .inl h⟩

theorem followEnd_wild {z : Zone} {st : St} {k : Nat} {x y : Name} (h : k < st.answer.length) (hw : wildcard x = true)
    (hn : (z.node x).nonauth = false) : (x, st.name) ∈ (followEnd z st k x y).1.wild := by
  obtain ⟨_, _, _, v4⟩ := visit_keeps z st x
  unfold followEnd
  rw [if_neg (by omega), if_pos hw]
  split
  · exact v4 hn
  · exact v4 hn

theorem followEnd_follow {z : Zone} {st : St} {k : Nat} {x y : Name} (hw : wildcard x = true)
    (hn : (z.node x).nonauth = false) (hf : (followEnd z st k x y).2 = .follow) : (x, st.name) ∈ (followEnd z st k x y).1.wild := by
  by_cases h : k < st.answer.length
  · exact followEnd_wild h hw hn
  · unfold followEnd at hf
    rw [if_pos (by omega)] at hf
    cases hf

theorem Keeps.congr {st st' : St} {x : Name} {r : St × State} (h : Keeps st x r) (hn : st'.name = st.name) (hw : st'.wild = st.wild) :
    Keeps st' x r := by
  refine ⟨fun a => ?_, fun w a => ?_, fun w a => ?_⟩
  · rw [hn]; exact h.name a
  · rw [hw] at a; exact h.mono w a
  · rw [hn, hw]; exact h.new w a

theorem keeps_refl (st : St) (x : Name) (s : State) : Keeps st x (st, s) := ⟨fun _ => rfl, fun _ h => h, fun _ h => .inl h⟩

theorem followCname_keeps (z : Zone) {q : Req} (hu : Unlimited q) (st : St) (x : Name) (t : Nat) :
    Keeps st x (followCname z q st x t) := by
  unfold followCname
  simp only
  split
  · exact (keeps_refl _ _ _).congr rfl rfl
  · simp only [put_unlimited hu]
    split
    · rename_i h; split at h <;> simp at h
    · rename_i st1 h
      have hst1 : st1.name = st.name ∧ st1.wild = st.wild := by
        split at h <;> (cases h; exact ⟨rfl, rfl⟩)
      split
      · split
        · exact (followEnd_keeps _ _ _ _ _).congr hst1.1.symm hst1.2.symm
        · split
          · exact (keeps_refl _ _ _).congr hst1.1.symm hst1.2.symm
          · exact (followEnd_keeps _ _ _ _ _).congr hst1.1.symm hst1.2.symm
      · exact (followEnd_keeps _ _ _ _ _).congr hst1.1.symm hst1.2.symm

theorem followCname_wild (z : Zone) {q : Req} (hu : Unlimited q) (st : St) (x : Name) (hw : wildcard x = true)
    (hn : (z.node x).nonauth = false) (hc : st.chain < 5) : (x, st.name) ∈ (followCname z q st x 5).1.wild := by
  unfold followCname
  simp only
  rw [if_neg (by omega)]
  have : ∀ st : St, Answer.contains st x 5 = false := fun st => by simp [Answer.contains, hw]
  simp only [this, put_unlimited hu, Bool.false_eq_true, if_false, show (5 : Nat) ≠ 39 by decide]
  exact followEnd_wild (z := z) (st := { st with chain := st.chain + 1, answer := st.answer ++ [.rr (expand { st with chain := st.chain + 1 } x 5) x 5] })
    (by simp) hw hn

theorem followCname_follow (z : Zone) {q : Req} (hu : Unlimited q) (st : St) (x : Name) (t : Nat) (hw : wildcard x = true)
    (hn : (z.node x).nonauth = false) (hf : (followCname z q st x t).2 = .follow) :
    (x, st.name) ∈ (followCname z q st x t).1.wild := by
  unfold followCname at hf ⊢
  simp only at hf ⊢
  split at hf
  · cases hf
  · rename_i hch
    rw [if_neg hch]
    simp only [put_unlimited hu] at hf ⊢
    split at hf
    · cases hf
    · rename_i st1 h
      have hst1 : st1.name = st.name := by
        split at h <;> (cases h; rfl)
      by_cases ht : t = 39
      · simp only [ht, if_true] at hf ⊢
        by_cases hcs : cannotSynth x (z.target x 39) st.name = true
        · simp only [hcs, if_true] at hf ⊢
          rw [← hst1]; exact followEnd_follow (st := { st1 with rcode := 6 }) hw hn hf
        · simp only [hcs, if_false] at hf ⊢
          by_cases h5 : q.type = 5
          · simp [h5] at hf
          · simp only [h5, if_false, Bool.false_eq_true] at hf ⊢
            rw [show (x, st.name) = (x, st1.name) by rw [hst1]]
            exact followEnd_follow (st := { st1 with answer := _ }) hw hn hf
      · simp only [ht, if_false] at hf ⊢
        rw [← hst1]; exact followEnd_follow hw hn hf

/-- The condition to follow CNAME. -/
def Alias (z : Zone) (t : Nat) (x : Name) : Prop := Owns z x 5 ∧ ¬ Direct t

theorem alias_iff {z : Zone} {t : Nat} {x : Name} :
    (has (z.node x) 5 = true ∧ t ≠ 5 ∧ t ≠ 46 ∧ t ≠ 47 ∧ t ≠ 255) ↔ Alias z t x := by
  unfold Alias Direct
  rw [has_iff]
  simp only [not_or]

theorem nameFound_keeps (z : Zone) {q : Req} (hu : Unlimited q) (st : St) (x : Name) :
    Keeps st x (nameFound z q st x) ∧ (¬ ((z.node x).deleg ∧ q.type ≠ 43 ∨ (z.node x).nonauth) → Alias z q.type x →
        wildcard x = true → st.chain < 5 → (x, st.name) ∈ (nameFound z q st x).1.wild) ∧
      ((nameFound z q st x).2 = .nodata → (nameFound z q st x).1.node = some x) ∧
      ((nameFound z q st x).2 = .follow → wildcard x = true → (x, st.name) ∈ (nameFound z q st x).1.wild) := by
  unfold nameFound
  simp only
  split
  · exact ⟨(keeps_refl _ _ _).congr rfl rfl, fun h => absurd (by assumption) h, by simp, by simp⟩
  · rename_i hd
    split
    · rename_i h
      refine ⟨(followCname_keeps z hu _ _ _).congr rfl rfl, fun _ _ hw hc => ?_, fun h' => ?_, fun h' hw => ?_⟩
      · exact followCname_wild z hu { st with node := some x } x hw
          (by cases e : (z.node x).nonauth with
              | false => rfl
              | true => exact absurd (.inr e) hd) hc
      · exfalso
        have : ∀ st : St, (followCname z q st x 5).2 ≠ .nodata := by
          intro st
          unfold followCname followEnd
          simp only
          repeat' split
          all_goals simp
        exact this _ h'
      · exact followCname_follow z hu { st with node := some x } x 5 hw
          (by cases e : (z.node x).nonauth with
              | false => rfl
              | true => exact absurd (.inr e) hd) h'
    · rename_i h
      have ha : ¬ Alias z q.type x := fun a => h (alias_iff.mpr a)
      split
      · exact ⟨(keeps_refl _ _ _).congr rfl rfl, fun _ a => absurd a ha, fun _ => rfl, fun h => by split at h <;> cases h⟩
      · rename_i st' h'
        have : st'.name = st.name ∧ st'.wild = st.wild ∧ st'.node = some x := by
          unfold putAnswer at h'
          split at h'
          · cases h'; exact ⟨rfl, rfl, rfl⟩
          · rw [put_unlimited hu] at h'
            cases h'; exact ⟨rfl, rfl, rfl⟩
        exact ⟨(keeps_refl _ _ _).congr this.1.symm this.2.1.symm, fun _ a => absurd a ha, fun _ => this.2.2, fun h => by
          simp only at h
          split at h <;> cases h⟩

/-- What answering a name changes. -/
structure Solved (z : Zone) (t : Nat) (st : St) (r : St × State) : Prop where
  name : r.2 ≠ .follow → r.1.name = st.name
  mono : ∀ w ∈ st.wild, w ∈ r.1.wild
  new : ∀ w ∈ r.1.wild, w ∈ st.wild ∨ w.2 = st.name ∧ z.apex <:+ st.name ∧ (st.name ∈ z.names → w.1 = st.name) ∧
    (Source z w.1 st.name ∨ Lookup z t st.name (.dname w.1))
  alias : ∀ s, Lookup z t st.name (.alias s) → Wild s → st.chain < 5 → (s, st.name) ∈ r.1.wild
  source : ∀ s, Source z s st.name → s ≠ st.name → (z.node s).nonauth = false → (s, st.name) ∈ r.1.wild ∨ visited r.1 s = true ∧
    (Alias z t s ∨ visited st s = true)
  node : r.2 = .nodata → ∃ s, r.1.node = some s ∧ Source z s st.name

theorem visited_iff {st : St} {x : Name} : visited st x = true ↔ ∃ n, (x, n) ∈ st.wild := by
  unfold visited
  rw [List.any_eq_true]
  constructor
  · rintro ⟨⟨a, b⟩, h1, h2⟩
    simp at h2
    exact ⟨b, h2 ▸ h1⟩
  · rintro ⟨n, h⟩
    exact ⟨_, h, by simp⟩

theorem solveName_keeps {z : Zone} (wf : Wf z) {q : Req} (hu : Unlimited q) {st : St} {fl : Bool} {r : St × State}
    (hr : solveName z q fl st = .ok r) : Solved z q.type st r := by
  unfold solveName at hr
  have aliasRefer : ∀ {s}, Lookup z q.type st.name (.alias s) → Source z s st.name ∧ Alias z q.type s ∧
      ¬ ((z.node s).deleg = true ∧ q.type ≠ 43 ∨ (z.node s).nonauth = true) := by
    intro s h
    cases h with
    | alias h1 h2 h3 h4 =>
      refine ⟨h1, ⟨h3, h4⟩, fun hh => ?_⟩
      obtain ⟨d, hd1, hd2⟩ := (refer_iff wf h1.1 q.type).mp hh
      exact hd2 (h2 d hd1.1 hd1.2.1)
  rcases find_spec wf st.name with ⟨h1, h2⟩ | ⟨h1, h2, h3⟩ | ⟨h1, h2, c, h3, h4⟩
  · rw [h2] at hr
    simp only [Res.bind_ok] at hr
    split at hr
    · cases hr
      refine ⟨fun _ => rfl, fun _ h => h, fun _ h => .inl h, fun s h => ?_, fun s h => ?_, by simp⟩
      · exact absurd (source_apex wf (aliasRefer h).1) h1
      · exact absurd (source_apex wf h) h1
    · cases hr
  · rw [h3] at hr
    simp only [Res.bind_ok, Res.ok.injEq] at hr
    subst hr
    obtain ⟨k1, k2, k3, k4⟩ := nameFound_keeps z hu st st.name
    refine ⟨k1.name, k1.mono, fun w hw => ?_, fun s h hw hc => ?_, fun s h hne _ => ?_, fun h => ⟨_, k3 h, h2, .inl rfl⟩⟩
    · rcases k1.new w hw with h | h
      · exact .inl h
      · exact .inr ⟨by rw [h], h1, fun _ => by rw [h], .inl (by rw [h]; exact ⟨h2, .inl rfl⟩)⟩
    · obtain ⟨a1, a2, a3⟩ := aliasRefer h
      have hs : s = st.name := source_unique a1 ⟨h2, .inl rfl⟩
      subst hs
      exact k2 a3 a2 (wildcard_iff.mpr hw) hc
    · exact absurd (source_unique h ⟨h2, .inl rfl⟩) hne
  · rw [h4] at hr
    simp only [Res.bind_ok] at hr
    unfold nameNotFound at hr
    simp only at hr
    by_cases hw : ([42] : Dname.Label) :: c ∈ z.names
    · have hsrc : Source z ([42] :: c) st.name := ⟨hw, .inr ⟨h2, c, h3, rfl⟩⟩
      rw [if_pos hw] at hr
      simp only [Res.ok.injEq] at hr
      obtain ⟨k1, k2, k3, k4⟩ := nameFound_keeps z hu st ([42] :: c)
      have hnew : ∀ w, w = (([42] : Dname.Label) :: c, st.name) →
          w.2 = st.name ∧ z.apex <:+ st.name ∧ (st.name ∈ z.names → w.1 = st.name) ∧
            (Source z w.1 st.name ∨ Lookup z q.type st.name (.dname w.1)) :=
        fun w e => ⟨by rw [e], h1, fun h => absurd h h2, .inl (by rw [e]; exact hsrc)⟩
      have hvold : visited (nameFound z q st ([42] :: c)).1 ([42] :: c) = true →
          (([42] :: c, st.name) ∈ (nameFound z q st ([42] :: c)).1.wild ∨ visited st ([42] :: c) = true) := by
        intro h
        obtain ⟨n, hn⟩ := visited_iff.mp h
        rcases k1.new _ hn with h | h
        · exact .inr (visited_iff.mpr ⟨n, h⟩)
        · cases h; exact .inl hn
      by_cases hv : visited (nameFound z q st ([42] :: c)).1 ([42] :: c) = true
      · rw [if_pos hv] at hr
        subst hr
        refine ⟨k1.name, k1.mono, fun w hw => (k1.new w hw).imp id (hnew w), fun s h hws hc => ?_, fun s h hne _ => ?_,
          fun h => ⟨_, k3 h, hsrc⟩⟩
        · obtain ⟨a1, a2, a3⟩ := aliasRefer h
          have hs : s = [42] :: c := source_unique a1 hsrc
          subst hs
          exact k2 a3 a2 (wildcard_iff.mpr hws) hc
        · have hs : s = [42] :: c := source_unique h hsrc
          subst hs
          rcases hvold hv with h | h
          · exact .inl h
          · exact .inr ⟨hv, .inr h⟩
      · rw [if_neg hv] at hr
        subst hr
        obtain ⟨v1, v2, v3, v4⟩ := visit_keeps z (nameFound z q st ([42] :: c)).1 ([42] :: c)
        have hnf : (nameFound z q st ([42] :: c)).2 ≠ .follow :=
          fun hf => hv (visited_iff.mpr ⟨_, k4 hf (by rfl)⟩)
        have hname := k1.name hnf
        rw [hname] at v1 v3 v4
        refine ⟨fun _ => v1, fun w hw => v2 w (k1.mono w hw), fun w hw => ?_, fun s h hws hc => ?_, fun s h hne hna => ?_,
          fun h => ⟨_, ?_, hsrc⟩⟩
        · rcases v3 w hw with h | h
          · exact (k1.new w h).imp id (hnew w)
          · exact .inr (hnew w h)
        · obtain ⟨a1, a2, a3⟩ := aliasRefer h
          have hs : s = [42] :: c := source_unique a1 hsrc
          subst hs
          exact v2 _ (k2 a3 a2 (wildcard_iff.mpr hws) hc)
        · have hs : s = [42] :: c := source_unique h hsrc
          subst hs
          exact .inl (v4 hna)
        · have := k3 h
          unfold visit
          split
          · exact this
          · exact this
    · rw [if_neg hw] at hr
      have hns := source_or h2 h3 hw
      have hrest : ∀ r', Keeps st c r' → r'.2 ≠ .nodata → ((∀ w ∈ r'.1.wild, w ∈ st.wild) ∨ Lookup z q.type st.name (.dname c)) →
          Solved z q.type st r' := by
        intro r' k hnd hor
        refine ⟨k.name, k.mono, fun w hw => hor.elim (fun h => .inl (h w hw)) (fun hl => (k.new w hw).imp id
          (fun e => ⟨by rw [e], h1, fun h => absurd h h2, .inr (by rw [e]; exact hl)⟩)), fun s h => ?_,
          fun s h => absurd h (hns s), fun h => absurd h hnd⟩
        exact absurd (aliasRefer h).1 (hns s)
      split at hr
      · rename_i hd
        cases hr
        have hnc : ∀ d, ¬ Cut z d st.name := by
          intro d h
          rw [cut_encloser h3] at h
          rcases above wf h3.1 h with ⟨a, _⟩ | ⟨a, _⟩
          · exact hd.1 (.inr a)
          · exact hd.1 (.inl a)
        refine hrest _ ((followCname_keeps z hu _ _ _).congr rfl rfl) ?_ (.inr (.dname hns hnc h3 (has_iff.mp hd.2)))
        unfold followCname followEnd
        simp only
        repeat' split
        all_goals simp
      · cases hae : authEncloser z c with
        | ok d =>
          rw [hae] at hr
          simp only [Res.bind_ok] at hr
          split at hr
          · cases hr
            exact hrest _ ((keeps_refl _ _ _).congr rfl rfl) (by simp) (.inl fun _ h => h)
          · cases hr
            exact hrest _ ((keeps_refl _ _ _).congr rfl rfl) (by simp) (.inl fun _ h => h)
        | err e => rw [hae] at hr; simp at hr
        | ub => rw [hae] at hr; simp at hr

end Knot.Nsecproof
