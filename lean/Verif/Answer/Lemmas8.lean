import Verif.Answer.Lemmas7
/-!
# Answers: authority
-/
namespace Knot.Answer
open Dname (Name)

/-- All the records come from nodes the zone is authoritative for, under the names these answer for. -/
def AuthOnly (z : Zone) (t : Nat) (l : List Rec) : Prop :=
  ∀ o s u, .rr o s u ∈ l → Source z s o ∧ Auth z t s

theorem authOnly_snoc {z : Zone} {t : Nat} {l : List Rec} (h : AuthOnly z t l) {o s : Name} {u : Nat}
    (h1 : Source z s o) (h2 : Auth z t s) : AuthOnly z t (l ++ [.rr o s u]) := by
  intro o' s' u' hm
  rcases List.mem_append.mp hm with h' | h'
  · exact h o' s' u' h'
  · simp only [List.mem_singleton, Rec.rr.injEq] at h'
    rw [h'.1, h'.2.1]; exact ⟨h1, h2⟩

theorem authOnly_synth {z : Zone} {t : Nat} {l : List Rec} (h : AuthOnly z t l) {o s : Name} :
    AuthOnly z t (l ++ [.synth o s]) := by
  intro o' s' u' hm
  rcases List.mem_append.mp hm with h' | h'
  · exact h o' s' u' h'
  · simp at h'

theorem put_answer {q : Req} {st st' : St} {r : Rec} (h : put q st r = some st') :
    st' = { st with answer := st.answer ++ [r] } := by
  unfold put at h
  split at h
  · simpa using h.symm
  · cases h

theorem followCname_auth {z : Zone} {q : Req} {st : St} {x : Name} {t : Nat} (h : AuthOnly z q.type st.answer)
    (hx : Source z x (expand st x t)) (ha : Auth z q.type x) : AuthOnly z q.type (followCname z q st x t).1.answer := by
  unfold followCname
  simp only
  split
  · exact h
  · split
    · exact h
    · next st1 hst1 =>
      have h1 : AuthOnly z q.type st1.answer := by
        split at hst1
        · simp only [Option.some.injEq] at hst1; rw [← hst1]; exact h
        · rw [put_answer hst1]
          exact authOnly_snoc h hx ha
      split
      · split
        · rw [followEnd_answer]; exact h1
        · split
          · exact h1
          · next st2 hst2 =>
            have h2 : AuthOnly z q.type st2.answer := by
              rw [put_answer hst2]; exact authOnly_synth h1
            split
            · exact h2
            · rw [followEnd_answer]; exact h2
      · rw [followEnd_answer]; exact h1

theorem source_expand {z : Zone} {st : St} {s : Name} {u : Nat} (h : Source z s st.name) : Source z s (expand st s u) := by
  unfold expand
  split
  · exact h
  · exact ⟨h.1, .inl rfl⟩

theorem nameFound_auth {z : Zone} (wf : Wf z) {q : Req} {st : St} {s : Name} (h : AuthOnly z q.type st.answer)
    (hs : Source z s st.name) : AuthOnly z q.type (nameFound z q st s).1.answer := by
  unfold nameFound
  simp only
  split
  · exact h
  · next h1 =>
    have ha : Auth z q.type s := (auth_iff q.type).mp (fun h => h1 ((refer_iff wf hs.1 q.type).mpr h))
    split
    · exact followCname_auth (st := { st with node := some s }) h (source_expand (st := { st with node := some s }) hs) ha
    · split
      · exact h
      · next st' hst' =>
        unfold putAnswer at hst'
        split at hst'
        · simp only [Option.some.injEq] at hst'; rw [← hst']; exact h
        · rw [put_answer hst']
          refine authOnly_snoc h ?_ ha
          split
          · exact hs
          · exact source_expand (st := { st with node := some s }) hs

theorem solveName_auth {z : Zone} (wf : Wf z) {q : Req} {st : St} {fl : Bool} (h : AuthOnly z q.type st.answer) {r : St × State}
    (hr : solveName z q fl st = .ok r) : AuthOnly z q.type r.1.answer := by
  unfold solveName at hr
  rcases find_spec wf st.name with ⟨_, h2⟩ | ⟨_, h2, h3⟩ | ⟨_, h2, c, h3, h4⟩
  · simp only [h2, Res.bind_ok] at hr
    split at hr
    · simp only [Res.ok.injEq] at hr; rw [← hr]; exact h
    · cases hr
  · simp only [h3, Res.bind_ok, Res.ok.injEq] at hr
    rw [← hr]
    exact nameFound_auth wf h ⟨h2, .inl rfl⟩
  · simp only [h4, Res.bind_ok] at hr
    unfold nameNotFound at hr
    simp only at hr
    split at hr
    · next hw =>
      have := nameFound_auth wf h (⟨hw, .inr ⟨h2, c, h3, rfl⟩⟩ : Source z ([42] :: c) st.name)
      simp only [Res.ok.injEq] at hr
      rw [← hr]
      split
      · exact this
      · rw [visit_answer]; exact this
    · split at hr
      · next hd =>
        simp only [Res.ok.injEq] at hr
        rw [← hr]
        have ha : Auth z q.type c := by
          refine (auth_iff q.type).mp ?_
          rintro ⟨d, hd', _⟩
          rcases above wf h3.1 hd' with ⟨a, _⟩ | ⟨a, _⟩
          · exact hd.1 (.inr a)
          · exact hd.1 (.inl a)
        refine followCname_auth (st := { st with node := some c }) h ?_ ha
        simp only [expand, bne_self_eq_false, Bool.and_false, Bool.false_eq_true, if_false]
        exact ⟨h3.1, .inl rfl⟩
      · cases hau : authEncloser z c with
        | ub => simp [hau] at hr
        | err => simp [hau] at hr
        | ok d =>
          simp only [hau, Res.bind_ok] at hr
          split at hr <;> simp only [Res.ok.injEq] at hr <;> rw [← hr] <;> exact h

theorem solveLoop_auth {z : Zone} (wf : Wf z) {q : Req} : ∀ (fuel : Nat) (r r' : St × State), AuthOnly z q.type r.1.answer →
    solveLoop z q fuel r = .ok r' → AuthOnly z q.type r'.1.answer := by
  intro fuel
  induction fuel with
  | zero => intro r r' _ h; simp [solveLoop] at h
  | succ fuel ih =>
    intro r r' h hr
    unfold solveLoop at hr
    split at hr
    · cases hs : solveName z q true r.1 with
      | ub => simp [hs] at hr
      | err => simp [hs] at hr
      | ok r1 =>
        simp only [hs, Res.bind_ok] at hr
        exact ih r1 r' (solveName_auth wf h hs) hr
    · simp only [Res.ok.injEq] at hr; rw [← hr]; exact h

/-- The answer of the response is that of the last state, or empty. -/
theorem answer_answer {z : Zone} {q : Req} {n : Name} {c c' : St × State} {r : Resp}
    (e1 : solveName z q false { name := n } = .ok c) (e2 : solveLoop z q 7 c = .ok c') (e3 : answer z q n = .ok r) :
    (r.answer = c'.1.answer ∨ r.answer = []) ∧ (r.state = .miss ↔ c'.2 = .miss) ∧ (r.state = .miss → r.answer = c'.1.answer) ∧
      r.state = c'.2 := by
  unfold answer at e3
  simp only [e1, e2, Res.bind_ok] at e3
  split at e3
  · next e => simp only [Res.ok.injEq] at e3; rw [← e3]; simp [e]
  · next e => simp only [Res.ok.injEq] at e3; rw [← e3]; simp [e]
  · next e =>
    split at e3
    · cases e3
    · next x _ =>
      cases hd : delegation z x with
      | ok d => simp only [hd, Res.bind_ok, Res.ok.injEq] at e3; rw [← e3]; simp [e]
      | ub => simp [hd] at e3
      | err => simp [hd] at e3
  · next e => simp only [Res.ok.injEq] at e3; rw [← e3]; simp [e]
  · next e => simp only [Res.ok.injEq] at e3; rw [← e3]; simp [e]
  · next e => simp only [Res.ok.injEq] at e3; rw [← e3]; simp

/-! ## NXDOMAIN -/

theorem put_grow {q : Req} {st st' : St} {r : Rec} (h : put q st r = some st') : st.answer <+: st'.answer := by
  rw [put_answer h]; exact List.prefix_append _ _

theorem followCname_grow {z : Zone} {q : Req} {st : St} {x : Name} {t : Nat} :
    st.answer <+: (followCname z q st x t).1.answer := by
  unfold followCname
  simp only
  split
  · exact List.prefix_refl _
  · split
    · exact List.prefix_refl _
    · next st1 hst1 =>
      have h1 : st.answer <+: st1.answer := by
        split at hst1
        · simp only [Option.some.injEq] at hst1; rw [← hst1]; exact List.prefix_refl _
        · exact put_grow (st := { st with chain := st.chain + 1 }) hst1
      split
      · split
        · rw [followEnd_answer]; exact h1
        · split
          · exact h1
          · next st2 hst2 =>
            split
            · exact h1.trans (put_grow hst2)
            · rw [followEnd_answer]; exact h1.trans (put_grow hst2)
      · rw [followEnd_answer]; exact h1

theorem nameFound_grow {z : Zone} {q : Req} {st : St} {x : Name} : st.answer <+: (nameFound z q st x).1.answer := by
  unfold nameFound
  simp only
  split
  · exact List.prefix_refl _
  · split
    · exact followCname_grow (st := { st with node := some x })
    · split
      · exact List.prefix_refl _
      · next st' hst' =>
        unfold putAnswer at hst'
        split at hst'
        · simp only [Option.some.injEq] at hst'; rw [← hst']; exact List.prefix_refl _
        · exact put_grow (st := { st with node := some x }) hst'

theorem solveName_grow {z : Zone} {q : Req} {st : St} {fl : Bool} {r : St × State} (hr : solveName z q fl st = .ok r) :
    st.answer <+: r.1.answer := by
  unfold solveName at hr
  cases hf : findDname z st.name with
  | ub => simp [hf] at hr
  | err => simp [hf] at hr
  | ok f =>
    simp only [hf, Res.bind_ok] at hr
    cases f with
    | out =>
      simp only at hr
      split at hr
      · simp only [Res.ok.injEq] at hr; rw [← hr]; exact List.prefix_refl _
      · cases hr
    | found x => simp only [Res.ok.injEq] at hr; rw [← hr]; exact nameFound_grow
    | notFound c =>
      simp only at hr
      unfold nameNotFound at hr
      simp only at hr
      split at hr
      · simp only [Res.ok.injEq] at hr; rw [← hr]
        split
        · exact nameFound_grow
        · rw [visit_answer]; exact nameFound_grow
      · split at hr
        · simp only [Res.ok.injEq] at hr; rw [← hr]
          exact followCname_grow (st := { st with node := some c })
        · cases hau : authEncloser z c with
          | ub => simp [hau] at hr
          | err => simp [hau] at hr
          | ok d =>
            simp only [hau, Res.bind_ok] at hr
            split at hr <;> simp only [Res.ok.injEq] at hr <;> rw [← hr] <;> exact List.prefix_refl _

theorem solveLoop_grow {z : Zone} {q : Req} : ∀ (fuel : Nat) (r r' : St × State), solveLoop z q fuel r = .ok r' →
    r.1.answer <+: r'.1.answer := by
  intro fuel
  induction fuel with
  | zero => intro r r' h; simp [solveLoop] at h
  | succ fuel ih =>
    intro r r' hr
    unfold solveLoop at hr
    split at hr
    · cases hs : solveName z q true r.1 with
      | ub => simp [hs] at hr
      | err => simp [hs] at hr
      | ok r1 =>
        simp only [hs, Res.bind_ok] at hr
        exact (solveName_grow hs).trans (ih r1 r' hr)
    · simp only [Res.ok.injEq] at hr; rw [← hr]; exact List.prefix_refl _

theorem followCname_some {z : Zone} {q : Req} {x : Name} {t : Nat} {st : St} (ha : st.answer = []) (hc : st.chain = 0)
    (hs : (followCname z q st x t).2 ≠ .trunc) : (followCname z q st x t).1.answer ≠ [] := by
  revert hs
  unfold followCname
  simp only
  rw [if_neg (by omega)]
  have hcon : contains { st with chain := st.chain + 1 } x t = false := by
    simp [contains, ha]
  simp only [hcon, Bool.false_eq_true, if_false]
  split
  · intro h; exact absurd rfl h
  · next st1 hst1 =>
    have h1 : st1.answer ≠ [] := by rw [put_answer hst1]; simp
    split
    · split
      · intro _; rw [followEnd_answer]; exact h1
      · split
        · intro h; exact absurd rfl h
        · next st2 hst2 =>
          have h2 : st2.answer ≠ [] := by rw [put_answer hst2]; simp
          split
          · intro _; exact h2
          · intro _; rw [followEnd_answer]; exact h2
    · intro _; rw [followEnd_answer]; exact h1

theorem followCname_miss {z : Zone} {q : Req} {x : Name} {t : Nat} {st : St} : (followCname z q st x t).2 ≠ .miss := by
  rcases followCname_total z q st x t with h | h | ⟨h, _⟩ <;> rw [h] <;> simp

theorem solveName_miss {z : Zone} (wf : Wf z) {q : Req} {n : Name} (hn : z.apex <:+ n) {r : St × State}
    (hr : solveName z q false { name := n } = .ok r) :
    (r.2 = .miss → Lookup z q.type n .nxdomain) ∧ (r.2 = .follow → r.1.answer ≠ []) := by
  unfold solveName at hr
  rcases find_spec wf n with ⟨h1, h2⟩ | ⟨_, h2, h3⟩ | ⟨_, h2, c, h3, h4⟩
  · exact absurd hn h1
  · simp only [h3, Res.bind_ok, Res.ok.injEq] at hr
    rw [← hr]
    unfold nameFound
    simp only
    split
    · simp
    · split
      · exact ⟨fun h => absurd h followCname_miss, fun h => followCname_some rfl rfl (by rw [h]; simp)⟩
      · split
        · constructor <;> intro h <;> simp only at h <;> split at h <;> cases h
        · constructor <;> intro h <;> simp only at h <;> split at h <;> cases h
  · simp only [h4, Res.bind_ok] at hr
    unfold nameNotFound at hr
    simp only at hr
    split at hr
    · simp only [Res.ok.injEq] at hr
      have hst : r.2 = (nameFound z q { name := n } ([42] :: c)).2 ∧ r.1.answer = (nameFound z q { name := n } ([42] :: c)).1.answer := by
        rw [← hr]
        split
        · exact ⟨rfl, rfl⟩
        · exact ⟨rfl, visit_answer _ _ _⟩
      rw [hst.1, hst.2]
      unfold nameFound
      simp only
      split
      · simp
      · split
        · exact ⟨fun h => absurd h followCname_miss, fun h => followCname_some rfl rfl (by rw [h]; simp)⟩
        · split
          · constructor <;> intro h <;> simp only at h <;> split at h <;> cases h
          · constructor <;> intro h <;> simp only at h <;> split at h <;> cases h
    · next hw =>
      split at hr
      · simp only [Res.ok.injEq] at hr
        rw [← hr]
        exact ⟨fun h => absurd h followCname_miss, fun h => followCname_some rfl rfl (by rw [h]; simp)⟩
      · next hd =>
        have hns := source_or h2 h3 hw
        by_cases hcut : ∃ d, Cut z d c
        · obtain ⟨d, hcut⟩ := hcut
          rw [authEncloser_cut wf h3.1 hcut] at hr
          simp only [Res.bind_ok, cut_marked wf hcut, if_true, Res.ok.injEq] at hr
          rw [← hr]; simp
        · have hnc' : ∀ d, ¬ Cut z d c := fun d h => hcut ⟨d, h⟩
          obtain ⟨y, a, b⟩ := authEncloser_none wf h3.1 hnc'
          simp only [a, Res.bind_ok, b, Bool.false_eq_true, if_false, Res.ok.injEq] at hr
          rw [← hr]
          refine ⟨fun _ => .nxdomain hns (fun d h => hnc' d ((cut_encloser h3).mp h)) h3 ?_, by simp⟩
          intro ho
          refine hd ⟨?_, has_iff.mpr ho⟩
          rintro (h | h)
          · obtain ⟨d, a, b, _⟩ := (marks_spec wf h3.1).1.mp h
            obtain ⟨d', hd'⟩ := cut_exists c ⟨d, a, b⟩
            exact hnc' d' hd'
          · exact hnc' c ((deleg_iff_cut wf h3.1).mp h)

end Knot.Answer
