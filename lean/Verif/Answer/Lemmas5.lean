import Verif.Answer.Lemmas4
/-!
# Answers: space, and the end of every query
-/
namespace Knot.Answer
open Dname (Name)

theorem sim_same {q : Req} {r : St × State} (h1 : r.2 ≠ .trunc) (h2 : r.2 ≠ .error) : Sim q r r := .inl ⟨rfl, h1, h2⟩

/-- What is kept from one name to another. -/
def Keeps (q : Req) (st : St) (a b : St × State) : Prop :=
  st.answer <+: b.1.answer ∧ Sim q a b ∧ Fine q a.1.answer

theorem nameFound_sim {z : Zone} {q : Req} {st : St} {x : Name} (hf : Fine q st.answer) :
    Keeps q st (nameFound z q st x) (nameFound z q.unlimited st x) := by
  unfold nameFound Keeps
  simp only
  rw [show q.unlimited.type = q.type from rfl, show q.unlimited.udp = q.udp from rfl]
  by_cases h1 : (((z.node x).deleg = true ∧ q.type ≠ 43) ∨ (z.node x).nonauth = true)
  · rw [if_pos h1, if_pos h1]
    exact ⟨List.prefix_refl _, sim_same (by simp) (by simp), hf⟩
  · rw [if_neg h1, if_neg h1]
    by_cases h2 : (has (z.node x) 5 = true ∧ q.type ≠ 5 ∧ q.type ≠ 46 ∧ q.type ≠ 47 ∧ q.type ≠ 255)
    · rw [if_pos h2, if_pos h2]
      exact followCname_sim (st := { st with node := some x }) hf
    · rw [if_neg h2, if_neg h2]
      unfold putAnswer
      rw [show q.unlimited.type = q.type from rfl]
      cases ht : answerType z q.type x with
      | none =>
        simp only [if_true]
        exact ⟨List.prefix_refl _, sim_same (by simp) (by simp), hf⟩
      | some u =>
        simp only
        generalize hr : Rec.rr (if st.answer = [] then st.name else expand { st with node := some x } x u) x u = r
        obtain ⟨k1, k2⟩ := put_sim (q := q) (st := { st with node := some x }) (r := r)
        have hne : ¬ (st.answer ++ [r]).length = st.answer.length := by simp
        rw [k1]
        simp only [hne, if_false]
        rcases k2 with ⟨k2, k3⟩ | ⟨k2, k3⟩
        · rw [k2]
          refine ⟨List.prefix_append _ _, .inr ⟨?_, r, k3, List.prefix_refl _⟩, hf⟩
          simp only
          cases hud : q.udp <;> simp
        · rw [k2]
          simp only [hne, if_false]
          exact ⟨List.prefix_append _ _, sim_same (by simp) (by simp), fine_snoc hf k3⟩

theorem visit_answer (z : Zone) (st : St) (x : Name) : (visit z st x).answer = st.answer := by
  unfold visit; split <;> rfl

theorem nameNotFound_sim {z : Zone} {q : Req} {st : St} {c : Name} (hf : Fine q st.answer) {a b : St × State}
    (ha : nameNotFound z q st c = .ok a) (hb : nameNotFound z q.unlimited st c = .ok b) : Keeps q st a b := by
  unfold nameNotFound at ha hb
  simp only at ha hb
  by_cases hw : ([42] : Dname.Label) :: c ∈ z.names
  · rw [if_pos hw] at ha hb
    obtain ⟨h1, h2, h3⟩ := nameFound_sim (z := z) (x := [42] :: c) hf
    simp only [Res.ok.injEq] at ha hb
    have ea : a.1.answer = (nameFound z q st ([42] :: c)).1.answer ∧ a.2 = (nameFound z q st ([42] :: c)).2 := by
      rw [← ha]; split
      · exact ⟨rfl, rfl⟩
      · exact ⟨visit_answer _ _ _, rfl⟩
    have eb : b.1.answer = (nameFound z q.unlimited st ([42] :: c)).1.answer := by
      rw [← hb]; split
      · rfl
      · exact visit_answer _ _ _
    refine ⟨by rw [eb]; exact h1, ?_, by rw [ea.1]; exact h3⟩
    rcases h2 with ⟨e, h4, h5⟩ | ⟨h4, x, h5, h6⟩
    · rw [← e] at hb
      rw [ha] at hb
      rw [← hb]
      rw [← e] at h4 h5
      exact sim_same (by rw [ea.2]; exact h4) (by rw [ea.2]; exact h5)
    · refine .inr ⟨by rw [ea.2]; exact h4, x, by rw [ea.1]; exact h5, by rw [ea.1, eb]; exact h6⟩
  · rw [if_neg hw] at ha hb
    by_cases hd : (¬ ((z.node c).nonauth = true ∨ (z.node c).deleg = true) ∧ has (z.node c) 39 = true)
    · rw [if_pos hd] at ha hb
      simp only [Res.ok.injEq] at ha hb
      rw [← ha, ← hb]
      exact followCname_sim (st := { st with node := some c }) hf
    · rw [if_neg hd] at ha hb
      rw [hb] at ha
      have e : a = b := by simpa using ha.symm
      rw [← e] at hb ⊢
      cases hau : authEncloser z c with
      | ub => simp [hau] at hb
      | err => simp [hau] at hb
      | ok d =>
        simp only [hau, Res.bind_ok] at hb
        split at hb
        · simp only [Res.ok.injEq] at hb; rw [← hb]
          exact ⟨List.prefix_refl _, sim_same (by simp) (by simp), hf⟩
        · simp only [Res.ok.injEq] at hb; rw [← hb]
          exact ⟨List.prefix_refl _, sim_same (by simp) (by simp), hf⟩

theorem solveName_sim {z : Zone} {q : Req} {st : St} {fl : Bool} (hf : Fine q st.answer) {a b : St × State}
    (ha : solveName z q fl st = .ok a) (hb : solveName z q.unlimited fl st = .ok b) : Keeps q st a b := by
  unfold solveName at ha hb
  cases hfd : findDname z st.name with
  | ub => simp [hfd] at ha
  | err => simp [hfd] at ha
  | ok f =>
    simp only [hfd, Res.bind_ok] at ha hb
    cases f with
    | out =>
      simp only at ha hb
      split at ha
      · next h =>
        rw [if_pos h] at hb
        simp only [Res.ok.injEq] at ha hb
        rw [← ha, ← hb]
        exact ⟨List.prefix_refl _, sim_same (by simp) (by simp), hf⟩
      · simp at ha
    | found x =>
      simp only [Res.ok.injEq] at ha hb
      rw [← ha, ← hb]
      exact nameFound_sim hf
    | notFound c => exact nameNotFound_sim hf ha hb

theorem solveLoop_sim {z : Zone} {q : Req} : ∀ (fuel : Nat) (a b a' b' : St × State), Sim q a b → Fine q a.1.answer →
    solveLoop z q fuel a = .ok a' → solveLoop z q.unlimited fuel b = .ok b' →
    b.1.answer <+: b'.1.answer ∧ Sim q a' b' ∧ Fine q a'.1.answer := by
  intro fuel
  have grow : ∀ (fuel : Nat) (b b' : St × State), solveLoop z q.unlimited fuel b = .ok b' →
      b.1.answer <+: b'.1.answer := by
    intro fuel
    induction fuel with
    | zero => intro b b' h; simp [solveLoop] at h
    | succ fuel ih =>
      intro b b' h
      unfold solveLoop at h
      split at h
      · cases hs : solveName z q.unlimited true b.1 with
        | ub => simp [hs] at h
        | err => simp [hs] at h
        | ok c =>
          simp only [hs, Res.bind_ok] at h
          have : Keeps q.unlimited b.1 c c := solveName_sim (fl := true) (fun _ _ _ => rfl) hs hs
          exact this.1.trans (ih c b' h)
      · simp only [Res.ok.injEq] at h; rw [h]; exact List.prefix_refl _
  induction fuel with
  | zero => intro a b a' b' _ _ h; simp [solveLoop] at h
  | succ fuel ih =>
    intro a b a' b' hs hf ha hb
    refine ⟨grow _ _ _ hb, ?_⟩
    rcases hs with ⟨e, h1, h2⟩ | ⟨h1, x, h2, h3⟩
    · unfold solveLoop at ha hb
      rw [← e] at hb
      by_cases hfo : a.2 = .follow
      · rw [if_pos hfo] at ha hb
        cases hs1 : solveName z q true a.1 with
        | ub => simp [hs1] at ha
        | err => simp [hs1] at ha
        | ok c =>
          cases hs2 : solveName z q.unlimited true a.1 with
          | ub => simp [hs2] at hb
          | err => simp [hs2] at hb
          | ok d =>
            simp only [hs1, hs2, Res.bind_ok] at ha hb
            obtain ⟨k1, k2, k3⟩ := solveName_sim hf hs1 hs2
            exact (ih c d a' b' k2 k3 ha hb).2
      · rw [if_neg hfo] at ha hb
        simp only [Res.ok.injEq] at ha hb
        rw [← ha, ← hb]
        rw [← e] at h1 h2
        exact ⟨sim_same h1 h2, hf⟩
    · have hne : a.2 ≠ .follow := by
        intro e
        rcases h1 with h | ⟨h, _⟩ <;> rw [h] at e <;> cases e
      unfold solveLoop at ha
      rw [if_neg hne] at ha
      simp only [Res.ok.injEq] at ha
      rw [← ha]
      exact ⟨.inr ⟨h1, x, h2, h3.trans (grow _ _ _ hb)⟩, hf⟩

/-! ## The end -/

theorem followCname_total (z : Zone) (q : Req) (st : St) (x : Name) (t : Nat) :
    ((followCname z q st x t).2 = .hit ∨ (followCname z q st x t).2 = .trunc ∨
      (followCname z q st x t).2 = .follow ∧ (followCname z q st x t).1.chain = st.chain + 1 ∧ st.chain < 5) := by
  unfold followCname
  simp only
  split
  · simp
  · next h5 =>
    have hfe : ∀ (s1 : St) k n y, s1.chain = st.chain + 1 → ((followEnd z s1 k n y).2 = .hit ∨ (followEnd z s1 k n y).2 = .trunc ∨
        (followEnd z s1 k n y).2 = .follow ∧ (followEnd z s1 k n y).1.chain = st.chain + 1 ∧ st.chain < 5) := by
      intro s1 k n y hs
      obtain ⟨h1 | h1, h2⟩ := followEnd_state z s1 k n y
      · exact .inl h1
      · exact .inr (.inr ⟨h1, by rw [h2, hs], by omega⟩)
    have hput : ∀ s1 r s2, put q s1 r = some s2 → s2.chain = s1.chain := by
      intro s1 r s2 h
      unfold put at h
      split at h
      · simp only [Option.some.injEq] at h; rw [← h]
      · cases h
    split
    · simp
    · next st1 hst1 =>
      have hc1 : st1.chain = st.chain + 1 := by
        split at hst1
        · simp only [Option.some.injEq] at hst1; rw [← hst1]
        · rw [hput _ _ _ hst1]
      split
      · split
        · exact hfe _ _ _ _ hc1
        · split
          · simp
          · next st2 hst2 =>
            split
            · simp
            · exact hfe _ _ _ _ (by rw [hput _ _ _ hst2]; exact hc1)
      · exact hfe _ _ _ _ hc1

theorem visit_node (z : Zone) (st : St) (x : Name) : (visit z st x).node = st.node ∧ (visit z st x).chain = st.chain := by
  unfold visit; split <;> simp

def Good (z : Zone) (st : St) (r : St × State) : Prop :=
  (r.2 = .follow → r.1.chain = st.chain + 1 ∧ st.chain < 5) ∧
  (r.2 = .deleg → ∃ x d, r.1.node = some x ∧ delegation z x = .ok d)

theorem nameFound_total {z : Zone} (wf : Wf z) (q : Req) (st : St) {x : Name} (hx : x ∈ z.names) :
    Good z st (nameFound z q st x) := by
  unfold nameFound
  simp only
  split
  · next h =>
    obtain ⟨d, hd, _⟩ := (refer_iff wf hx q.type).mp h
    exact ⟨by simp, fun _ => ⟨x, d, rfl, delegation_spec wf hx hd⟩⟩
  · split
    · rcases followCname_total z q { st with node := some x } x 5 with h | h | ⟨h, h2⟩
      · exact ⟨by simp [h], by simp [h]⟩
      · exact ⟨by simp [h], by simp [h]⟩
      · exact ⟨fun _ => h2, by simp [h]⟩
    · split
      · constructor <;> (simp only; split <;> simp)
      · constructor <;> (simp only; split <;> simp)

theorem nameNotFound_total {z : Zone} (wf : Wf z) (q : Req) (st : St) {c : Name} (hc : c ∈ z.names) :
    ∃ r, nameNotFound z q st c = .ok r ∧ Good z st r := by
  unfold nameNotFound
  simp only
  split
  · next hw =>
    have := nameFound_total wf q st hw
    refine ⟨_, rfl, ?_⟩
    split
    · exact this
    · obtain ⟨h1, h2⟩ := this
      refine ⟨?_, ?_⟩
      · simp only [(visit_node _ _ _).2]; exact h1
      · simp only [(visit_node _ _ _).1]; exact h2
  · split
    · rcases followCname_total z q { st with node := some c } c 39 with h | h | ⟨h, h2⟩
      · exact ⟨_, rfl, by simp [h], by simp [h]⟩
      · exact ⟨_, rfl, by simp [h], by simp [h]⟩
      · exact ⟨_, rfl, fun _ => h2, by simp [h]⟩
    · by_cases hcut : ∃ d, Cut z d c
      · obtain ⟨d, hd⟩ := hcut
        have hm := cut_marked wf hd
        rw [authEncloser_cut wf hc hd]
        refine ⟨({ st with node := some d }, .deleg), by simp [hm], by simp, fun _ => ⟨d, d, rfl, ?_⟩⟩
        exact delegation_spec wf hd.1.1 ((deleg_iff_cut wf hd.1.1).mp hm)
      · obtain ⟨y, h1, h2⟩ := authEncloser_none wf hc (fun d h => hcut ⟨d, h⟩)
        rw [h1]
        exact ⟨({ st with node := none }, .miss), by simp [h2], by simp, by simp⟩

theorem solveName_total {z : Zone} (wf : Wf z) (q : Req) (st : St) {fl : Bool} (hfl : fl = false → z.apex <:+ st.name) :
    ∃ r, solveName z q fl st = .ok r ∧ Good z st r := by
  unfold solveName
  rcases find_spec wf st.name with ⟨h1, h2⟩ | ⟨h1, h2, h3⟩ | ⟨h1, h2, c, h3, h4⟩
  · rw [h2]
    cases e : fl with
    | true => exact ⟨(st, .hit), by simp, by simp, by simp⟩
    | false => exact absurd (hfl e) h1
  · rw [h3]
    exact ⟨_, by simp, nameFound_total wf q st h2⟩
  · rw [h4]
    obtain ⟨r, a, b⟩ := nameNotFound_total wf q st h3.1
    exact ⟨r, by simpa using a, b⟩

theorem solveLoop_total {z : Zone} (wf : Wf z) (q : Req) : ∀ (fuel : Nat) (st0 : St) (r : St × State), Good z st0 r →
    6 ≤ fuel + st0.chain → 1 ≤ fuel → ∃ r', solveLoop z q fuel r = .ok r' ∧ r'.2 ≠ .follow ∧
      (r'.2 = .deleg → ∃ x d, r'.1.node = some x ∧ delegation z x = .ok d) := by
  intro fuel
  induction fuel with
  | zero => intro _ _ _ _ h; omega
  | succ fuel ih =>
    intro st0 r hg hl _
    unfold solveLoop
    by_cases hf : r.2 = .follow
    · rw [if_pos hf]
      obtain ⟨h1, h2⟩ := hg.1 hf
      obtain ⟨r1, h3, h4⟩ := solveName_total wf q r.1 (fl := true) (by simp)
      rw [h3]
      exact ih r.1 r1 h4 (by omega) (by omega)
    · rw [if_neg hf]
      exact ⟨r, rfl, hf, hg.2⟩

theorem answer_total {z : Zone} (wf : Wf z) (q : Req) {n : Name} (hn : z.apex <:+ n) :
    ∃ st st', solveName z q false { name := n } = .ok st ∧ solveLoop z q 7 st = .ok st' ∧ st'.2 ≠ .follow ∧
      ∃ r, answer z q n = .ok r := by
  obtain ⟨r, h1, h2⟩ := solveName_total wf q { name := n } (fl := false) (fun _ => hn)
  obtain ⟨r', h3, h4, h5⟩ := solveLoop_total wf q 7 { name := n } r h2 (by omega) (by omega)
  refine ⟨r, r', h1, h3, h4, ?_⟩
  unfold answer
  simp only [h1, h3, Res.bind_ok]
  cases hs : r'.2 with
  | follow => exact absurd hs h4
  | deleg =>
    obtain ⟨x, d, e1, e2⟩ := h5 hs
    simp [e1, e2]
  | _ => exact ⟨_, rfl⟩

theorem answer_space {z : Zone} (wf : Wf z) (q : Req) {n : Name} (hn : z.apex <:+ n) :
    ∃ r r', answer z q n = .ok r ∧ answer z q.unlimited n = .ok r' ∧ Fine q r.answer ∧ r'.state ≠ .trunc ∧ r'.state ≠ .error ∧
      (r = r' ∨ ∃ p x, q.fits (p ++ [x]) = false ∧ p ++ [x] <+: r'.answer ∧ r.authority = none ∧
        (r.state = .trunc ∧ r.rcode = 0 ∧ r.answer = p ∨ r.state = .error ∧ q.udp = false ∧ r.rcode ≠ 0 ∧ r.answer = [])) := by
  obtain ⟨a, a', h1, h2, h3, r, h4⟩ := answer_total wf q hn
  obtain ⟨b, b', g1, g2, g3, r', g4⟩ := answer_total wf q.unlimited hn
  obtain ⟨k1, k2, k3⟩ := solveName_sim (q := q) (st := { name := n }) (fun p hp hne => by
    rw [List.prefix_nil] at hp; exact absurd hp hne) h1 g1
  obtain ⟨m1, m2, m3⟩ := solveLoop_sim 7 a b a' b' k2 k3 h2 g2
  have same : b'.1 = a'.1 → b'.2 = a'.2 → (a.2 = .deleg ↔ b.2 = .deleg) → r = r' := by
    intro e1 e2 e3
    have e : b' = a' := Prod.ext e1 e2
    have e4 : decide (a.2 ≠ .deleg) = decide (b.2 ≠ .deleg) := by simp [e3]
    unfold answer at h4 g4
    simp only [h1, h2, g1, g2, Res.bind_ok, e, e4] at h4 g4
    rw [h4] at g4
    simpa using g4
  have hbn : b'.2 ≠ .trunc ∧ b'.2 ≠ .error := by
    have hs : Sim q.unlimited b' b' := by
      have := solveLoop_sim (q := q.unlimited) 7 b b b' b'
        (solveName_sim (q := q.unlimited) (fun _ _ _ => rfl) g1 g1).2.1 (fun _ _ _ => rfl) g2 g2
      exact this.2.1
    rcases hs with ⟨_, x, y⟩ | ⟨_, x, y, _⟩
    · exact ⟨x, y⟩
    · cases y
  have hstate : r'.state = b'.2 := by
    unfold answer at g4
    simp only [g1, g2, Res.bind_ok] at g4
    split at g4
    · next e => simp only [Res.ok.injEq] at g4; rw [← g4, e]
    · next e => simp only [Res.ok.injEq] at g4; rw [← g4, e]
    · next e =>
      split at g4
      · cases g4
      · next x _ =>
        cases hd : delegation z x with
        | ok d => simp only [hd, Res.bind_ok, Res.ok.injEq] at g4; rw [← g4, e]
        | ub => simp [hd] at g4
        | err => simp [hd] at g4
    · next e => exact absurd e hbn.1
    · next e => exact absurd e hbn.2
    · next e => simp only [Res.ok.injEq] at g4; rw [← g4]
  have hans : ∀ {q' : Req} {c c' : St × State} {r : Resp}, solveName z q' false { name := n } = .ok c →
      solveLoop z q' 7 c = .ok c' → answer z q' n = .ok r → (c'.2 = .error → r.answer = []) ∧ (c'.2 ≠ .error → r.answer = c'.1.answer) := by
    intro q' c c' r e1 e2 e3
    unfold answer at e3
    simp only [e1, e2, Res.bind_ok] at e3
    split at e3
    · next e => simp only [Res.ok.injEq] at e3; rw [← e3]; simp [e]
    · next e => simp only [Res.ok.injEq] at e3; rw [← e3]; simp [e]
    · next e =>
      split at e3
      · cases e3
      · next x _ =>
        cases hd : delegation z x with
        | ok d => simp only [hd, Res.bind_ok, Res.ok.injEq] at e3; rw [← e3]; simp [e]
        | ub => simp [hd] at e3
        | err => simp [hd] at e3
    · next e => simp only [Res.ok.injEq] at e3; rw [← e3]; simp [e]
    · next e => simp only [Res.ok.injEq] at e3; rw [← e3]; simp [e]
    · next e => simp only [Res.ok.injEq] at e3; rw [← e3]; exact ⟨fun h => absurd h e, fun _ => rfl⟩
  have hfine : Fine q r.answer := by
    obtain ⟨x, y⟩ := hans h1 h2 h4
    by_cases e : a'.2 = .error
    · rw [x e]; intro p hp hne
      rw [List.prefix_nil] at hp; exact absurd hp hne
    · rw [y e]; exact m3
  refine ⟨r, r', h4, g4, hfine, by rw [hstate]; exact hbn.1, by rw [hstate]; exact hbn.2, ?_⟩
  rcases m2 with ⟨e, _, _⟩ | ⟨h5, x, h6, h7⟩
  · left
    refine same (by rw [e]) (by rw [e]) ?_
    rcases k2 with ⟨e', _, _⟩ | ⟨h5, _⟩
    · rw [e']
    · -- a cut start stays cut
      exfalso
      have hne : a.2 ≠ .follow := by
        intro e
        rcases h5 with h | ⟨h, _⟩ <;> rw [h] at e <;> cases e
      unfold solveLoop at h2
      rw [if_neg hne] at h2
      simp only [Res.ok.injEq] at h2
      rw [← h2] at e
      rcases h5 with h | ⟨h, _⟩
      · exact hbn.1 (by rw [← e]; exact h)
      · exact hbn.2 (by rw [← e]; exact h)
  · right
    have hb' := (hans g1 g2 g4).2 hbn.2
    refine ⟨a'.1.answer, x, h6, by rw [hb']; exact h7, ?_⟩
    unfold answer at h4
    simp only [h1, h2, Res.bind_ok] at h4
    rcases h5 with e | ⟨e, hud⟩
    · simp only [e, Res.ok.injEq] at h4
      rw [← h4]; simp
    · simp only [e, Res.ok.injEq] at h4
      rw [← h4]
      refine ⟨rfl, .inr ⟨rfl, hud, ?_, rfl⟩⟩
      simp only
      split
      · decide
      · assumption

end Knot.Answer
