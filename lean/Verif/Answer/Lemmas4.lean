import Verif.Answer.Lemmas3
/-!
# Answers: space, and the end of every query
-/
namespace Knot.Answer
open Dname (Name)

/-- The request without a limit of space. -/
def Req.unlimited (q : Req) : Req := { q with fits := fun _ => true }

theorem unlimited_spec (q : Req) : Unlimited q.unlimited := fun _ => rfl

/-- With less space the result is the same, or the answer is cut before a record that does not fit. -/
def Sim (q : Req) (a b : St × State) : Prop :=
  (a = b ∧ b.2 ≠ .trunc ∧ b.2 ≠ .error) ∨
  ((a.2 = .trunc ∨ a.2 = .error ∧ q.udp = false) ∧ ∃ x, q.fits (a.1.answer ++ [x]) = false ∧
    a.1.answer ++ [x] <+: b.1.answer)

/-- All that is written fits. -/
def Fine (q : Req) (l : List Rec) : Prop := ∀ p, p <+: l → p ≠ [] → q.fits p = true

theorem followEnd_answer (z : Zone) (st : St) (k : Nat) (x y : Name) : (followEnd z st k x y).1.answer = st.answer := by
  unfold followEnd visit
  split
  · rfl
  · split
    · split <;> split <;> rfl
    · rfl

theorem followEnd_state (z : Zone) (st : St) (k : Nat) (x y : Name) :
    ((followEnd z st k x y).2 = .hit ∨ (followEnd z st k x y).2 = .follow) ∧ (followEnd z st k x y).1.chain = st.chain := by
  unfold followEnd visit
  split
  · simp
  · split
    · split <;> split <;> simp
    · simp

theorem fine_snoc {q : Req} {l : List Rec} {r : Rec} (h : Fine q l) (hf : q.fits (l ++ [r]) = true) : Fine q (l ++ [r]) := by
  intro p hp hne
  obtain ⟨t, ht⟩ := hp
  rcases List.eq_nil_or_concat t with e | ⟨t', y, e⟩
  · rw [e, List.append_nil] at ht; rw [ht]; exact hf
  · rw [e, List.concat_eq_append, ← List.append_assoc] at ht
    obtain ⟨e1, _⟩ := List.append_inj' ht rfl
    exact h p ⟨t', e1⟩ hne

theorem put_sim {q : Req} {st : St} {r : Rec} :
    put q.unlimited st r = some { st with answer := st.answer ++ [r] } ∧
    (put q st r = none ∧ q.fits (st.answer ++ [r]) = false ∨
     put q st r = some { st with answer := st.answer ++ [r] } ∧ q.fits (st.answer ++ [r]) = true) := by
  unfold put Req.unlimited
  cases h : q.fits (st.answer ++ [r]) <;> simp

theorem followCname_sim {z : Zone} {q : Req} {st : St} {x : Name} {t : Nat} (hf : Fine q st.answer) :
    st.answer <+: (followCname z q.unlimited st x t).1.answer ∧
    Sim q (followCname z q st x t) (followCname z q.unlimited st x t) ∧
    Fine q (followCname z q st x t).1.answer := by
  unfold followCname
  simp only
  by_cases h5 : st.chain + 1 > 5
  · rw [if_pos h5, if_pos h5]
    exact ⟨List.prefix_refl _, .inl ⟨rfl, by simp, by simp⟩, hf⟩
  · rw [if_neg h5, if_neg h5]
    -- after the record itself
    have key : ∀ st1 : St, st.answer <+: st1.answer → Fine q st1.answer →
        st.answer <+: (if t = 39 then
          if cannotSynth x (z.target x t) st.name = true then
            followEnd z { st1 with rcode := 6 } st.answer.length x (z.target x t)
          else match put q.unlimited st1 (.synth st.name (synthName x (z.target x t) st.name)) with
            | none => (st1, .trunc)
            | some st2 => if q.type = 5 then (st2, .hit)
              else followEnd z st2 st.answer.length x (synthName x (z.target x t) st.name)
          else followEnd z st1 st.answer.length x (z.target x t)).1.answer ∧
        st1.answer <+: (if t = 39 then
          if cannotSynth x (z.target x t) st.name = true then
            followEnd z { st1 with rcode := 6 } st.answer.length x (z.target x t)
          else match put q.unlimited st1 (.synth st.name (synthName x (z.target x t) st.name)) with
            | none => (st1, .trunc)
            | some st2 => if q.type = 5 then (st2, .hit)
              else followEnd z st2 st.answer.length x (synthName x (z.target x t) st.name)
          else followEnd z st1 st.answer.length x (z.target x t)).1.answer ∧
        Sim q (if t = 39 then
          if cannotSynth x (z.target x t) st.name = true then
            followEnd z { st1 with rcode := 6 } st.answer.length x (z.target x t)
          else match put q st1 (.synth st.name (synthName x (z.target x t) st.name)) with
            | none => (st1, .trunc)
            | some st2 => if q.type = 5 then (st2, .hit)
              else followEnd z st2 st.answer.length x (synthName x (z.target x t) st.name)
          else followEnd z st1 st.answer.length x (z.target x t))
          (if t = 39 then
          if cannotSynth x (z.target x t) st.name = true then
            followEnd z { st1 with rcode := 6 } st.answer.length x (z.target x t)
          else match put q.unlimited st1 (.synth st.name (synthName x (z.target x t) st.name)) with
            | none => (st1, .trunc)
            | some st2 => if q.type = 5 then (st2, .hit)
              else followEnd z st2 st.answer.length x (synthName x (z.target x t) st.name)
          else followEnd z st1 st.answer.length x (z.target x t)) ∧
        Fine q (if t = 39 then
          if cannotSynth x (z.target x t) st.name = true then
            followEnd z { st1 with rcode := 6 } st.answer.length x (z.target x t)
          else match put q st1 (.synth st.name (synthName x (z.target x t) st.name)) with
            | none => (st1, .trunc)
            | some st2 => if q.type = 5 then (st2, .hit)
              else followEnd z st2 st.answer.length x (synthName x (z.target x t) st.name)
          else followEnd z st1 st.answer.length x (z.target x t)).1.answer := by
      intro st1 hp hf1
      have same : ∀ r : St × State, (r.2 = .hit ∨ r.2 = .follow) → Sim q r r := by
        intro r h
        refine .inl ⟨rfl, ?_, ?_⟩ <;> rcases h with h | h <;> rw [h] <;> simp
      by_cases ht : t = 39
      · simp only [ht, if_true]
        by_cases hc : cannotSynth x (z.target x 39) st.name = true
        · simp only [hc, if_true, followEnd_answer]
          exact ⟨hp, List.prefix_refl _, same _ (followEnd_state _ _ _ _ _).1, hf1⟩
        · simp only [hc]
          obtain ⟨h1, h2⟩ := put_sim (q := q) (st := st1) (r := .synth st.name (synthName x (z.target x 39) st.name))
          rw [h1]
          have hbig : st1.answer ++ [.synth st.name (synthName x (z.target x 39) st.name)] =
              (if q.type = 5 then ({ st1 with answer := st1.answer ++ [.synth st.name (synthName x (z.target x 39) st.name)] }, .hit)
               else followEnd z { st1 with answer := st1.answer ++ [.synth st.name (synthName x (z.target x 39) st.name)] }
                st.answer.length x (synthName x (z.target x 39) st.name)).1.answer := by
            split
            · rfl
            · rw [followEnd_answer]
          have hst : ∀ s2 : St, ((if q.type = 5 then (s2, State.hit) else
              followEnd z s2 st.answer.length x (synthName x (z.target x 39) st.name)).2 = .hit ∨
              (if q.type = 5 then (s2, State.hit) else
              followEnd z s2 st.answer.length x (synthName x (z.target x 39) st.name)).2 = .follow) := by
            intro s2
            split
            · exact .inl rfl
            · exact (followEnd_state _ _ _ _ _).1
          simp only [Bool.false_eq_true, if_false]
          refine ⟨?_, ?_, ?_, ?_⟩
          · rw [← hbig]; exact hp.trans (List.prefix_append _ _)
          · rw [← hbig]; exact List.prefix_append _ _
          · rcases h2 with ⟨h2, h3⟩ | ⟨h2, h3⟩
            · rw [h2]
              refine .inr ⟨.inl rfl, _, h3, ?_⟩
              rw [← hbig]; exact List.prefix_refl _
            · rw [h2]; exact same _ (hst _)
          · rcases h2 with ⟨h2, h3⟩ | ⟨h2, h3⟩
            · rw [h2]; exact hf1
            · rw [h2]
              simp only
              rw [← hbig]; exact fine_snoc hf1 h3
      · simp only [ht, if_false, followEnd_answer]
        exact ⟨hp, List.prefix_refl _, same _ (followEnd_state _ _ _ _ _).1, hf1⟩
    by_cases hc : contains { st with chain := st.chain + 1 } x t = true
    · simp only [hc, if_true]
      obtain ⟨k1, _, k3, k4⟩ := key { st with chain := st.chain + 1 } (List.prefix_refl _) hf
      exact ⟨k1, k3, k4⟩
    · simp only [hc]
      obtain ⟨h1, h2⟩ := put_sim (q := q) (st := { st with chain := st.chain + 1 })
        (r := .rr (expand { st with chain := st.chain + 1 } x t) x t)
      simp only [Bool.false_eq_true, if_false]
      rw [h1]
      rcases h2 with ⟨h2, h3⟩ | ⟨h2, h3⟩
      · rw [h2]
        simp only
        refine ⟨?_, .inr ⟨.inl rfl, .rr (expand { st with chain := st.chain + 1 } x t) x t, h3, ?_⟩, hf⟩
        all_goals
          have hans : ∀ (st1 : St), st1.answer <+: (if t = 39 then
            if cannotSynth x (z.target x t) st.name = true then
              followEnd z { st1 with rcode := 6 } st.answer.length x (z.target x t)
            else match put q.unlimited st1 (.synth st.name (synthName x (z.target x t) st.name)) with
              | none => (st1, .trunc)
              | some st2 => if q.unlimited.type = 5 then (st2, .hit)
                else followEnd z st2 st.answer.length x (synthName x (z.target x t) st.name)
            else followEnd z st1 st.answer.length x (z.target x t)).1.answer := by
            intro st1
            by_cases ht : t = 39
            · simp only [ht, if_true]
              by_cases hc : cannotSynth x (z.target x 39) st.name = true
              · simp [hc, followEnd_answer]
              · simp only [hc, Bool.false_eq_true, if_false]
                rw [(put_sim (q := q) (st := st1)).1]
                simp only
                split
                · exact List.prefix_append _ _
                · rw [followEnd_answer]; exact List.prefix_append _ _
            · simp [ht, followEnd_answer]
        · exact List.IsPrefix.trans (List.prefix_append _ _)
            (hans { st with chain := st.chain + 1, answer := st.answer ++ [.rr (expand { st with chain := st.chain + 1 } x t) x t] })
        · exact hans { st with chain := st.chain + 1, answer := st.answer ++ [.rr (expand { st with chain := st.chain + 1 } x t) x t] }
      · rw [h2]
        obtain ⟨k1, _, k3, k4⟩ := key
          { st with chain := st.chain + 1, answer := st.answer ++ [.rr (expand { st with chain := st.chain + 1 } x t) x t] }
          (List.prefix_append _ _) (fine_snoc hf h3)
        exact ⟨k1, k3, k4⟩

end Knot.Answer
