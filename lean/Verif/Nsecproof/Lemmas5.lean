import Verif.Nsecproof.Lemmas4
/-!
# NSEC proofs: the chain of links
-/
namespace Knot.Nsecproof
open Dname (Name canonCmp lowerName)
open Nsecchain (Included present lastIn noNsec)
open Answer

/-- The wildcards of the links are visited; a wildcard is visited for a name that does not exist, or for itself. -/
structure Trail (z : Zone) (t : Nat) (n : Name) (ls : List Link) (st : St) : Prop where
  seen : ∀ l ∈ ls, l.type = 5 → Wild l.source → (l.source, l.owner) ∈ st.wild
  items : ∀ w ∈ st.wild, z.apex <:+ w.2 ∧ (w.2 ∈ z.names → w.1 = w.2) ∧
    (Source z w.1 w.2 ∨ Lookup z t w.2 (.dname w.1)) ∧ ∃ ls', Path z t n ls' w.2

/-- After the last name. -/
structure Fin (z : Zone) (q : Req) (n : Name) (ls : List Link) (m : Name) (st : St) (σ : State) : Prop where
  spec : StepSpec z q ls m st σ
  trail : Trail z q.type n ls st
  name : σ ≠ .follow → st.name = m
  alias : ∀ s, Lookup z q.type m (.alias s) → Wild s → ls.length < 5 → (s, m) ∈ st.wild
  last : ∀ s, Source z s m → s ≠ m → (z.node s).nonauth = false → (s, m) ∈ st.wild ∨ ∃ l ∈ ls, l.source = s
  node : σ = .nodata → ∃ s, st.node = some s ∧ Source z s m

theorem source_wild {z : Zone} {s m : Name} (h : Source z s m) (hne : s ≠ m) : Wild s := by
  rcases h.2 with e | ⟨_, c, _, e⟩
  · exact absurd e hne
  · exact ⟨c, e⟩

theorem solveName_fin {z : Zone} (wf : Wf z) {q : Req} (hu : Unlimited q) {ls : List Link} {m : Name} {st : St} {fl : Bool}
    (inv : Inv ls m st) {n : Name} (hp : Path z q.type n ls m) (tr : Trail z q.type n ls st) (hfl : fl = false → z.apex <:+ m)
    (hreg : ∀ s, ls ≠ [] → s ≠ m → ¬ Lookup z q.type m (.data s 39))
    (hlong : ∀ c, Lookup z q.type m (.dname c) → Fits (subst c (z.target c 39) m)) :
    ∃ st' σ, solveName z q fl st = .ok (st', σ) ∧ Fin z q n ls m st' σ := by
  obtain ⟨st', σ, h1, h2⟩ := solveName_spec (fl := fl) wf hu inv hfl hreg hlong
  have k := solveName_keeps wf hu h1
  refine ⟨st', σ, h1, h2, ⟨fun l hl h5 hw => k.mono _ (tr.seen l hl h5 hw), fun w hw => ?_⟩, fun hs => ?_, fun s h hw hl => ?_,
    fun s h hne hna => ?_, fun hs => ?_⟩
  · rcases k.new w hw with h | ⟨a, b, c, d⟩
    · exact tr.items w h
    · rw [a]; exact ⟨b, c, d, ls, by rw [inv.name]; exact hp⟩
  · rw [← inv.name]; exact k.name hs
  · have := k.alias s (by rw [inv.name]; exact h) hw (by rw [inv.chain]; exact hl)
    rwa [inv.name] at this
  · rcases k.source s (by rw [inv.name]; exact h) (by rw [inv.name]; exact hne) hna with h' | ⟨h', h''⟩
    · rw [inv.name] at h'; exact .inl h'
    · by_cases hv : visited st s = true
      · exact .inr ((inv.visited s).mp hv).2
      · obtain ⟨n, hn⟩ := visited_iff.mp h'
        rcases k.new _ hn with h' | ⟨a, b, c⟩
        · exact absurd (visited_iff.mpr ⟨n, h'⟩) hv
        · simp only [inv.name] at a
          rw [a] at hn
          exact .inl hn
  · obtain ⟨s, a, b⟩ := k.node hs
    rw [inv.name] at b
    exact ⟨s, a, b⟩

theorem solveLoop_fin {z : Zone} (wf : Wf z) {q : Req} (hu : Unlimited q) {n : Name}
    (hreg : ∀ ls m, Path z q.type n ls m → ∀ s, ls ≠ [] → s ≠ m → ¬ Lookup z q.type m (.data s 39))
    (hlong : ∀ ls m, Path z q.type n ls m → ∀ c, Lookup z q.type m (.dname c) → Fits (subst c (z.target c 39) m)) :
    ∀ (fuel : Nat) (ls : List Link) (m : Name) (st : St) (σ : State), 7 ≤ fuel + ls.length → Path z q.type n ls m →
      Fresh q.type ls → ls.length ≤ 5 → Fin z q n ls m st σ →
      ∃ ls' m' st' σ', solveLoop z q fuel (st, σ) = .ok (st', σ') ∧ Path z q.type n ls' m' ∧ Fresh q.type ls' ∧
        ls'.length ≤ 5 ∧ Fin z q n ls' m' st' σ' ∧ σ' ≠ .follow ∧ (σ = .follow → ls' ≠ []) ∧
        (σ ≠ .follow → ls' = ls ∧ σ' = σ) := by
  intro fuel
  induction fuel with
  | zero => intro ls m st σ h1 _ _ h4; omega
  | succ fuel ih =>
    intro ls m st σ h1 h2 h3 h4 h5
    unfold solveLoop
    by_cases he : σ = .follow
    · rw [if_pos he]
      rcases h5.spec with ⟨_, l, a1, a2, a3, a4, a5, a6⟩ | h5 | h5 | h5 | h5
      · have hp := path_snoc h2 a1 a2
        have tr : Trail z q.type n (ls ++ [l]) st := by
          refine ⟨fun x hx h5x hwx => ?_, h5.trail.items⟩
          rcases List.mem_append.mp hx with hx | hx
          · exact h5.trail.seen x hx h5x hwx
          · simp only [List.mem_singleton] at hx
            subst hx
            have hal : Lookup z q.type m (.alias x.source) := by
              cases a1 with
              | cname h => simp only at a2; exact a2 ▸ h
              | dname h => simp at h5x
            rw [a2]
            exact h5.alias x.source hal hwx a4
        obtain ⟨st', σ', b1, b2⟩ := solveName_fin (fl := true) wf hu a6 hp tr (by simp) (hreg _ _ hp) (hlong _ _ hp)
        obtain ⟨ls', m', st2, σ2, c1, c2, c3, c4, c5, c6, c7, c8⟩ :=
          ih (ls ++ [l]) l.next st' σ' (by simp; omega) hp (fresh_snoc h3 a3 a5) (by simp; omega) b2
        refine ⟨ls', m', st2, σ2, by simpa [b1] using c1, c2, c3, c4, c5, c6, fun _ => ?_, fun h => absurd he h⟩
        by_cases hf : σ' = .follow
        · exact c7 hf
        · rw [(c8 hf).1]; simp
      all_goals
        rw [h5.1] at he; cases he
    · rw [if_neg he]
      exact ⟨ls, m, st, σ, rfl, h2, h3, h4, h5, he, fun h => absurd h he, fun _ => ⟨rfl, rfl⟩⟩

/-- The whole search. -/
theorem solve_fin {z : Zone} (wf : Wf z) {q : Req} (hu : Unlimited q) {n : Name} (hn : z.apex <:+ n)
    (hreg : ∀ ls m, Path z q.type n ls m → ∀ s, ls ≠ [] → s ≠ m → ¬ Lookup z q.type m (.data s 39))
    (hlong : ∀ ls m, Path z q.type n ls m → ∀ c, Lookup z q.type m (.dname c) → Fits (subst c (z.target c 39) m)) :
    ∃ ls m st σ r, (∃ r0, solveName z q false { name := n } = .ok r0 ∧ solveLoop z q 7 r0 = .ok (st, σ)) ∧ denial z q n = (do
        let d ← prove z (st, σ)
        let l ← wildcards z st.answer st.wild d.nsec
        .ok ⟨l, d.ds⟩) ∧ answer z q n = .ok r ∧
      Path z q.type n ls m ∧ Fresh q.type ls ∧ ls.length ≤ 5 ∧ Fin z q n ls m st σ ∧
      r.answer = st.answer ∧ r.state = σ ∧ Ends z q.type ls m r.answer r.state r.rcode r.authority ∧
      (r.aa = false ↔ ls = [] ∧ r.state = .deleg) := by
  have inv0 : Inv [] n { name := n } :=
    ⟨rfl, rfl, rfl, rfl, fun x => by simp [visited], fun l h => by simp at h, by simp⟩
  have tr0 : Trail z q.type n [] { name := n } := ⟨by simp, by simp⟩
  have hp0 : Path z q.type n [] n := rfl
  obtain ⟨st, σ, h1, h2⟩ := solveName_fin (fl := false) wf hu inv0 hp0 tr0 (fun _ => hn) (hreg _ _ hp0) (hlong _ _ hp0)
  obtain ⟨ls, m, st', σ', c1, c2, c3, c4, c5, c6, c7, c8⟩ :=
    solveLoop_fin wf hu hreg hlong 7 [] n st σ (by simp) hp0 ⟨fun A l B e => by simp at e, fun _ => rfl⟩ (by simp) h2
  have haa : (decide (σ ≠ .deleg) = false ↔ ls = [] ∧ σ' = .deleg) := by
    by_cases hf : σ = .follow
    · simp [hf, c7 hf]
    · obtain ⟨a, b⟩ := c8 hf
      simp [a, b]
  have hd : denial z q n = (do
        let d ← prove z (st', σ')
        let l ← wildcards z st'.answer st'.wild d.nsec
        .ok ⟨l, d.ds⟩) := by
    unfold denial
    rw [h1]
    simp only [Res.bind_ok]
    rw [c1]
    rfl
  unfold answer
  rw [h1]
  simp only [Res.bind_ok]
  rw [c1]
  simp only [Res.bind_ok]
  have c5' := c5.spec
  rcases c5' with ⟨a, _⟩ | ⟨a, b⟩ | ⟨a, b⟩ | ⟨a, b⟩ | ⟨a, x, d, b1, b2, b3⟩
  · exact absurd a c6
  · subst a
    exact ⟨ls, m, st', _, _, ⟨_, rfl, c1⟩, hd, rfl, c2, c3, c4, c5, rfl, rfl, b, haa⟩
  · subst a
    exact ⟨ls, m, st', _, _, ⟨_, rfl, c1⟩, hd, rfl, c2, c3, c4, c5, rfl, rfl, b, haa⟩
  · subst a
    exact ⟨ls, m, st', _, _, ⟨_, rfl, c1⟩, hd, rfl, c2, c3, c4, c5, rfl, rfl, b, haa⟩
  · subst a
    simp only [b1, b2, Res.bind_ok]
    exact ⟨ls, m, st', _, _, ⟨_, rfl, c1⟩, hd, rfl, c2, c3, c4, c5, rfl, rfl, b3, haa⟩

end Knot.Nsecproof
