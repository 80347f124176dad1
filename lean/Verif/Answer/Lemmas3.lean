import Verif.Answer.Lemmas2
/-!
# Answers: chains
-/
namespace Knot.Answer
open Dname (Name)

/-- What one name gives: a link, or the end. -/
def StepSpec (z : Zone) (q : Req) (ls : List Link) (m : Name) (st' : St) (σ : State) : Prop :=
  (σ = .follow ∧ ∃ l, Step z q.type l ∧ l.owner = m ∧ ¬ Again ls l ∧ ls.length < 5 ∧ q.type ≠ 5 ∧
    Inv (ls ++ [l]) l.next st') ∨
  (σ = .hit ∧ Ends z q.type ls m st'.answer .hit st'.rcode none) ∨
  (σ = .miss ∧ Ends z q.type ls m st'.answer .miss 3 (some (z.apex, 6))) ∨
  (σ = .nodata ∧ Ends z q.type ls m st'.answer .nodata st'.rcode (some (z.apex, 6))) ∨
  (σ = .deleg ∧ ∃ x d, st'.node = some x ∧ delegation z x = .ok d ∧
    Ends z q.type ls m st'.answer .deleg st'.rcode (some (d, 2)))

theorem Inv.node {ls : List Link} {m : Name} {st : St} (h : Inv ls m st) (o : Option Name) :
    Inv ls m { st with node := o } :=
  ⟨h.name, h.chain, h.answer, h.rcode, h.visited, h.typed, h.len⟩

theorem answerType_iff {z : Zone} {t : Nat} {s : Name} {u : Nat} : answerType z t s = some u ↔ Match z t s u := by
  unfold answerType Match
  by_cases h : t = 255
  · rw [if_pos h, if_pos h]
    by_cases hc : Nsecchain.count (z.node s) = 0
    · rw [if_pos hc]
      simp only [reduceCtorEq, false_iff]
      rintro ⟨⟨v, hv⟩, _⟩
      exact count_iff.mp hc v hv
    · rw [if_neg hc]
      have : ∃ v, Owns z s v := by
        by_cases e : ∃ v, Owns z s v
        · exact e
        · exact absurd (count_iff.mpr fun v hv => e ⟨v, hv⟩) hc
      simp only [Option.some.injEq, this, true_and]
      exact eq_comm
  · rw [if_neg h, if_neg h]
    by_cases ho : has (z.node s) t = true
    · rw [if_pos ho]
      simp only [Option.some.injEq, has_iff.mp ho, and_true]
      exact eq_comm
    · rw [if_neg ho]
      simp only [reduceCtorEq, false_iff]
      rintro ⟨_, h'⟩
      exact ho (has_iff.mpr h')

theorem nameFound_spec {z : Zone} (wf : Wf z) {q : Req} (hu : Unlimited q) {ls : List Link} {m s : Name} {st : St}
    (inv : Inv ls m st) (hsrc : Source z s m) (hreg : ls ≠ [] → s ≠ m → ¬ Lookup z q.type m (.data s 39)) :
    ∃ st' σ, nameFound z q st s = (st', σ) ∧ StepSpec z q ls m st' σ ∧
      (σ = .follow → visited st' s = true ∨ ¬ Wild s) ∧ (σ = .deleg → st'.node = some s) := by
  have hsn := hsrc.1
  unfold nameFound
  simp only
  have hr := refer_iff wf hsn q.type
  by_cases h1 : (((z.node s).deleg = true ∧ q.type ≠ 43) ∨ (z.node s).nonauth = true)
  · rw [if_pos h1]
    obtain ⟨d, hd1, hd2⟩ := hr.mp h1
    refine ⟨_, _, rfl, .inr (.inr (.inr (.inr ⟨rfl, s, d, rfl, delegation_spec wf hsn hd1, ?_⟩))), by simp, by simp⟩
    have := Ends.referral (z := z) (ls := ls) (t := q.type) (m := m) (.referral hsrc hd1 hd2)
    simpa [inv.answer, inv.rcode] using this
  · rw [if_neg h1]
    have hauth : Auth z q.type s := (auth_iff q.type).mp (fun h => h1 (hr.mpr h))
    by_cases h2 : (has (z.node s) 5 = true ∧ q.type ≠ 5 ∧ q.type ≠ 46 ∧ q.type ≠ 47 ∧ q.type ≠ 255)
    · rw [if_pos h2]
      have hl : Lookup z q.type m (.alias s) := .alias hsrc hauth (has_iff.mp h2.1) (by
        unfold Direct; omega)
      obtain ⟨st', σ, h3, h4⟩ := follow_cname wf hu (inv.node (some s)) hl
      refine ⟨st', σ, h3, ?_, ?_, ?_⟩
      · rcases h4 with ⟨a, l, b⟩ | h4
        · exact .inl ⟨a, l, b.1, b.2.1, b.2.2.1, b.2.2.2.1, b.2.2.2.2.1, b.2.2.2.2.2.1⟩
        · exact .inr (.inl h4)
      · intro e
        rcases h4 with ⟨a, l, b⟩ | h4
        · by_cases hw : Wild s
          · left
            exact (b.2.2.2.2.2.1.visited s).mpr ⟨hw, l, by simp, b.2.2.2.2.2.2⟩
          · exact .inr hw
        · rw [h4.1] at e; cases e
      · intro e
        rcases h4 with ⟨a, _⟩ | h4
        · rw [a] at e; cases e
        · rw [h4.1] at e; cases e
    · rw [if_neg h2]
      have hnc : ¬ (Owns z s 5 ∧ ¬ Direct q.type) := by
        rintro ⟨a, b⟩
        refine h2 ⟨has_iff.mpr a, ?_⟩
        unfold Direct at b; omega
      unfold putAnswer
      cases ht : answerType z q.type s with
      | none =>
        simp only [if_true]
        refine ⟨_, _, rfl, .inr (.inr (.inr (.inl ⟨rfl, ?_⟩))), by simp, by simp⟩
        have := Ends.nodata (z := z) (ls := ls) (t := q.type) (m := m) (.nodata hsrc hauth hnc (fun u hu' => by
          rw [answerType_iff.mpr hu'] at ht; cases ht))
        simpa [inv.answer, inv.rcode] using this
      | some u =>
        simp only [put_unlimited hu]
        have hm := answerType_iff.mp ht
        have hlk : Lookup z q.type m (.data s u) := .data hsrc hauth hnc hm
        refine ⟨_, _, rfl, .inr (.inl ⟨?_, ?_⟩), ?_, ?_⟩
        · simp
        · have := Ends.data (z := z) (ls := ls) (t := q.type) (m := m) hlk
          have ho : (if st.answer = [] then st.name else expand { st with node := some s } s u) = m := by
            by_cases ha : st.answer = []
            · rw [if_pos ha, inv.name]
            · rw [if_neg ha]
              have hls : ls ≠ [] := by
                intro e; rw [inv.answer, e] at ha; exact ha rfl
              unfold expand
              by_cases hsm : s = m
              · split
                · exact inv.name
                · exact hsm
              · have hu39 : u ≠ 39 := fun e => hreg hls hsm (e ▸ hlk)
                have hws : Wild s := by
                  rcases hsrc.2 with e | ⟨_, c, _, e⟩
                  · exact absurd e hsm
                  · exact ⟨c, e⟩
                rw [if_pos (by simp [wildcard_iff.mpr hws, hu39])]
                exact inv.name
          simp only at ho ⊢
          rw [ho, inv.answer, inv.rcode]
          exact this
        · simp
        · simp

theorem source_or {z : Zone} {c n : Name} (hn : n ∉ z.names) (h : Encloser z c n) (hw : ([42] : Dname.Label) :: c ∉ z.names) :
    ∀ s, ¬ Source z s n := by
  rintro s ⟨h1, e | ⟨_, c', h', e⟩⟩
  · exact hn (e ▸ h1)
  · rw [encloser_unique h h'] at hw
    exact hw (e ▸ h1)

theorem cut_encloser {z : Zone} {c n d : Name} (h : Encloser z c n) : Cut z d n ↔ Cut z d c := by
  constructor
  · rintro ⟨h1, h2, h3⟩
    exact ⟨h1, h.2.2 d h1.1 h2, fun d' a b => h3 d' a (b.trans h.2.1)⟩
  · rintro ⟨h1, h2, h3⟩
    exact ⟨h1, h2.trans h.2.1, fun d' a b => h3 d' a (h.2.2 d' a.1 b)⟩

theorem nameNotFound_spec {z : Zone} (wf : Wf z) {q : Req} (hu : Unlimited q) {ls : List Link} {m c : Name} {st : St}
    (inv : Inv ls m st) (hm : m ∉ z.names) (henc : Encloser z c m)
    (hreg : ∀ s, ls ≠ [] → s ≠ m → ¬ Lookup z q.type m (.data s 39))
    (hlong : ∀ c, Lookup z q.type m (.dname c) → Fits (subst c (z.target c 39) m)) :
    ∃ st' σ, nameNotFound z q st c = .ok (st', σ) ∧ StepSpec z q ls m st' σ := by
  unfold nameNotFound
  simp only
  by_cases hw : ([42] : Dname.Label) :: c ∈ z.names
  · rw [if_pos hw]
    have hsrc : Source z ([42] :: c) m := ⟨hw, .inr ⟨hm, c, henc, rfl⟩⟩
    obtain ⟨st', σ, h1, h2, h3, h4⟩ := nameFound_spec wf hu inv hsrc (hreg _)
    rw [h1]
    by_cases hv : visited st' ([42] :: c) = true
    · exact ⟨st', σ, by simp [hv], h2⟩
    · refine ⟨visit z st' ([42] :: c), σ, by simp [hv], ?_⟩
      have hvis : (visit z st' ([42] :: c)).answer = st'.answer ∧ (visit z st' ([42] :: c)).rcode = st'.rcode ∧
          (visit z st' ([42] :: c)).node = st'.node := by
        unfold visit; split <;> simp
      unfold StepSpec at h2 ⊢
      rw [hvis.1, hvis.2.1, hvis.2.2]
      rcases h2 with ⟨a, _⟩ | h2
      · rcases h3 a with h | h
        · exact absurd h hv
        · exact absurd ⟨c, rfl⟩ h
      · exact .inr h2
  · rw [if_neg hw]
    have hns := source_or hm henc hw
    by_cases hd : (¬ ((z.node c).nonauth = true ∨ (z.node c).deleg = true) ∧ has (z.node c) 39 = true)
    · rw [if_pos hd]
      have hnc : ∀ d, ¬ Cut z d m := by
        intro d h
        rw [cut_encloser henc] at h
        rcases above wf henc.1 h with ⟨a, _⟩ | ⟨a, _⟩
        · exact hd.1 (.inr a)
        · exact hd.1 (.inl a)
      have hl : Lookup z q.type m (.dname c) := .dname hns hnc henc (has_iff.mp hd.2)
      obtain ⟨st', σ, h1, h2⟩ := follow_dname wf hu (inv.node (some c)) hl (hlong c hl)
      rw [h1]
      refine ⟨st', σ, rfl, ?_⟩
      rcases h2 with h2 | h2
      · exact .inl h2
      · exact .inr (.inl h2)
    · rw [if_neg hd]
      by_cases hcut : ∃ d, Cut z d m
      · obtain ⟨d, hcut⟩ := hcut
        have hcut' := (cut_encloser henc).mp hcut
        rw [authEncloser_cut wf henc.1 hcut']
        have hdm := cut_marked wf hcut
        refine ⟨{ st with node := some d }, .deleg, ?_, ?_⟩
        · simp [hdm]
        · refine .inr (.inr (.inr (.inr ⟨rfl, d, d, rfl, delegation_spec wf hcut.1.1 ((deleg_iff_cut wf hcut.1.1).mp hdm), ?_⟩)))
          have := Ends.referral (z := z) (ls := ls) (t := q.type) (m := m) (.below hns hcut)
          simpa [inv.answer, inv.rcode] using this
      · have hnc : ∀ d, ¬ Cut z d m := fun d h => hcut ⟨d, h⟩
        have hnc' : ∀ d, ¬ Cut z d c := fun d h => hnc d ((cut_encloser henc).mpr h)
        obtain ⟨y, h1, h2⟩ := authEncloser_none wf henc.1 hnc'
        rw [h1]
        refine ⟨{ st with node := none }, .miss, by simp [h2], ?_⟩
        refine .inr (.inr (.inl ⟨rfl, ?_⟩))
        have hno : ¬ Owns z c 39 := by
          intro ho
          refine hd ⟨?_, has_iff.mpr ho⟩
          rintro (h | h)
          · obtain ⟨d, a, b, _⟩ := (marks_spec wf henc.1).1.mp h
            obtain ⟨d', hd'⟩ := cut_exists c ⟨d, a, b⟩
            exact hnc' d' hd'
          · exact hnc' c ((deleg_iff_cut wf henc.1).mp h)
        have := Ends.nxdomain (z := z) (ls := ls) (t := q.type) (m := m) (.nxdomain hns hnc henc hno)
        simpa [inv.answer] using this

theorem solveName_spec {z : Zone} (wf : Wf z) {q : Req} (hu : Unlimited q) {ls : List Link} {m : Name} {st : St} {fl : Bool}
    (inv : Inv ls m st) (hfl : fl = false → z.apex <:+ m)
    (hreg : ∀ s, ls ≠ [] → s ≠ m → ¬ Lookup z q.type m (.data s 39))
    (hlong : ∀ c, Lookup z q.type m (.dname c) → Fits (subst c (z.target c 39) m)) :
    ∃ st' σ, solveName z q fl st = .ok (st', σ) ∧ StepSpec z q ls m st' σ := by
  unfold solveName
  rw [inv.name]
  rcases find_spec wf m with ⟨h1, h2⟩ | ⟨h1, h2, h3⟩ | ⟨h1, h2, c, h3, h4⟩
  · rw [h2]
    have hf : fl = true := by
      cases e : fl with
      | true => rfl
      | false => exact absurd (hfl e) h1
    refine ⟨st, .hit, by simp [hf], .inr (.inl ⟨rfl, ?_⟩)⟩
    have := Ends.out (z := z) (ls := ls) (t := q.type) (m := m) (.out h1)
    simpa [inv.answer, inv.rcode] using this
  · rw [h3]
    obtain ⟨st', σ, a, b, _⟩ := nameFound_spec wf hu inv (⟨h2, .inl rfl⟩ : Source z m m) (hreg m)
    exact ⟨st', σ, by simp [a], b⟩
  · rw [h4]
    obtain ⟨st', σ, a, b⟩ := nameNotFound_spec wf hu inv h2 h3 hreg hlong
    exact ⟨st', σ, by simpa using a, b⟩

theorem path_snoc {z : Zone} {t : Nat} {l : Link} : ∀ {ls : List Link} {n m : Name}, Path z t n ls m → Step z t l → l.owner = m →
    Path z t n (ls ++ [l]) l.next := by
  intro ls
  induction ls with
  | nil => intro n m h h1 h2; exact ⟨h2.trans (Eq.symm h), h1, rfl⟩
  | cons a ls ih => intro n m h h1 h2; exact ⟨h.1, h.2.1, ih h.2.2 h1 h2⟩

theorem fresh_snoc {t : Nat} {ls : List Link} {l : Link} (h : Fresh t ls) (hl : ¬ Again ls l) (ht : t ≠ 5) : Fresh t (ls ++ [l]) := by
  refine ⟨?_, fun e => absurd e ht⟩
  intro A x B e
  rcases List.eq_nil_or_concat B with hB | ⟨B', y, hB⟩
  · rw [hB] at e
    obtain ⟨e1, e2⟩ := List.append_inj' e rfl
    rw [← e1]; simp at e2; rw [← e2]; exact hl
  · rw [hB, List.concat_eq_append, ← List.cons_append, ← List.append_assoc] at e
    obtain ⟨e1, _⟩ := List.append_inj' e rfl
    exact h.1 A x B' e1

/-- From a chain already followed. -/
theorem solveLoop_spec {z : Zone} (wf : Wf z) {q : Req} (hu : Unlimited q) {n : Name}
    (hreg : ∀ ls m, Path z q.type n ls m → ∀ s, ls ≠ [] → s ≠ m → ¬ Lookup z q.type m (.data s 39))
    (hlong : ∀ ls m, Path z q.type n ls m → ∀ c, Lookup z q.type m (.dname c) → Fits (subst c (z.target c 39) m)) :
    ∀ (fuel : Nat) (ls : List Link) (m : Name) (st : St) (σ : State), 7 ≤ fuel + ls.length → Path z q.type n ls m →
      Fresh q.type ls → ls.length ≤ 5 → StepSpec z q ls m st σ →
      ∃ ls' m' st' σ', solveLoop z q fuel (st, σ) = .ok (st', σ') ∧ Path z q.type n ls' m' ∧ Fresh q.type ls' ∧
        ls'.length ≤ 5 ∧ StepSpec z q ls' m' st' σ' ∧ σ' ≠ .follow ∧ (σ = .follow → ls' ≠ []) ∧
        (σ ≠ .follow → ls' = ls ∧ σ' = σ) := by
  intro fuel
  induction fuel with
  | zero => intro ls m st σ h1 _ _ h4; omega
  | succ fuel ih =>
    intro ls m st σ h1 h2 h3 h4 h5
    unfold solveLoop
    by_cases he : σ = .follow
    · rw [if_pos he]
      rcases h5 with ⟨_, l, a1, a2, a3, a4, a5, a6⟩ | h5 | h5 | h5 | h5
      · have hp := path_snoc h2 a1 a2
        obtain ⟨st', σ', b1, b2⟩ := solveName_spec (fl := true) wf hu a6 (by simp) (hreg _ _ hp) (hlong _ _ hp)
        obtain ⟨ls', m', st2, σ2, c1, c2, c3, c4, c5, c6, c7, c8⟩ :=
          ih (ls ++ [l]) l.next st' σ' (by simp; omega) hp (fresh_snoc h3 a3 a5) (by simp; omega) b2
        refine ⟨ls', m', st2, σ2, by simpa [b1] using c1, c2, c3, c4, c5, c6, fun _ => ?_, fun h => absurd he h⟩
        by_cases hf : σ' = .follow
        · exact c7 hf
        · rw [(c8 hf).1]; simp
      all_goals
        rw [h5.1] at he; cases he
    · rw [if_neg he]
      exact ⟨ls, m, st, σ, rfl, h2, h3, h4, h5, he, fun h => absurd h he, fun _ => ⟨rfl, rfl⟩⟩

theorem answer_spec {z : Zone} (wf : Wf z) {q : Req} (hu : Unlimited q) {n : Name} (hn : z.apex <:+ n)
    (hreg : ∀ ls m, Path z q.type n ls m → ∀ s, ls ≠ [] → s ≠ m → ¬ Lookup z q.type m (.data s 39))
    (hlong : ∀ ls m, Path z q.type n ls m → ∀ c, Lookup z q.type m (.dname c) → Fits (subst c (z.target c 39) m)) :
    ∃ r, answer z q n = .ok r ∧ Correct z q.type n r := by
  have inv0 : Inv [] n { name := n } :=
    ⟨rfl, rfl, rfl, rfl, fun x => by simp [visited], fun l h => by simp at h, by simp⟩
  have hp0 : Path z q.type n [] n := rfl
  obtain ⟨st, σ, h1, h2⟩ := solveName_spec (fl := false) wf hu inv0 (fun _ => hn) (hreg _ _ hp0) (hlong _ _ hp0)
  obtain ⟨ls, m, st', σ', c1, c2, c3, c4, c5, c6, c7, c8⟩ :=
    solveLoop_spec wf hu hreg hlong 7 [] n st σ (by simp) hp0 ⟨fun A l B e => by simp at e, fun _ => rfl⟩ (by simp) h2
  have haa : (decide (σ ≠ .deleg) = false ↔ ls = [] ∧ σ' = .deleg) := by
    by_cases hf : σ = .follow
    · simp [hf, c7 hf]
    · obtain ⟨a, b⟩ := c8 hf
      simp [a, b]
  unfold answer
  rw [h1]
  simp only [Res.bind_ok]
  rw [c1]
  simp only [Res.bind_ok]
  rcases c5 with ⟨a, _⟩ | ⟨a, b⟩ | ⟨a, b⟩ | ⟨a, b⟩ | ⟨a, x, d, b1, b2, b3⟩
  · exact absurd a c6
  · rw [a] at haa ⊢
    exact ⟨_, rfl, ls, m, c2, c3, c4, b, haa⟩
  · rw [a] at haa ⊢
    exact ⟨_, rfl, ls, m, c2, c3, c4, b, haa⟩
  · rw [a] at haa ⊢
    exact ⟨_, rfl, ls, m, c2, c3, c4, b, haa⟩
  · rw [a] at haa ⊢
    simp only [b1, b2, Res.bind_ok]
    exact ⟨_, rfl, ls, m, c2, c3, c4, b3, haa⟩

end Knot.Answer
