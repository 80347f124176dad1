import Verif.Journal.Lemmas2
/-!
# Lemmas: the loop making room
-/
namespace Knot.Journal

variable {Z D : Type}

/-- What journal_fix_occupation() leaves. -/
def Fixed (cfg : Cfg Z D) (old db : Db Z D) (file cur : Nat × Z) (tofree todel : Nat) (p2 : Ents D) : Txn Z D → Prop
  | .run db' => ∃ p1' p2' m', Work cfg db' file cur p1' p2' m' ∧ OldReads cfg old db' p2' m' ∧
      db'.md.count ≤ db.md.count - todel ∧ db'.zij.isSome = db.zij.isSome ∧
      (tofree = 0 → todel = 0 → db' = db) ∧ (p2 = [] → p2' = [])
  | .busy db' => cfg.flush = true ∧ db'.zij.isSome = db.zij.isSome ∧ db'.md.serialToValid = true ∧
      ∃ p1' p2', Work cfg db' file cur p1' p2' none ∧ p1' ++ p2' ≠ [] ∧ (db'.zij.isSome → p2' = []) ∧ p2 ≠ []
  | .fail e => e = .espace ∧ (todel + (if p2 = [] then 0 else 1) ≤ db.md.count → 0 < tofree)

theorem work_noflush {cfg : Cfg Z D} {db : Db Z D} {file cur : Nat × Z} {p1 : Ents D} {m : Option (Entry D)}
    (old : Db Z D) (_ : Work cfg db file cur p1 [] m) : OldReads cfg old db [] m := fun q => absurd rfl q

theorem fixLoop_spec {cfg : Cfg Z D} (hl : Laws cfg) {old : Db Z D} {file cur : Nat × Z} :
    ∀ (fuel tofree todel : Nat) (db : Db Z D) (p1 p2 : Ents D) (m : Option (Entry D)),
      Work cfg db file cur p1 p2 m → OldReads cfg old db p2 m →
      p1.length + (if p2 = [] then 0 else p2.length + 1) < fuel →
      (∃ t, fixLoop cfg old fuel tofree todel db = .ok t ∧ Fixed cfg old db file cur tofree todel p2 t) ∨
      (fixLoop cfg old fuel tofree todel db = .ub ∧ cfg.flush = true ∧ db.zij.isSome) := by
  intro fuel
  induction fuel with
  | zero => intro _ _ _ _ _ _ _ _ h; omega
  | succ fuel ih =>
    intro tofree todel db p1 p2 m h ho hfu
    unfold fixLoop
    by_cases hg : tofree = 0 ∧ todel = 0
    · rw [if_pos hg]
      left
      exact ⟨_, rfl, p1, p2, m, h, ho, by omega, rfl, fun _ _ => rfl, fun q => q⟩
    · rw [if_neg hg]
      obtain ⟨l1, l2, e1, r, e2, e3, e4, e5, e6⟩ := work_delete h tofree todel
      rw [e2]
      simp only
      by_cases hr : r.2.1 = 0
      · rw [if_pos hr]
        have hl1 := e4.mp hr
        subst hl1
        have hl2 : l2 = [] := by
          rcases e5 with q | q
          · exact q
          · exfalso
            simp only [List.length_nil] at e3
            omega
        subst hl2
        simp only [List.append_nil] at e1
        subst e1
        by_cases hp : p2 = []
        · rw [if_neg (by simp [h.upto_iff.mpr hp])]
          left
          refine ⟨_, rfl, rfl, fun q => ?_⟩
          have hc := h.count
          rw [hp] at hc q
          simp only [List.append_nil, List.length_nil, if_true] at hc q
          omega
        · rw [if_pos (fun q => hp (h.upto_iff.mp q))]
          obtain ⟨t, t1, t2⟩ := work_flush hl h ho hp
          rw [t1, Res.bind_ok]
          cases t with
          | fail e => exact t2.elim
          | busy db' =>
            left
            obtain ⟨a1, a2, a3, p1', p2', a4, a5, a6⟩ := t2
            exact ⟨_, rfl, a1, a2, a3, p1', p2', a4, by rw [a5]; exact hp, a6, hp⟩
          | run db' =>
            obtain ⟨a1, p1', m', a2, a3, a4, a5⟩ := t2
            simp only
            rw [if_neg hp] at hfu
            rcases ih tofree todel db' p1' [] m' a2 (work_noflush old a2) (by simp only [if_true]; omega) with
              ⟨t, b1, b2⟩ | ⟨b1, b2, b3⟩
            · left
              refine ⟨t, b1, ?_⟩
              cases t with
              | run db'' =>
                obtain ⟨x1, x2, x3, c1, c2, c3, c4, c5, c6⟩ := b2
                exact ⟨x1, x2, x3, c1, c2, by omega, c4.trans a5, fun q q' => absurd ⟨q, q'⟩ hg, fun q => absurd q hp⟩
              | busy db'' =>
                obtain ⟨c1, _⟩ := b2
                rw [c1] at a1; cases a1
              | fail e =>
                refine ⟨b2.1, fun q => b2.2 ?_⟩
                rw [if_neg hp] at q
                rw [if_pos rfl]
                -- the merge may have taken one away
                have hc := a2.count
                have hc0 := h.count
                simp only [List.append_nil, List.nil_append] at hc hc0
                omega
            · rw [a1] at b2; cases b2
      · rw [if_neg hr]
        have hl1 : l1 ≠ [] := fun q => hr (e4.mpr q)
        rcases e6 hl1 with ⟨md, d1, d2, d3, d4, d5, d6⟩ | ⟨d1, d2, d3⟩
        · rw [d1, Res.bind_ok]
          have hlen : 0 < l1.length := by
            cases l1 with
            | nil => exact absurd rfl hl1
            | cons a l => simp
          have ho' : OldReads cfg old { db with md := md, chs := r.1 } p2 m := by
            intro q
            have := ho q
            simp only
            rw [d4, d5]
            exact this
          have hp1 : p1.length = l1.length + l2.length := by rw [e1, List.length_append]
          rcases ih (tofree - r.2.1) (todel - r.2.2.1) _ l2 p2 m d2 ho' (by omega) with ⟨t, b1, b2⟩ | ⟨b1, b2, b3⟩
          · left
            refine ⟨t, b1, ?_⟩
            cases t with
            | run db'' =>
              obtain ⟨x1, x2, x3, c1, c2, c3, c4, c5, c6⟩ := b2
              exact ⟨x1, x2, x3, c1, c2, by simp only at c3; omega, c4, fun q q' => absurd ⟨q, q'⟩ hg, c6⟩
            | busy db'' => exact b2
            | fail e =>
              refine ⟨b2.1, fun q => ?_⟩
              have hc : (if p2 = [] then 0 else 1) ≤ md.count := by
                have := d2.count
                simp only [List.length_append] at this
                split
                · omega
                · rename_i hp
                  have := List.length_pos_iff.mpr hp
                  omega
              have := b2.2 (by simp only; omega)
              omega
          · right; exact ⟨b1, b2, b3⟩
        · right
          rw [d1]
          exact ⟨rfl, d2, d3⟩

end Knot.Journal
