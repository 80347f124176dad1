import Verif.Zload.Lemmas
/-! # Lemmas for C53: the journal and the commit -/
namespace Knot.Zload
open Knot Knot.Serial

/-- The journal with the zone in it gives these contents. -/
def Holds (j : Jour) (c : Cont) : Prop :=
  ∃ z, j.zij = some z ∧ (∀ a l, j.chain = a :: l → a.fr = z.serial) ∧ applyAll j.chain z = .ok c

theorem holds_loadZone {j : Jour} {c : Cont} (h : Holds j c) : loadZone j = .ok c := by
  obtain ⟨z, hz, hh, ha⟩ := h
  unfold loadZone
  rw [hz]
  dsimp only
  have : suffix z.serial j.chain = j.chain := by
    cases hc : j.chain with
    | nil => rfl
    | cons a l => rw [← hh a l hc]; exact suffix_head
  rw [this]; exact ha

theorem holds_serialTo {j : Jour} {c : Cont} (h : Holds j c) : serialTo j = some c.serial := by
  obtain ⟨z, hz, hh, ha⟩ := h
  unfold serialTo
  rcases applyAll_last _ _ _ ha with ⟨h1, h2⟩ | h1
  · cases hl : j.chain.getLast? with
    | none => simp [hz, h2]
    | some x => rw [hl] at h1; simp at h1
  · cases hl : j.chain.getLast? with
    | none => rw [hl] at h1; simp at h1
    | some x => rw [hl] at h1; simpa using h1

theorem holds_zone (c : Cont) : Holds (insertZone c) c :=
  ⟨c, rfl, (fun a l h => by cases h), rfl⟩

theorem insert_ok {j j' : Jour} {c c' : Cont} (h : insert j (chOf c c') = .ok j') :
    Older c.serial c'.serial ∧ ∃ j1 j2, contiguous j (chOf c c') = .ok j1 ∧
      acyclic j1 (chOf c c') = .ok j2 ∧ j' = { j2 with chain := j2.chain ++ [chOf c c'] } := by
  unfold insert at h
  split at h
  · cases h
  · rename_i hl
    have hl' : lower c.serial c'.serial = true := by
      simpa [chOf] using hl
    refine ⟨(lower_iff _ _).mp hl', ?_⟩
    cases h1 : contiguous j (chOf c c') with
    | error e => rw [h1] at h; cases h
    | ok j1 =>
      rw [h1] at h
      simp only [bind, Except.bind] at h
      cases h2 : acyclic j1 (chOf c c') with
      | error e => rw [h2] at h; cases h
      | ok j2 =>
        rw [h2] at h
        simp only [pure, Except.pure] at h
        cases h
        exact ⟨j1, j2, rfl, h2, rfl⟩

theorem insert_eq {j j1 j2 : Jour} {c c' : Cont} (ho : Older c.serial c'.serial)
    (h1 : contiguous j (chOf c c') = .ok j1) (h2 : acyclic j1 (chOf c c') = .ok j2) :
    insert j (chOf c c') = .ok { j2 with chain := j2.chain ++ [chOf c c'] } := by
  unfold insert
  have : lower (chOf c c').fr (chOf c c').til = true := (lower_iff _ _).mpr ho
  rw [if_neg (by simp [this])]
  rw [h1]
  simp only [bind, Except.bind]
  rw [h2]
  rfl

theorem holds_append {j : Jour} {c c' : Cont} (h : Holds j c) :
    Holds { j with chain := j.chain ++ [chOf c c'] } c' := by
  obtain ⟨z, hz, hh, ha⟩ := h
  refine ⟨z, hz, ?_, ?_⟩
  · intro a l hl
    dsimp only at hl
    cases hc : j.chain with
    | nil =>
      rw [hc] at hl ha
      simp only [List.nil_append, List.cons.injEq] at hl
      simp only [applyAll, Out.ok.injEq] at ha
      rw [← hl.1, ha]; rfl
    | cons b l' =>
      rw [hc] at hl
      simp only [List.cons_append, List.cons.injEq] at hl
      rw [← hl.1]; exact hh b l' hc
  · rw [applyAll_append _ _ _ _ ha]
    exact applyCh_chOf c c'

theorem holds_insert {j : Jour} {c c' : Cont} (h : Holds j c) (ho : Older c.serial c'.serial) :
    ∃ j', insert j (chOf c c') = .ok j' ∧ Holds j' c' := by
  have h1 : contiguous j (chOf c c') = .ok j := by
    unfold contiguous
    rw [holds_serialTo h]
    simp [chOf]
  by_cases ha : j.chain.any (fun x => decide (x.fr = (chOf c c').til)) = true
  · have h2 : acyclic j (chOf c c') = .ok { zij := some c, chain := [] } := by
      unfold acyclic
      rw [if_pos ha]
      obtain ⟨z, hz, _, _⟩ := id h
      rw [hz, holds_loadZone h]
    exact ⟨_, insert_eq ho h1 h2, holds_append (holds_zone c)⟩
  · have h2 : acyclic j (chOf c c') = .ok j := by
      unfold acyclic
      rw [if_neg ha]
    exact ⟨_, insert_eq ho h1 h2, holds_append h⟩

/-! ## An update that starts from given contents -/

/-- The update is the change from `c` to its contents. -/
structure From (c : Cont) (u : Upd) : Prop where
  flag : u.flag ≠ .full
  fr : u.fr = (c.serial, c.soa)
  rem : u.rem = c.recs \ u.cont.recs
  add : u.add = u.cont.recs \ c.recs
  soa : (u.soaTo = none ∧ u.cont.serial = c.serial ∧ u.cont.soa = c.soa) ∨
    u.soaTo = some (u.cont.serial, u.cont.soa)

theorem noChange_iff {c : Cont} {u : Upd} (h : From c u) : noChange u = true ↔ u.cont = c := by
  unfold noChange
  rw [decide_eq_true_iff, h.rem, h.add, h.fr]
  constructor
  · rintro ⟨_, h1, h2, h3⟩
    have hr := patch_empty h1 h2
    rcases h.soa with ⟨h4, h5, h6⟩ | h4
    · cases hc : u.cont; cases c; simp_all
    · rw [h4] at h3
      rcases h3 with h3 | h3
      · cases h3
      · cases hc : u.cont; cases c; simp_all
  · intro hc
    refine ⟨h.flag, by rw [hc]; exact sdiff_self' _, by rw [hc]; exact sdiff_self' _, ?_⟩
    rcases h.soa with ⟨h4, _⟩ | h4
    · exact .inl h4
    · rw [h4, hc]; exact .inr rfl

theorem from_diff {flag : Flag} {c zf : Cont} {u : Upd} (hfl : flag ≠ .full)
    (h : fromDifferences flag c zf = .ok u) : From c u ∧ u.flag = flag ∧ u.cont.recs = zf.recs ∧
      ((zf.serial = c.serial ∧ u.soaTo = none) ∨
        (Older c.serial zf.serial ∧ u.soaTo = some (zf.serial, zf.soa) ∧ u.cont = zf)) := by
  obtain ⟨h1, h2, h3, h4, h5, h6⟩ := diff_ok h
  refine ⟨⟨by rw [h1]; exact hfl, h2, by rw [h3, h5], by rw [h4, h5], ?_⟩, h1, h5, ?_⟩
  · rcases h6 with ⟨_, h7, h8, h9⟩ | ⟨_, h7, h8⟩
    · exact .inl ⟨h7, h8, h9⟩
    · right; rw [h7, h8]
  · rcases h6 with ⟨h0, h7, h8, h9⟩ | ⟨h0, h7, h8⟩
    · exact .inl ⟨h0, h7⟩
    · exact .inr ⟨h0, h7, h8⟩

theorem from_same {flag : Flag} (c : Cont) (hfl : flag ≠ .full) : From c (fromContents flag c) :=
  ⟨hfl, rfl, (sdiff_self' _).symm, (sdiff_self' _).symm, .inl ⟨rfl, rfl, rfl⟩⟩

theorem from_init (c : Cont) : From c (initIncremental c) :=
  ⟨(by simp [initIncremental]), rfl, (sdiff_self' _).symm, (sdiff_self' _).symm, .inl ⟨rfl, rfl, rfl⟩⟩

/-- What a commit of such an update does. -/
theorem commit_from {cfg : Cfg} {next : UInt32 → UInt32} {w : World} {c : Cont} {u : Upd}
    (h : From c u) :
    (u.cont = c ∧ ((u.flag = .incremental ∧ commit cfg next w u = (w, none)) ∨
        (u.flag = .hybrid ∧ commit cfg next w u = ({ w with mem := some c }, none)))) ∨
    (u.cont ≠ c ∧ ∃ c', c'.recs = u.cont.recs ∧ c'.soa = u.cont.soa ∧
        (u.soaTo ≠ none → c' = u.cont) ∧
        (u.soaTo = none → c'.serial = next c.serial ∧ Older c.serial c'.serial) ∧
        ((cfg.content = .none ∧ commit cfg next w u = ({ w with mem := some c' }, none)) ∨
         (cfg.content ≠ .none ∧ ∃ j', insert w.jour (chOf c c') = .ok j' ∧
            commit cfg next w u = ({ w with jour := j', mem := some c' }, none)) ∨
         (cfg.content ≠ .none ∧ ∃ e, insert w.jour (chOf c c') = .error e ∧
            commit cfg next w u = (w, some e)))) ∨
    (u.cont ≠ c ∧ u.soaTo = none ∧ ¬ Older c.serial (next c.serial) ∧
        commit cfg next w u = (w, some .soainval)) := by
  by_cases hn : noChange u = true
  · left
    have hc := (noChange_iff h).mp hn
    refine ⟨hc, ?_⟩
    cases hf : u.flag with
    | incremental =>
      left; refine ⟨rfl, ?_⟩
      unfold commit; rw [if_pos ⟨hf, hn⟩]
    | full => exact absurd hf h.flag
    | hybrid =>
      right; refine ⟨rfl, ?_⟩
      unfold commit
      rw [if_neg (by rw [hf]; simp)]
      have h1 : commitSoa next u = .ok u := by
        unfold commitSoa
        rw [if_neg h.flag]
        unfold commitIncremental
        rw [if_neg (by rw [hn]; simp)]
      have h2 : commitJournal cfg w.jour u = .ok w.jour := by
        unfold commitJournal
        rw [if_neg h.flag, if_neg (by rw [hn]; simp)]
      rw [h1]; dsimp only; rw [h2]; dsimp only; rw [hc]
  · have hc : u.cont ≠ c := fun he => hn ((noChange_iff h).mpr he)
    have hn' : noChange u = false := by simpa using hn
    -- the update with its SOA
    have key : ∀ u' : Upd, commitSoa next u = .ok u' → From c u' → noChange u' = false →
        u'.soaTo = some (u'.cont.serial, u'.cont.soa) →
        ((cfg.content = .none ∧ commit cfg next w u = ({ w with mem := some u'.cont }, none)) ∨
         (cfg.content ≠ .none ∧ ∃ j', insert w.jour (chOf c u'.cont) = .ok j' ∧
            commit cfg next w u = ({ w with jour := j', mem := some u'.cont }, none)) ∨
         (cfg.content ≠ .none ∧ ∃ e, insert w.jour (chOf c u'.cont) = .error e ∧
            commit cfg next w u = (w, some e))) := by
      intro u' h1 hf' hnn hs
      have hch : changeOf u' = chOf c u'.cont := by
        unfold changeOf chOf
        rw [hs, hf'.fr, hf'.rem, hf'.add]
        rfl
      by_cases hcn : cfg.content = .none
      · left; refine ⟨hcn, ?_⟩
        unfold commit
        rw [if_neg (by rw [hn']; simp), h1]
        dsimp only
        have h2 : commitJournal cfg w.jour u' = .ok w.jour := by
          unfold commitJournal
          rw [if_neg hf'.flag, if_neg (by simp [hcn])]
        rw [h2]
      · right
        have h2 : commitJournal cfg w.jour u' = insert w.jour (chOf c u'.cont) := by
          unfold commitJournal
          rw [if_neg hf'.flag, if_pos ⟨hcn, hnn⟩, hch]
        cases hi : insert w.jour (chOf c u'.cont) with
        | ok j' =>
          left; refine ⟨hcn, j', rfl, ?_⟩
          unfold commit
          rw [if_neg (by rw [hn']; simp), h1]
          dsimp only
          rw [h2, hi]
        | error e =>
          right; refine ⟨hcn, e, rfl, ?_⟩
          unfold commit
          rw [if_neg (by rw [hn']; simp), h1]
          dsimp only
          rw [h2, hi]
    right
    cases hs : u.soaTo with
    | some sp =>
      left
      refine ⟨hc, u.cont, rfl, rfl, fun _ => rfl, (fun h => by cases h), ?_⟩
      have hs' : u.soaTo = some (u.cont.serial, u.cont.soa) := by
        rcases h.soa with ⟨h1, _⟩ | h1
        · rw [hs] at h1; cases h1
        · exact h1
      apply key u _ h hn' hs'
      unfold commitSoa
      rw [if_neg h.flag]
      unfold commitIncremental
      rw [if_neg (by rw [hs]; simp)]
    | none =>
      obtain ⟨_, h5, h6⟩ : u.soaTo = none ∧ u.cont.serial = c.serial ∧ u.cont.soa = c.soa := by
        rcases h.soa with h1 | h1
        · exact h1
        · rw [hs] at h1; cases h1
      by_cases ho : Older c.serial (next c.serial)
      · left
        refine ⟨hc, { u.cont with serial := next c.serial }, rfl, rfl, (fun h => absurd rfl h),
          fun _ => ⟨rfl, ho⟩, ?_⟩
        have h1 : commitSoa next u = .ok { u with
            cont := { u.cont with serial := next c.serial }, soaTo := some (next c.serial, u.cont.soa) } := by
          unfold commitSoa
          rw [if_neg h.flag]
          unfold commitIncremental
          rw [if_pos ⟨hs, hn'⟩]
          unfold incrementSoa
          dsimp only
          rw [h5, if_neg (by rw [(lower_iff _ _).mpr ho]; simp)]
        have hf' : From c { u with
            cont := { u.cont with serial := next c.serial }, soaTo := some (next c.serial, u.cont.soa) } :=
          ⟨h.flag, h.fr, h.rem, h.add, .inr rfl⟩
        refine key _ h1 hf' ?_ rfl
        rw [Bool.eq_false_iff]
        intro hnn
        have h9 : next c.serial = c.serial := congrArg Cont.serial ((noChange_iff hf').mp hnn)
        exact older_ne ho h9.symm
      · right
        refine ⟨hc, rfl, ho, ?_⟩
        unfold commit
        rw [if_neg (by rw [hn']; simp)]
        have h1 : commitSoa next u = .error .soainval := by
          unfold commitSoa
          rw [if_neg h.flag]
          unfold commitIncremental
          rw [if_pos ⟨hs, hn'⟩]
          unfold incrementSoa
          dsimp only
          rw [h5, if_pos (by
            cases hl : lower c.serial (next c.serial) with
            | false => rfl
            | true => exact absurd ((lower_iff _ _).mp hl) ho)]
        rw [h1]

theorem reverse_from {c : Cont} {u : Upd} (h : From c u) (hj : justSerial u = true) :
    From c (reverse u) ∧ (reverse u).cont = c ∧ u.cont.recs = c.recs ∧ u.cont.soa = c.soa := by
  unfold justSerial at hj
  cases hs : u.soaTo with
  | none => rw [hs] at hj; cases hj
  | some sp =>
    obtain ⟨s, p⟩ := sp
    rw [hs] at hj
    dsimp only at hj
    rw [decide_eq_true_iff, h.rem, h.add, h.fr] at hj
    obtain ⟨h1, h2, h3⟩ := hj
    have hr := patch_empty h2 h3
    have hp : u.cont.soa = p := by
      rcases h.soa with ⟨h4, _⟩ | h4
      · rw [hs] at h4; cases h4
      · rw [hs] at h4; cases h4; rfl
    have hcont : (reverse u).cont = c := by
      unfold reverse
      dsimp only
      rw [h.fr, h.add, h.rem, h2, h3, ← hr]
      cases c; simp
    refine ⟨⟨h.flag, h.fr, ?_, ?_, .inr ?_⟩, hcont, hr.symm, by rw [hp, h1]⟩
    · rw [hcont]; exact (sdiff_self' _).symm
    · rw [hcont]; exact (sdiff_self' _).symm
    · rw [hcont]; unfold reverse; dsimp only; rw [h.fr]

theorem revert_from {cfg : Cfg} {c : Cont} {u : Upd} (h : From c u) :
    From c (revert cfg u) ∧ (revert cfg u).flag = u.flag ∧
    (revert cfg u = u ∨ ((revert cfg u).cont = c ∧ cfg.load = .difse ∧ u.cont.recs = c.recs ∧
      u.cont.soa = c.soa)) := by
  unfold revert
  split
  · rename_i hc
    obtain ⟨h1, h2, h3, h4⟩ := reverse_from h hc.2.2
    exact ⟨h1, rfl, .inr ⟨h2, hc.1, h3, h4⟩⟩
  · exact ⟨h, rfl, .inl rfl⟩

end Knot.Zload
