import Verif.Zload.Lemmas4
/-! # Lemmas for C53: journal-content `changes` -/
namespace Knot.Zload
open Knot Knot.Serial

/-- The invariant with journal-content `changes`. -/
structure InvC (w : World) (last : Option Cont) (ed : Bool) : Prop where
  zij : w.jour.zij = none
  keys : ∀ c, last = some c → ∀ ch ∈ w.jour.chain, ch.fr ≠ c.serial
  mem : ∀ c, w.mem = some c → last = some c
  none : ed = false → last = none → w.file = none
  file : ed = false → ∀ c, last = some c → ∃ f, w.file = some f ∧ loadFile w.jour f = .ok c
  edit : ed = true → ∃ f, w.file = some f ∧ (∀ ch ∈ w.jour.chain, ch.fr ≠ f.serial) ∧
    ∀ c, last = some c → Older c.serial f.serial

theorem insert_changes {j j' : Jour} {c c' : Cont} (hz : j.zij = none) (h : insert j (chOf c c') = .ok j') :
    j'.zij = none ∧ (∀ ch ∈ j'.chain, ch.fr ≠ c'.serial) ∧
    (j'.chain = j.chain ++ [chOf c c'] ∨ (j'.chain = [chOf c c'] ∧ serialTo j ≠ some c.serial)) := by
  obtain ⟨ho, j1, j2, h1, h2, h3⟩ := insert_ok h
  have hj1 : j1 = j ∨ (j1 = {} ∧ serialTo j ≠ some c.serial) := by
    unfold contiguous at h1
    cases hs : serialTo j with
    | none => rw [hs] at h1; cases h1; exact .inl rfl
    | some s =>
      rw [hs] at h1
      dsimp only at h1
      split at h1
      · rename_i hne
        rw [hz, if_neg (by simp)] at h1
        cases h1
        right
        refine ⟨rfl, ?_⟩
        intro hc
        cases hc
        exact hne rfl
      · cases h1; exact .inl rfl
  have hz1 : j1.zij = none := by
    rcases hj1 with h | ⟨h, _⟩
    · rw [h, hz]
    · rw [h]
  have hj2 : j2 = j1 ∧ ∀ ch ∈ j1.chain, ch.fr ≠ c'.serial := by
    unfold acyclic at h2
    split at h2
    · rw [hz1] at h2; cases h2
    · rename_i hany
      cases h2
      refine ⟨rfl, ?_⟩
      intro ch hch he
      apply hany
      rw [List.any_eq_true]
      exact ⟨ch, hch, by rw [decide_eq_true_iff]; exact he⟩
  rw [hj2.1] at h3
  rw [h3]
  refine ⟨hz1, ?_, ?_⟩
  · intro ch hch
    rcases List.mem_append.mp hch with hch | hch
    · exact hj2.2 ch hch
    · rw [List.mem_singleton] at hch
      rw [hch]
      exact older_ne ho
  · rcases hj1 with hj | ⟨hj, hs⟩
    · left; rw [hj]
    · right; refine ⟨by rw [hj]; rfl, hs⟩

theorem loadFile_insert {j j' : Jour} {f c c' : Cont} (hz : j.zij = none)
    (h : insert j (chOf c c') = .ok j') (hf : loadFile j f = .ok c) : loadFile j' f = .ok c' := by
  obtain ⟨_, _, hch⟩ := insert_changes hz h
  unfold loadFile at hf ⊢
  by_cases hs : suffix f.serial j.chain = []
  · rw [hs] at hf
    simp only [applyAll, Out.ok.injEq] at hf
    have hfr : (chOf c c').fr = f.serial := by rw [hf]; rfl
    have h1 : suffix f.serial [chOf c c'] = [chOf c c'] := by rw [← hfr]; exact suffix_head
    have h2 : suffix f.serial j'.chain = [chOf c c'] := by
      rcases hch with hch | ⟨hch, _⟩
      · rw [hch, suffix_append_none _ (suffix_nil hs), h1]
      · rw [hch, h1]
    rw [h2, hf]
    simp only [applyAll, applyCh_chOf]
  · have hlast : serialTo j = some c.serial := by
      rcases applyAll_last _ _ _ hf with ⟨h1, _⟩ | h1
      · rw [suffix_last hs] at h1
        exfalso
        cases hl : j.chain.getLast? with
        | none => rw [List.getLast?_eq_none_iff] at hl; rw [hl] at hs; exact hs rfl
        | some x => rw [hl] at h1; simp at h1
      · rw [suffix_last hs] at h1
        unfold serialTo
        cases hl : j.chain.getLast? with
        | none => rw [hl] at h1; simp at h1
        | some x => rw [hl] at h1; simpa using h1
    rcases hch with hch | ⟨_, hch⟩
    · rw [hch, suffix_append _ hs, applyAll_append _ _ _ _ hf]
      exact applyCh_chOf c c'
    · exact absurd hlast hch

theorem rest_self {cfg : Cfg} {next : UInt32 → UInt32} {w : World} {c : Cont} (hm : w.mem = some c) :
    rest cfg next w c (some c) = (w, none) := by
  have hrest : rest cfg next w c (some c) = finish cfg next w (orKeep w c (fromDifferences (flagOf w) c c)) := rfl
  rw [hrest]
  cases hd : fromDifferences (flagOf w) c c with
  | error e => exact absurd rfl (diff_err hd).2.1
  | ok u =>
    have hfin : finish cfg next w (orKeep w c (.ok u)) = commit cfg next w (revert cfg u) := rfl
    rw [hfin]
    obtain ⟨hu, hf1, hrec, hcase⟩ := from_diff (flagOf_ne w) hd
    have hc : u.cont = c := by
      have hso : u.soaTo = none := by
        rcases hcase with ⟨_, h⟩ | ⟨h, _⟩
        · exact h
        · exact absurd h (older_irrefl _)
      rcases hu.soa with ⟨_, h1, h2⟩ | h1
      · cases hh : u.cont; cases c; simp_all
      · rw [hso] at h1; cases h1
    obtain ⟨h1, h2, h3⟩ := revert_from (cfg := cfg) hu
    have hc2 : (revert cfg u).cont = c := by
      rcases h3 with h3 | h3
      · rw [h3, hc]
      · exact h3.1
    rcases commit_from (cfg := cfg) (next := next) (w := w) h1 with ⟨_, h⟩ | ⟨h, _⟩ | ⟨h, _⟩
    · rcases h with ⟨h4, h5⟩ | ⟨h4, h5⟩
      · exact h5
      · rw [h2, hf1] at h4
        unfold flagOf at h4
        rw [hm] at h4
        rw [if_neg (by simp)] at h4
        cases h4
    · exact absurd hc2 h
    · exact absurd hc2 h

/-- The load of a zone with journal-content `changes` whose file is read as `t`. -/
theorem load_changes {cfg : Cfg} {next : UInt32 → UInt32} {w : World} {f t : Cont}
    (hc : cfg.content = .changes) (hl : cfg.load = .whole ∨ cfg.load = .diff)
    (hf : w.file = some f) (ht : loadFile w.jour f = .ok t) :
    eventLoad cfg next w =
      if w.mem = none ∨ cfg.load = .whole then .done { w with mem := some t } none
      else .of (rest cfg next w (w.mem.getD t) (some t)) := by
  have h1 : journalConts cfg w = .inr () := by
    unfold journalConts; rw [if_neg (by rw [hc]; simp)]
  have h2 : eventLoad cfg next w = loadWith cfg next w none := by
    unfold eventLoad; rw [h1]
  have hln : cfg.load ≠ .none := by rcases hl with h | h <;> rw [h] <;> simp
  have hld : cfg.load ≠ .difse := by rcases hl with h | h <;> rw [h] <;> simp
  have h3 : fixSerial cfg next (w.mem <|> none) f = f := by
    unfold fixSerial
    cases (w.mem <|> none) with
    | none => rfl
    | some r => dsimp only; rw [if_neg hld]
  have h4 : fileConts cfg w.jour f = .ok t := by
    unfold fileConts; rw [if_pos (by rw [hc]; simp), ht]
  have h5 : loadWith cfg next w none = .of (loadFinish cfg next w none (some t)) := by
    unfold loadWith
    rw [if_neg hln, hf]
    dsimp only
    rw [h3, h4]
    rfl
  have h6 : storeZone cfg w ((none : Option Cont).isSome || w.jour.zij.isSome) (some t) = w := by
    unfold storeZone; rw [if_neg (by rw [hc]; simp)]
  have h7 : loadFinish cfg next w none (some t) = finish cfg next w (update cfg w none (some t)) := by
    unfold loadFinish; dsimp only; rw [h6]
  have hff : fileFlag cfg = .hybrid := by
    unfold fileFlag; rw [if_neg (by rw [hc]; simp)]
  have hhy : ∀ c : Cont, finish cfg next w (.ok (fromContents .hybrid c)) = ({ w with mem := some c }, none) := by
    intro c
    have : finish cfg next w (.ok (fromContents .hybrid c)) =
      commit cfg next w (revert cfg (fromContents .hybrid c)) := rfl
    rw [this, keep_hybrid]
  rw [h2, h5, h7]
  cases hm : w.mem with
  | none =>
    rw [if_pos (.inl rfl)]
    have : update cfg w none (some t) = .ok (fromContents .hybrid t) := by
      unfold update; rw [hm]; dsimp only; unfold updateStart; dsimp only; rw [hff]
    rw [this, hhy]
    rfl
  | some c =>
    by_cases hw : cfg.load = .whole
    · rw [if_pos (.inr hw)]
      have : update cfg w none (some t) = .ok (fromContents .hybrid t) := by
        unfold update; rw [hm]; dsimp only; unfold updateLoaded; dsimp only; rw [if_pos hw, hff]
      rw [this, hhy]
      rfl
    · rw [if_neg (by simp [hw])]
      rw [upd_running hw hm]
      rfl

theorem careful_inv {cfg : Cfg} (hc : cfg.content = .changes) (hl : cfg.load = .whole ∨ cfg.load = .diff)
    {w : World} {last : Option Cont} {ed : Bool} (h : Careful cfg w last ed) : InvC w last ed := by
  have hln : cfg.load ≠ .none := by rcases hl with h | h <;> rw [h] <;> simp
  have hld : cfg.load ≠ .difse := by rcases hl with h | h <;> rw [h] <;> simp
  induction h with
  | start =>
    exact ⟨rfl, (fun c h => by cases h), (fun c h => by cases h), (fun _ _ => rfl),
      (fun _ c h => by cases h), (fun h => by cases h)⟩
  | edit f _ h1 h2 ih =>
    exact ⟨ih.zij, ih.keys, ih.mem, (fun h => by cases h), (fun h => by cases h),
      fun _ => ⟨f, rfl, h2, h1⟩⟩
  | @flush w last ed _ ih =>
    unfold Zload.flush
    cases hm : w.mem with
    | none =>
      dsimp only
      rw [if_pos rfl]
      exact ih
    | some c =>
      dsimp only
      rw [if_neg (by simp)]
      have hlast := ih.mem c hm
      refine ⟨ih.zij, ih.keys, (fun c2 h2 => by cases h2; exact hlast), ?_, ?_, (fun h => by cases h)⟩
      · intro _ h; rw [hlast] at h; cases h
      · intro _ c2 h2
        rw [hlast] at h2
        cases h2
        exact ⟨c, rfl, loadFile_none (ih.keys c hlast)⟩
  | stop _ ih =>
    exact ⟨ih.zij, ih.keys, (fun c h => by cases h), ih.none, ih.file, ih.edit⟩
  | @change w w' last e next c' _ hs ih =>
    have hsame : InvC w (w.mem <|> last) false := by
      have : (w.mem <|> last) = last := by
        cases hm : w.mem with
        | none => rfl
        | some c => rw [ih.mem c hm]; rfl
      rw [this]; exact ih
    cases hm : w.mem with
    | none =>
      have : Zload.change cfg next w c' = (w, some .noent) := by unfold Zload.change; rw [hm]
      rw [this] at hs
      cases hs
      exact hsame
    | some c =>
      rcases change_from (cfg := cfg) (next := next) (c' := c') hm with h | ⟨_, h⟩ | ⟨h, _⟩ | ⟨_, j', hj, h⟩
      · rw [h] at hs; cases hs; exact hsame
      · rw [h] at hs; cases hs; exact hsame
      · rw [hc] at h; cases h
      · rw [h] at hs
        cases hs
        obtain ⟨hz, hk, _⟩ := insert_changes ih.zij hj
        obtain ⟨f, hf, hlf⟩ := ih.file rfl c (ih.mem c hm)
        refine ⟨hz, ?_, ?_, ?_, ?_, (fun h => by cases h)⟩
        · intro c2 h2; cases h2; exact hk
        · intro c2 h2; cases h2; rfl
        · intro _ h2; cases h2
        · intro _ c2 h2; cases h2
          exact ⟨f, hf, loadFile_insert ih.zij hj hlf⟩
  | @load w w' last ed e next _ hs ih =>
    have hsame : ∀ b, InvC w last b → InvC w (w.mem <|> last) b := by
      intro b hb
      have : (w.mem <|> last) = last := by
        cases hm : w.mem with
        | none => rfl
        | some c => rw [ih.mem c hm]; rfl
      rw [this]; exact hb
    cases hf : w.file with
    | none =>
      have : eventLoad cfg next w = .done w (some .parse) := by
        have h1 : journalConts cfg w = .inr () := by
          unfold journalConts; rw [if_neg (by rw [hc]; simp)]
        unfold eventLoad
        rw [h1]
        dsimp only
        unfold loadWith
        rw [if_neg hln, hf]
      rw [this] at hs
      cases hs
      rw [if_neg (by simp)]
      exact hsame _ ih
    | some f =>
      -- what the file is read as
      have ht : ∃ t, loadFile w.jour f = .ok t ∧ (∀ ch ∈ w.jour.chain, ch.fr ≠ t.serial) ∧
          ((ed = false ∧ last = some t) ∨
            (ed = true ∧ t = f ∧ ∀ c, last = some c → Older c.serial f.serial)) := by
        cases ed with
        | false =>
          cases hla : last with
          | none => rw [ih.none rfl hla] at hf; cases hf
          | some c =>
            obtain ⟨f2, h2, h3⟩ := ih.file rfl c hla
            rw [hf] at h2
            cases h2
            exact ⟨c, h3, ih.keys c hla, .inl ⟨rfl, rfl⟩⟩
        | true =>
          obtain ⟨f2, h2, h3, h4⟩ := ih.edit rfl
          rw [hf] at h2
          cases h2
          exact ⟨f, loadFile_none h3, h3, .inr ⟨rfl, rfl, h4⟩⟩
      obtain ⟨t, ht, hk, hcase⟩ := ht
      have hkeep : InvC { w with mem := some t } (some t) false :=
        ⟨ih.zij, (fun c h => by cases h; exact hk), (fun c h => by cases h; rfl), (fun _ h => by cases h),
          (fun _ c h => by cases h; exact ⟨f, hf, ht⟩), (fun h => by cases h)⟩
      rw [load_changes hc hl hf ht] at hs
      split at hs
      · cases hs
        rw [if_pos rfl]
        exact hkeep
      · rename_i hcond
        have hs := Ret.of_inj hs
        cases hm : w.mem with
        | none => exact absurd (.inl hm) hcond
        | some c =>
          rw [hm] at hs
          dsimp only [Option.getD_some] at hs
          have hlast := ih.mem c hm
          rcases hcase with ⟨he, hla⟩ | ⟨he, htf, ho⟩
          · rw [hlast] at hla
            cases hla
            rw [rest_self hm] at hs
            cases hs
            rw [if_pos rfl, hm]
            exact ⟨hkeep.zij, hkeep.keys, (fun c2 h2 => by rw [hm] at h2; exact h2), hkeep.none, hkeep.file,
              hkeep.edit⟩
          · subst htf
            rcases rest_newer (cfg := cfg) (next := next) (w := w) (ho c hlast) (.inl hld) with
              ⟨h, _⟩ | ⟨_, j', hj, h⟩ | ⟨_, e2, _, h⟩
            · rw [hc] at h; cases h
            · rw [h] at hs
              cases hs
              rw [if_pos rfl]
              obtain ⟨hz, hk2, _⟩ := insert_changes ih.zij hj
              refine ⟨hz, ?_, ?_, ?_, ?_, (fun h => by cases h)⟩
              · intro c2 h2; cases h2; exact hk2
              · intro c2 h2; cases h2; rfl
              · intro _ h2; cases h2
              · intro _ c2 h2; cases h2
                exact ⟨t, hf, loadFile_none hk2⟩
            · rw [h] at hs
              cases hs
              rw [if_neg (by simp)]
              exact hsame _ ih

end Knot.Zload
