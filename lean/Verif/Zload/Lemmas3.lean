import Verif.Zload.Lemmas2
/-! # Lemmas for C53: the load -/
namespace Knot.Zload
open Knot Knot.Serial

/-- The flag of an update of a zone that is loaded, or not. -/
def flagOf (w : World) : Flag := if w.mem = none then .hybrid else .incremental

theorem flagOf_ne (w : World) : flagOf w ≠ .full := by
  unfold flagOf; split <;> simp

/-- The zone with its contents in the journal, if they are to be there. -/
def stored (cfg : Cfg) (w : World) (c : Cont) : World :=
  { w with jour := if cfg.content = .all ∧ w.jour.zij.isSome = false then insertZone c else w.jour }

/-- A refused file is ignored at the start. -/
def orKeep (w : World) (c : Cont) : Except Err Upd → Except Err Upd
  | .ok u => .ok u
  | .error e => if w.mem = none then .ok (fromContents .hybrid c) else .error e

/-- The update, given the contents `c` to start from and those of the file. -/
def upd (w : World) (c : Cont) : Option Cont → Except Err Upd
  | none => .ok (fromContents (flagOf w) c)
  | some zf => orKeep w c (fromDifferences (flagOf w) c zf)

/-- The rest of the load, given the contents `c` to start from and those of the file. -/
def rest (cfg : Cfg) (next : UInt32 → UInt32) (w : World) (c : Cont) (zf : Option Cont) : World × Option Err :=
  finish cfg next w (upd w c zf)

theorem orKeep_some {w : World} {c c0 : Cont} (hm : w.mem = some c0) (r : Except Err Upd) :
    orKeep w c r = r := by
  cases r with
  | ok u => rfl
  | error e => unfold orKeep; rw [hm]; rfl

theorem orKeep_none {w : World} {c : Cont} (hm : w.mem = none) (r : Except Err Upd)
    (h : ∀ e, r = .error e → e = .range) : orKeep w c r = ignoreFile c r := by
  cases r with
  | ok u => rfl
  | error e => rw [h e rfl]; unfold orKeep ignoreFile; rw [hm]; rfl

theorem upd_running {cfg : Cfg} {w : World} {c : Cont} (hl : cfg.load ≠ .whole)
    (hm : w.mem = some c) (jc zf : Option Cont) : update cfg w jc zf = upd w c zf := by
  have hf : flagOf w = .incremental := by unfold flagOf; rw [hm]; rfl
  unfold update
  rw [hm]
  dsimp only
  unfold updateLoaded upd
  rw [hf]
  cases zf with
  | none => rfl
  | some f =>
    dsimp only
    rw [if_neg hl, orKeep_some hm]

theorem upd_start {cfg : Cfg} {w : World} {c : Cont} (hm : w.mem = none) (zf : Option Cont) :
    update cfg w (some c) zf = upd w c zf := by
  have hf : flagOf w = .hybrid := by unfold flagOf; rw [hm]; rfl
  unfold update
  rw [hm]
  dsimp only
  unfold updateStart upd
  rw [hf]
  cases zf with
  | none => rfl
  | some f =>
    dsimp only
    rw [orKeep_none hm _ (fun e he => (diff_err he).1)]

theorem finish_running {cfg : Cfg} {next : UInt32 → UInt32} {w : World} {c : Cont} (hl : cfg.load ≠ .whole)
    (hm : w.mem = some c) (zf : Option Cont) :
    loadFinish cfg next w none zf = rest cfg next (stored cfg w c) c zf := by
  have hs : storeZone cfg w w.jour.zij.isSome zf = stored cfg w c := by
    unfold storeZone stored
    split
    · rename_i h; rw [hm]
    · rfl
  have hm' : (stored cfg w c).mem = some c := hm
  unfold loadFinish rest
  dsimp only [Option.isSome_none]
  rw [Bool.false_or, hs, upd_running hl hm']

theorem finish_start {cfg : Cfg} {next : UInt32 → UInt32} {w : World} {c : Cont}
    (hm : w.mem = none) (zf : Option Cont) :
    loadFinish cfg next w (some c) zf = rest cfg next w c zf := by
  have hs : storeZone cfg w true zf = w := by
    unfold storeZone; rw [if_neg (by simp)]
  unfold loadFinish rest
  dsimp only [Option.isSome_some]
  rw [Bool.true_or, hs, upd_start hm]

/-- The contents of the file that take part. -/
def fileOf (cfg : Cfg) (next : UInt32 → UInt32) (w : World) (c : Cont) : Option Out :=
  if cfg.load = .none then none
  else w.file.map (fun f => fileConts cfg w.jour (fixSerial cfg next (some c) f))

/-- The end of the load for what was read from the file. -/
def ending (cfg : Cfg) (next : UInt32 → UInt32) (w : World) (c : Cont) : Option Out → Ret
  | some .odd => .odd
  | some (.ok zf) => .of (rest cfg next w c (some zf))
  | _ => .of (rest cfg next w c none)

/-- The load of a zone that is loaded. -/
theorem load_running {cfg : Cfg} {next : UInt32 → UInt32} {w : World} {c : Cont} (hl : cfg.load ≠ .whole)
    (hm : w.mem = some c) :
    eventLoad cfg next w =
      if cfg.load ≠ .none ∧ w.file = none then .done w (some .parse)
      else ending cfg next (stored cfg w c) c (fileOf cfg next w c) := by
  have h1 : journalConts cfg w = .inr () := by
    unfold journalConts; rw [if_neg (by rw [hm]; simp)]
  unfold eventLoad
  rw [h1]
  dsimp only
  have hout : ∀ o, loadOut cfg next w none o = ending cfg next (stored cfg w c) c (some o) := by
    intro o
    cases o with
    | ok zf => unfold loadOut ending; dsimp only; rw [finish_running hl hm]
    | err e => unfold loadOut ending; dsimp only; rw [finish_running hl hm]
    | odd => rfl
  have hor : (w.mem <|> none) = some c := by rw [hm]; rfl
  unfold loadWith fileOf
  by_cases hn : cfg.load = .none
  · rw [if_pos hn, if_neg (by simp [hn]), if_pos hn, finish_running hl hm]
    rfl
  · rw [if_neg hn, if_neg hn]
    cases hf : w.file with
    | none => rw [if_pos ⟨hn, rfl⟩]
    | some f =>
      rw [if_neg (by simp)]
      dsimp only [Option.map_some]
      rw [hor, hout]

/-- The load at the start, with the zone in the journal. -/
theorem load_start {cfg : Cfg} {next : UInt32 → UInt32} {w : World} {c : Cont} (hl : cfg.load ≠ .whole)
    (ha : cfg.content = .all) (hm : w.mem = none) (hh : Holds w.jour c) :
    eventLoad cfg next w =
      if cfg.load ≠ .none ∧ w.file = none then .done w (some .parse)
      else ending cfg next w c (fileOf cfg next w c) := by
  have h1 : journalConts cfg w = .inl (.ok c) := by
    unfold journalConts
    rw [if_pos ⟨hm, ha, hl⟩, holds_loadZone hh]
  unfold eventLoad
  rw [h1]
  dsimp only
  have hout : ∀ o, loadOut cfg next w (some c) o = ending cfg next w c (some o) := by
    intro o
    cases o with
    | ok zf => unfold loadOut ending; dsimp only; rw [finish_start hm]
    | err e => unfold loadOut ending; dsimp only; rw [finish_start hm]
    | odd => rfl
  have hor : (w.mem <|> (some c)) = some c := by rw [hm]; rfl
  unfold loadWith fileOf
  by_cases hn : cfg.load = .none
  · rw [if_pos hn, if_neg (by simp [hn]), if_pos hn, finish_start hm]
    rfl
  · rw [if_neg hn, if_neg hn]
    cases hf : w.file with
    | none => rw [if_pos ⟨hn, rfl⟩]
    | some f =>
      rw [if_neg (by simp)]
      dsimp only [Option.map_some]
      rw [hor, hout]

theorem stored_holds {cfg : Cfg} {w : World} {c c0 : Cont} (h : Holds w.jour c0) : stored cfg w c = w := by
  obtain ⟨z, hz, _⟩ := h
  unfold stored
  rw [if_neg (by rw [hz]; simp)]

/-- The load of a zone whose contents are in the journal. -/
theorem load_held {cfg : Cfg} {next : UInt32 → UInt32} {w : World} {c : Cont} (hl : cfg.load ≠ .whole)
    (ha : cfg.content = .all) (hm : w.mem = none ∨ w.mem = some c) (hh : Holds w.jour c) :
    eventLoad cfg next w =
      if cfg.load ≠ .none ∧ w.file = none then .done w (some .parse)
      else ending cfg next w c (fileOf cfg next w c) := by
  rcases hm with hm | hm
  · exact load_start hl ha hm hh
  · rw [load_running hl hm, stored_holds hh]

/-! ## What the rest does -/

/-- The rest either keeps the contents, or refuses the new ones, or goes to newer ones. -/
theorem rest_cases {cfg : Cfg} {next : UInt32 → UInt32} {w : World} {c : Cont}
    (hm : w.mem = none ∨ w.mem = some c) (zf : Option Cont) :
    rest cfg next w c zf = ({ w with mem := some c }, none) ∨
    (∃ e, rest cfg next w c zf = (w, some e) ∧ ((w.mem ≠ none ∧ e = .range) ∨
      ¬ Older c.serial (next c.serial) ∨
      ∃ c', Older c.serial c'.serial ∧ insert w.jour (chOf c c') = .error e)) ∨
    ∃ c' j', rest cfg next w c zf = ({ w with jour := j', mem := some c' }, none) ∧
      Older c.serial c'.serial ∧
      ((cfg.content = .none ∧ j' = w.jour) ∨ (cfg.content ≠ .none ∧ insert w.jour (chOf c c') = .ok j')) := by
  have hkeep : ∀ u : Upd, From c u → u.flag = flagOf w → u.cont = c →
      commit cfg next w u = ({ w with mem := some c }, none) := by
    intro u hu hfl hc
    rcases commit_from (cfg := cfg) (next := next) (w := w) hu with ⟨_, h⟩ | ⟨h, _⟩ | ⟨h, _⟩
    · rcases h with ⟨h1, h2⟩ | ⟨h1, h2⟩
      · rcases hm with hm | hm
        · rw [hfl] at h1; unfold flagOf at h1; rw [if_pos hm] at h1; cases h1
        · rw [h2]; cases w; simp only at hm; rw [hm]
      · exact h2
    · exact absurd hc h
    · exact absurd hc h
  have hsame : ∀ flag : Flag, flag ≠ .full → flag = flagOf w →
      commit cfg next w (revert cfg (fromContents flag c)) = ({ w with mem := some c }, none) := by
    intro flag hfl hfl'
    obtain ⟨h1, h2, h3⟩ := revert_from (cfg := cfg) (from_same (flag := flag) c hfl)
    apply hkeep _ h1 (by rw [h2, ← hfl']; rfl)
    rcases h3 with h3 | h3
    · rw [h3]; rfl
    · exact h3.1
  cases zf with
  | none => exact .inl (hsame _ (flagOf_ne w) rfl)
  | some f =>
    have hrest : rest cfg next w c (some f) = finish cfg next w (orKeep w c (fromDifferences (flagOf w) c f)) := rfl
    rw [hrest]
    cases hd : fromDifferences (flagOf w) c f with
    | error e =>
      by_cases hn : w.mem = none
      · have : orKeep w c (.error e) = .ok (fromContents .hybrid c) := by unfold orKeep; dsimp only; rw [if_pos hn]
        rw [this]
        exact .inl (hsame _ (by simp) (by unfold flagOf; rw [if_pos hn]))
      · have : orKeep w c (.error e) = .error e := by unfold orKeep; dsimp only; rw [if_neg hn]
        rw [this]
        exact .inr (.inl ⟨e, rfl, .inl ⟨hn, (diff_err hd).1⟩⟩)
    | ok u =>
      have : finish cfg next w (orKeep w c (.ok u)) = commit cfg next w (revert cfg u) := rfl
      rw [this]
      obtain ⟨hu, hf1, hrec, hcase⟩ := from_diff (flagOf_ne w) hd
      obtain ⟨h1, h2, h3⟩ := revert_from (cfg := cfg) hu
      rcases h3 with h3 | ⟨h3, _⟩
      · rw [h3]
        rcases commit_from (cfg := cfg) (next := next) (w := w) hu with ⟨hc, _⟩ | ⟨_, c', hr, hs, hA, hB, hC⟩ | ⟨_, _, hno, h⟩
        · exact .inl (hkeep u hu hf1 hc)
        · have ho : Older c.serial c'.serial := by
            rcases hcase with ⟨_, hn⟩ | ⟨h4, h5, h6⟩
            · exact (hB hn).2
            · rw [hA (by rw [h5]; simp), h6]; exact h4
          rcases hC with ⟨h4, h5⟩ | ⟨h4, j', h5, h6⟩ | ⟨h4, e, h5, h6⟩
          · exact .inr (.inr ⟨c', w.jour, h5, ho, .inl ⟨h4, rfl⟩⟩)
          · exact .inr (.inr ⟨c', j', h6, ho, .inr ⟨h4, h5⟩⟩)
          · exact .inr (.inl ⟨e, h6, .inr (.inr ⟨c', ho, h5⟩)⟩)
        · exact .inr (.inl ⟨_, h, .inr (.inl hno)⟩)
      · exact .inl (hkeep _ h1 (by rw [h2, hf1]) h3)

/-- The contents after the rest, if the file is newer and is taken. -/
theorem rest_newer {cfg : Cfg} {next : UInt32 → UInt32} {w : World} {c zf : Cont}
    (ho : Older c.serial zf.serial)
    (hd : cfg.load ≠ .difse ∨ ¬ (zf.recs = c.recs ∧ zf.soa = c.soa)) :
    (cfg.content = .none ∧ rest cfg next w c (some zf) = ({ w with mem := some zf }, none)) ∨
    (cfg.content ≠ .none ∧ ∃ j', insert w.jour (chOf c zf) = .ok j' ∧
      rest cfg next w c (some zf) = ({ w with jour := j', mem := some zf }, none)) ∨
    (cfg.content ≠ .none ∧ ∃ e, insert w.jour (chOf c zf) = .error e ∧
      rest cfg next w c (some zf) = (w, some e)) := by
  have hrest : rest cfg next w c (some zf) = finish cfg next w (orKeep w c (fromDifferences (flagOf w) c zf)) := rfl
  rw [hrest]
  cases hdf : fromDifferences (flagOf w) c zf with
  | error e => exact absurd ho (diff_err hdf).2.2
  | ok u =>
    have hfin : finish cfg next w (orKeep w c (.ok u)) = commit cfg next w (revert cfg u) := rfl
    rw [hfin]
    obtain ⟨hu, hf1, hrec, hcase⟩ := from_diff (flagOf_ne w) hdf
    have hcase : Older c.serial zf.serial ∧ u.soaTo = some (zf.serial, zf.soa) ∧ u.cont = zf := by
      rcases hcase with ⟨h1, _⟩ | h1
      · exact absurd h1.symm (older_ne ho)
      · exact h1
    obtain ⟨h1, h2, h3⟩ := revert_from (cfg := cfg) hu
    have h3 : revert cfg u = u := by
      rcases h3 with h3 | ⟨_, h4, h5, h6⟩
      · exact h3
      · rcases hd with hd | hd
        · exact absurd h4 hd
        · rw [hcase.2.2] at h5 h6; exact absurd ⟨h5, h6⟩ hd
    rw [h3]
    rcases commit_from (cfg := cfg) (next := next) (w := w) hu with ⟨hc, _⟩ | ⟨_, c', hr, hs, hA, hB, hC⟩ | ⟨_, h4, _⟩
    · rw [hcase.2.2] at hc
      rw [hc] at ho; exact absurd ho (older_irrefl _)
    · have hcc : c' = zf := by rw [hA (by rw [hcase.2.1]; simp), hcase.2.2]
      subst hcc
      exact hC
    · rw [hcase.2.1] at h4; cases h4

/-- The serial alone does not make a change with `difference-no-serial`. -/
theorem rest_same {cfg : Cfg} {next : UInt32 → UInt32} {w : World} {c zf : Cont}
    (hm : w.mem = none ∨ w.mem = some c) (hl : cfg.load = .difse) (ho : Older c.serial zf.serial)
    (hr : zf.recs = c.recs) (hs : zf.soa = c.soa) :
    rest cfg next w c (some zf) = ({ w with mem := some c }, none) := by
  have hrest : rest cfg next w c (some zf) = finish cfg next w (orKeep w c (fromDifferences (flagOf w) c zf)) := rfl
  rw [hrest]
  cases hdf : fromDifferences (flagOf w) c zf with
  | error e => exact absurd ho (diff_err hdf).2.2
  | ok u =>
    have hfin : finish cfg next w (orKeep w c (.ok u)) = commit cfg next w (revert cfg u) := rfl
    rw [hfin]
    obtain ⟨hu, hf1, hrec, hcase⟩ := from_diff (flagOf_ne w) hdf
    have hcase : Older c.serial zf.serial ∧ u.soaTo = some (zf.serial, zf.soa) ∧ u.cont = zf := by
      rcases hcase with ⟨h1, _⟩ | h1
      · exact absurd h1.symm (older_ne ho)
      · exact h1
    have hj : justSerial u = true := by
      unfold justSerial
      rw [hcase.2.1]
      dsimp only
      rw [decide_eq_true_iff, hu.fr, hu.rem, hu.add, hcase.2.2, hr]
      exact ⟨hs, sdiff_self' _, sdiff_self' _⟩
    have hrv : revert cfg u = reverse u := by
      unfold revert; rw [if_pos ⟨hl, hu.flag, hj⟩]
    obtain ⟨h1, h2, _⟩ := reverse_from hu hj
    rw [hrv]
    rcases commit_from (cfg := cfg) (next := next) (w := w) h1 with ⟨_, h⟩ | ⟨h, _⟩ | ⟨h, _⟩
    · rcases h with ⟨h3, h4⟩ | ⟨h3, h4⟩
      · rcases hm with hm | hm
        · have : u.flag = .incremental := h3
          rw [hf1] at this; unfold flagOf at this; rw [if_pos hm] at this; cases this
        · rw [h4]; cases w; simp only at hm; rw [hm]
      · exact h4
    · exact absurd h2 h
    · exact absurd h2 h

end Knot.Zload
