import Verif.Zload.Lemmas5
/-! # C53: the zone served before a restart is served after it -/
namespace Knot.Zload
open Knot

/-! ## What the load does, for a zone with its contents in the journal -/

theorem rest_none {cfg : Cfg} {next : UInt32 → UInt32} {w : World} {c : Cont}
    (hm : w.mem = none ∨ w.mem = some c) :
    rest cfg next w c none = ({ w with mem := some c }, none) := by
  have hrest : rest cfg next w c none = commit cfg next w (revert cfg (fromContents (flagOf w) c)) := rfl
  rw [hrest]
  obtain ⟨h1, h2, h3⟩ := revert_from (cfg := cfg) (from_same (flag := flagOf w) c (flagOf_ne w))
  have hc : (revert cfg (fromContents (flagOf w) c)).cont = c := by
    rcases h3 with h3 | h3
    · rw [h3]; rfl
    · exact h3.1
  rcases commit_from (cfg := cfg) (next := next) (w := w) h1 with ⟨_, h⟩ | ⟨h, _⟩ | ⟨h, _⟩
  · rcases h with ⟨h4, h5⟩ | ⟨_, h5⟩
    · rcases hm with hm | hm
      · rw [h2] at h4
        have : flagOf w = .incremental := h4
        unfold flagOf at this; rw [if_pos hm] at this; cases this
      · rw [h5]; cases w; simp only at hm; rw [hm]
    · exact h5
  · exact absurd hc h
  · exact absurd hc h

/-- A file that is not newer is left at the start and refused when the zone is loaded. -/
theorem rest_older {cfg : Cfg} {next : UInt32 → UInt32} {w : World} {c zf : Cont}
    (hne : zf.serial ≠ c.serial) (ho : ¬ Older c.serial zf.serial) :
    rest cfg next w c (some zf) =
      if w.mem = none then ({ w with mem := some c }, none) else (w, some .range) := by
  have hrest : rest cfg next w c (some zf) = finish cfg next w (orKeep w c (fromDifferences (flagOf w) c zf)) := rfl
  rw [hrest]
  cases hdf : fromDifferences (flagOf w) c zf with
  | ok u =>
    obtain ⟨_, _, _, hcase⟩ := from_diff (flagOf_ne w) hdf
    rcases hcase with ⟨h, _⟩ | ⟨h, _⟩
    · exact absurd h hne
    · exact absurd h ho
  | error e =>
    rw [(diff_err hdf).1]
    by_cases hm : w.mem = none
    · have : orKeep w c (.error .range) = .ok (fromContents .hybrid c) := by
        unfold orKeep; dsimp only; rw [if_pos hm]
      rw [this, if_pos hm]
      exact keep_hybrid c
    · have : orKeep w c (.error .range) = .error .range := by
        unfold orKeep; dsimp only; rw [if_neg hm]
      rw [this, if_neg hm]
      rfl

/-- A file with the serial of the zone. -/
theorem rest_equal {cfg : Cfg} {next : UInt32 → UInt32} {w : World} {c zf : Cont}
    (hm : w.mem = none ∨ w.mem = some c) (he : zf.serial = c.serial)
    (hl : cfg.load ≠ .difse) (hn : Older c.serial (next c.serial)) :
    (zf.recs = c.recs ∧ rest cfg next w c (some zf) = ({ w with mem := some c }, none)) ∨
    (zf.recs ≠ c.recs ∧
      ((cfg.content = .none ∧
        rest cfg next w c (some zf) = ({ w with mem := some ⟨next c.serial, c.soa, zf.recs⟩ }, none)) ∨
       (cfg.content ≠ .none ∧ ∃ j', insert w.jour (chOf c ⟨next c.serial, c.soa, zf.recs⟩) = .ok j' ∧
        rest cfg next w c (some zf) =
          ({ w with jour := j', mem := some ⟨next c.serial, c.soa, zf.recs⟩ }, none)) ∨
       (cfg.content ≠ .none ∧ ∃ e, insert w.jour (chOf c ⟨next c.serial, c.soa, zf.recs⟩) = .error e ∧
        rest cfg next w c (some zf) = (w, some e)))) := by
  have hrest : rest cfg next w c (some zf) = finish cfg next w (orKeep w c (fromDifferences (flagOf w) c zf)) := rfl
  rw [hrest]
  cases hdf : fromDifferences (flagOf w) c zf with
  | error e => exact absurd he (diff_err hdf).2.1
  | ok u =>
    have hfin : finish cfg next w (orKeep w c (.ok u)) = commit cfg next w (revert cfg u) := rfl
    rw [hfin]
    obtain ⟨hu, hf1, hrec, hcase⟩ := from_diff (flagOf_ne w) hdf
    have hso : u.soaTo = none := by
      rcases hcase with ⟨_, h⟩ | ⟨h, _⟩
      · exact h
      · rw [he] at h; exact absurd h (older_irrefl _)
    obtain ⟨_, _, h3⟩ := revert_from (cfg := cfg) hu
    have h3 : revert cfg u = u := by
      rcases h3 with h3 | ⟨_, h4, _⟩
      · exact h3
      · exact absurd h4 hl
    rw [h3]
    have hcont : u.cont.serial = c.serial ∧ u.cont.soa = c.soa := by
      rcases hu.soa with ⟨_, h⟩ | h
      · exact h
      · rw [hso] at h; cases h
    rcases commit_from (cfg := cfg) (next := next) (w := w) hu with ⟨hc, h⟩ | ⟨hne, c', hr, hs, _, hB, hC⟩ | ⟨_, _, h5⟩
    · left
      refine ⟨by rw [← hrec, hc], ?_⟩
      rcases h with ⟨h4, h5⟩ | ⟨_, h5⟩
      · rcases hm with hm | hm
        · rw [hf1] at h4; unfold flagOf at h4; rw [if_pos hm] at h4; cases h4
        · rw [h5]; cases w; simp only at hm; rw [hm]
      · exact h5
    · right
      have hcc : c' = ⟨next c.serial, c.soa, zf.recs⟩ := by
        have h6 := (hB hso).1
        rw [hrec] at hr
        rw [hcont.2] at hs
        cases c'
        simp only at h6 hr hs
        rw [h6, hr, hs]
      subst hcc
      refine ⟨?_, hC⟩
      intro hz
      apply hne
      rw [← hrec] at hz
      cases h : u.cont; cases c; simp_all
    · exact absurd hn h5.1

theorem load_all {cfg : Cfg} {next : UInt32 → UInt32} {w : World} {c f : Cont}
    (hl : cfg.load = .diff ∨ cfg.load = .difse) (ha : cfg.content = .all)
    (hm : w.mem = none ∨ w.mem = some c) (hh : Holds w.jour c) (hf : w.file = some f) :
    eventLoad cfg next w = ending cfg next w c
      (some (loadFile w.jour (if cfg.load = .difse then { f with serial := next c.serial } else f))) := by
  have hw : cfg.load ≠ .whole := by rcases hl with h | h <;> rw [h] <;> simp
  have hn : cfg.load ≠ .none := by rcases hl with h | h <;> rw [h] <;> simp
  rw [load_held hw ha hm hh, if_neg (by rw [hf]; simp)]
  have : fileOf cfg next w c =
      some (loadFile w.jour (if cfg.load = .difse then { f with serial := next c.serial } else f)) := by
    unfold fileOf
    rw [if_neg hn, hf]
    unfold fileConts fixSerial
    rw [Option.map_some, if_pos (by rw [ha]; simp)]
  rw [this]

end Knot.Zload

namespace Knot
open Knot.Zload

/-- A serial policy that counts by one. -/
def C53_plus : UInt32 → UInt32 := fun s => s + 1

/-- C53. With `journal-content: all` and `zonefile-load: none`: after any life of the zone in which the
contents `c` were served last, the start after a crash or a restart loads exactly `c`, whatever
is in the zone file, and changes neither the file nor the journal. -/
theorem C53_restart_journal (cfg : Cfg) (ha : cfg.content = .all) (hl : cfg.load = .none) (w : World) (c : Cont)
    (h : Life cfg w (some c)) (next : UInt32 → UInt32) (f : Option Cont) :
    eventLoad cfg next { w with file := f, mem := none } = .done { w with file := f, mem := some c } none := by
  have hw : cfg.load ≠ .whole := by rw [hl]; simp
  rcases life_invA ha hw h with ⟨h1, _⟩ | ⟨c', h1, hh, _⟩
  · cases h1
  · cases h1
    rw [load_held (w := { w with file := f, mem := none }) hw ha (.inl rfl) hh, if_neg (by simp [hl])]
    have : fileOf cfg next { w with file := f, mem := none } c = none := by
      unfold fileOf; rw [if_pos hl]
    rw [this]
    show Ret.of (rest cfg next { w with file := f, mem := none } c none) = _
    rw [rest_none (.inl rfl)]
    rfl

/-- C53 (partial). With `journal-content: all` and `zonefile-load` `difference` or `difference-no-serial`: the start
after any life in which the contents `c` were served last, with a readable zone file, ends without an error
with `c` or with contents of a newer serial. Two things are assumed: the serial policy gives newer
serials, and if a stored change starts from the serial of the file (from the serial the server gives to
the file, respectively) then the other fields of its SOA are those of the file. -/
theorem C53_restart_kept_partial (cfg : Cfg) (ha : cfg.content = .all) (hl : cfg.load = .diff ∨ cfg.load = .difse)
    (w : World) (c : Cont) (h : Life cfg w (some c)) (next : UInt32 → UInt32)
    (hn : Older c.serial (next c.serial)) (f : Cont)
    (hs : ∀ ch ∈ w.jour.chain, ch.fr = (if cfg.load = .difse then next c.serial else f.serial) →
      ch.soaFr = f.soa) :
    ∃ w' c', eventLoad cfg next { w with file := some f, mem := none } = .done w' none ∧
      w'.file = some f ∧ w'.mem = some c' ∧ (c' = c ∨ Older c.serial c'.serial) := by
  have hw : cfg.load ≠ .whole := by rcases hl with h | h <;> rw [h] <;> simp
  rcases life_invA ha hw h with ⟨h1, _⟩ | ⟨c2, h1, hh, _⟩
  · cases h1
  · cases h1
    rw [load_all (w := { w with file := some f, mem := none }) hl ha (.inl rfl) hh rfl]
    have key : ∀ zf, ∃ w' c', Ret.of (rest cfg next { w with file := some f, mem := none } c zf) =
        .done w' none ∧ w'.file = some f ∧ w'.mem = some c' ∧ (c' = c ∨ Older c.serial c'.serial) := by
      intro zf
      rcases rest_cases (cfg := cfg) (next := next) (w := { w with file := some f, mem := none })
        (c := c) (.inl rfl) zf with h | ⟨e, h, hr⟩ | ⟨c', j', h, ho, _⟩
      · rw [h]; exact ⟨_, c, rfl, rfl, rfl, .inl rfl⟩
      · exfalso
        rcases hr with ⟨h1, _⟩ | h1 | ⟨c', h1, h2⟩
        · exact h1 rfl
        · exact h1 hn
        · obtain ⟨j', h3, _⟩ := holds_insert hh h1
          have h2 : insert w.jour (chOf c c') = .error e := h2
          rw [h2] at h3; cases h3
      · rw [h]; exact ⟨_, c', rfl, rfl, rfl, .inr ho⟩
    have hodd : loadFile w.jour (if cfg.load = .difse then { f with serial := next c.serial } else f) ≠ .odd := by
      apply loadFile_not_odd hh
      intro ch hch he
      have h2 := hs ch hch
      by_cases hd : cfg.load = .difse
      · rw [if_pos hd] at h2 he ⊢; exact h2 he
      · rw [if_neg hd] at h2 he ⊢; exact h2 he
    cases ho : loadFile w.jour (if cfg.load = .difse then { f with serial := next c.serial } else f) with
    | odd => exact absurd ho hodd
    | err e => exact key none
    | ok zf => exact key (some zf)

/-- C53. A reload never brings the serial of a loaded zone back: with `zonefile-load` other than `whole` and
any journal, the zone stays loaded after a reload with the same contents or with contents of a newer
serial, and with the same contents if the reload fails. -/
theorem C53_reload_serial (cfg : Cfg) (hl : cfg.load ≠ .whole) (w w' : World) (c : Cont)
    (hm : w.mem = some c) (next : UInt32 → UInt32) (e : Option Zload.Err)
    (h : eventLoad cfg next w = .done w' e) :
    w'.file = w.file ∧ ∃ c', w'.mem = some c' ∧ (c' = c ∨ (Older c.serial c'.serial ∧ e = none)) := by
  rw [load_running hl hm] at h
  split at h
  · cases h; exact ⟨rfl, c, hm, .inl rfl⟩
  · have key : ∀ zf, Ret.of (rest cfg next (stored cfg w c) c zf) = .done w' e →
        w'.file = w.file ∧ ∃ c', w'.mem = some c' ∧ (c' = c ∨ (Older c.serial c'.serial ∧ e = none)) := by
      intro zf hz
      have hz := Ret.of_inj hz
      rcases rest_cases (cfg := cfg) (next := next) (w := stored cfg w c) (c := c) (.inr hm) zf with
        h | ⟨e2, h, _⟩ | ⟨c', j', h, ho, _⟩
      · rw [h] at hz; cases hz; exact ⟨rfl, c, rfl, .inl rfl⟩
      · rw [h] at hz; cases hz; exact ⟨rfl, c, hm, .inl rfl⟩
      · rw [h] at hz; cases hz; exact ⟨rfl, c', rfl, .inr ⟨ho, rfl⟩⟩
    generalize fileOf cfg next w c = o at h
    cases o with
    | none => exact key none h
    | some o =>
      cases o with
      | ok zf => exact key (some zf) h
      | err e2 => exact key none h
      | odd => cases h

/-- C53. With `difference-no-serial` and `journal-content: all`, a load or a reload with a readable file
serves the contents of the file: if they are those of the zone served last, apart from the serial, then
nothing changes, and otherwise the zone gets the contents of the file with the next serial. So the same file
loaded again, or after a restart, changes nothing. Assumed: the policy gives a newer serial, and no stored
change starts from that. -/
theorem C53_no_serial (cfg : Cfg) (ha : cfg.content = .all) (hl : cfg.load = .difse) (w : World) (c f : Cont)
    (h : Life cfg w (some c)) (hf : w.file = some f) (next : UInt32 → UInt32)
    (hn : Older c.serial (next c.serial)) (hk : ∀ ch ∈ w.jour.chain, ch.fr ≠ next c.serial) :
    ∃ w', eventLoad cfg next w = .done w' none ∧ w'.file = some f ∧
      if f.recs = c.recs ∧ f.soa = c.soa then w'.mem = some c ∧ w'.jour = w.jour
      else w'.mem = some ⟨next c.serial, f.soa, f.recs⟩ := by
  have hw : cfg.load ≠ .whole := by rw [hl]; simp
  rcases life_invA ha hw h with ⟨h1, _⟩ | ⟨c2, h1, hh, hm⟩
  · cases h1
  · cases h1
    rw [load_all (.inr hl) ha hm hh hf, if_pos hl]
    have hlf : loadFile w.jour { f with serial := next c.serial } = .ok { f with serial := next c.serial } :=
      loadFile_none hk
    rw [hlf]
    show ∃ w', Ret.of (rest cfg next w c (some { f with serial := next c.serial })) = .done w' none ∧ _
    split
    · rename_i hsame
      rw [rest_same (zf := { f with serial := next c.serial }) hm hl hn hsame.1 hsame.2]
      exact ⟨_, rfl, hf, rfl, rfl⟩
    · rename_i hdiff
      rcases rest_newer (cfg := cfg) (next := next) (w := w) (zf := { f with serial := next c.serial })
        hn (.inr hdiff) with ⟨h, _⟩ | ⟨_, j', _, h⟩ | ⟨_, e, h, _⟩
      · rw [ha] at h; cases h
      · rw [h]; exact ⟨_, rfl, hf, rfl⟩
      · obtain ⟨j', h2, _⟩ := holds_insert hh (c' := { f with serial := next c.serial }) hn
        rw [h] at h2; cases h2

/-- C53. With `difference` and `journal-content: all`, a file from whose serial no stored change starts: if
the serial is newer than that of the zone served last, the zone is then exactly the file. If it is the same, the
zone gets the records of the file, with the next serial if they differ, and keeps the SOA fields. If it is
neither, the zone stays as it was: a reload reports the error and a start does not. -/
theorem C53_difference (cfg : Cfg) (ha : cfg.content = .all) (hl : cfg.load = .diff) (w : World) (c f : Cont)
    (h : Life cfg w (some c)) (hf : w.file = some f) (next : UInt32 → UInt32)
    (hn : Older c.serial (next c.serial)) (hk : ∀ ch ∈ w.jour.chain, ch.fr ≠ f.serial) :
    ∃ w' e, eventLoad cfg next w = .done w' e ∧ w'.file = some f ∧
      (Older c.serial f.serial → w'.mem = some f ∧ e = none) ∧
      (f.serial = c.serial →
        w'.mem = some (if f.recs = c.recs then c else ⟨next c.serial, c.soa, f.recs⟩) ∧ e = none) ∧
      (f.serial ≠ c.serial → ¬ Older c.serial f.serial →
        w'.mem = some c ∧ w'.jour = w.jour ∧ (e = none ↔ w.mem = none)) := by
  have hw : cfg.load ≠ .whole := by rw [hl]; simp
  have hd : cfg.load ≠ .difse := by rw [hl]; simp
  rcases life_invA ha hw h with ⟨h1, _⟩ | ⟨c2, h1, hh, hm⟩
  · cases h1
  · cases h1
    rw [load_all (.inl hl) ha hm hh hf, if_neg hd, loadFile_none hk]
    show ∃ w' e, Ret.of (rest cfg next w c (some f)) = .done w' e ∧ _
    by_cases he : f.serial = c.serial
    · have hno : ¬ Older c.serial f.serial := by rw [he]; exact older_irrefl _
      rcases rest_equal (cfg := cfg) (next := next) hm he hd hn with ⟨hr, h⟩ | ⟨hr, h⟩
      · rw [h]
        exact ⟨_, _, rfl, hf, (fun h => absurd h hno), (fun _ => ⟨by rw [if_pos hr], rfl⟩),
          (fun h => absurd he h)⟩
      · rcases h with ⟨h, _⟩ | ⟨_, j', _, h⟩ | ⟨_, e, h, _⟩
        · rw [ha] at h; cases h
        · rw [h]
          exact ⟨_, _, rfl, hf, (fun h => absurd h hno), (fun _ => ⟨by rw [if_neg hr], rfl⟩),
            (fun h => absurd he h)⟩
        · obtain ⟨j', h2, _⟩ := holds_insert hh (c' := ⟨next c.serial, c.soa, f.recs⟩) hn
          rw [h] at h2; cases h2
    · by_cases ho : Older c.serial f.serial
      · rcases rest_newer (cfg := cfg) (next := next) (w := w) ho (.inl hd) with
          ⟨h, _⟩ | ⟨_, j', _, h⟩ | ⟨_, e, h, _⟩
        · rw [ha] at h; cases h
        · rw [h]
          exact ⟨_, _, rfl, hf, (fun _ => ⟨rfl, rfl⟩), (fun h => absurd h he), (fun _ h => absurd ho h)⟩
        · obtain ⟨j', h2, _⟩ := holds_insert hh ho
          rw [h] at h2; cases h2
      · rw [rest_older he ho]
        rcases hm with hm | hm
        · rw [if_pos hm]
          exact ⟨_, _, rfl, hf, (fun h => absurd h ho), (fun h => absurd h he),
            (fun _ _ => ⟨rfl, rfl, by simp [hm]⟩)⟩
        · rw [if_neg (by rw [hm]; simp)]
          exact ⟨_, _, rfl, hf, (fun h => absurd h ho), (fun h => absurd h he),
            (fun _ _ => ⟨hm, rfl, by simp [hm]⟩)⟩

/-- C53 (partial: only careful lives, see the findings). With `journal-content: changes` (the default) and `zonefile-load` `whole` (the default) or `difference`,
in a life in which the file is edited as the manual says (see `Careful`) and is not waiting to be loaded:
the start after a crash or a restart loads exactly the contents served last, from the file and the journal, and
so does a reload; neither changes the file or the journal. -/
theorem C53_restart_changes_partial (cfg : Cfg) (hc : cfg.content = .changes)
    (hl : cfg.load = .whole ∨ cfg.load = .diff) (w : World) (c : Cont)
    (h : Careful cfg w (some c) false) (next : UInt32 → UInt32) :
    eventLoad cfg next { w with mem := none } = .done { w with mem := some c } none ∧
    eventLoad cfg next w = .done { w with mem := some c } none := by
  have hi := careful_inv hc hl h
  obtain ⟨f, hf, ht⟩ := hi.file rfl c rfl
  constructor
  · rw [load_changes (w := { w with mem := none }) hc hl hf ht, if_pos (.inl rfl)]
  · rw [load_changes hc hl hf ht]
    split
    · rfl
    · rename_i hcond
      cases hm : w.mem with
      | none => exact absurd (.inl hm) hcond
      | some c2 =>
        have := hi.mem c2 hm
        cases this
        dsimp only [Option.getD_some]
        rw [rest_self hm]
        show Ret.done w none = _
        cases w
        simp only at hm
        rw [hm]

/-- C53. In the same lives, an edited file is taken as it is by the next start, and by a reload with `whole`. A reload
with `difference` takes it too or fails and leaves everything as it was. -/
theorem C53_edit_changes (cfg : Cfg) (hc : cfg.content = .changes)
    (hl : cfg.load = .whole ∨ cfg.load = .diff) (w : World) (last : Option Cont) (f : Cont)
    (h : Careful cfg w last true) (hf : w.file = some f) (next : UInt32 → UInt32) :
    eventLoad cfg next { w with mem := none } = .done { w with mem := some f } none ∧
    (cfg.load = .whole → eventLoad cfg next w = .done { w with mem := some f } none) ∧
    ∃ w' e, eventLoad cfg next w = .done w' e ∧ (e = none → w'.mem = some f) ∧ (e ≠ none → w' = w) := by
  have hi := careful_inv hc hl h
  obtain ⟨f2, hf2, hk, ho⟩ := hi.edit rfl
  rw [hf] at hf2
  cases hf2
  have ht : loadFile w.jour f = .ok f := loadFile_none hk
  refine ⟨?_, ?_, ?_⟩
  · rw [load_changes (w := { w with mem := none }) hc hl hf ht, if_pos (.inl rfl)]
  · intro hw
    rw [load_changes hc hl hf ht, if_pos (.inr hw)]
  · rw [load_changes hc hl hf ht]
    split
    · exact ⟨_, _, rfl, (fun _ => rfl), (fun h => absurd rfl h)⟩
    · rename_i hcond
      have hd : cfg.load ≠ .difse := by rcases hl with h | h <;> rw [h] <;> simp
      cases hm : w.mem with
      | none => exact absurd (.inl hm) hcond
      | some c =>
        dsimp only [Option.getD_some]
        rcases rest_newer (cfg := cfg) (next := next) (w := w) (ho c (hi.mem c hm)) (.inl hd) with
          ⟨h, _⟩ | ⟨_, j', _, h⟩ | ⟨_, e, _, h⟩
        · rw [hc] at h; cases h
        · rw [h]; exact ⟨_, _, rfl, (fun _ => rfl), (fun h => absurd rfl h)⟩
        · rw [h]; exact ⟨_, _, rfl, (fun h => by cases h), (fun _ => rfl)⟩

/-! ## Lives that meet the hypotheses -/

/-- A zone, its file after an edit and the zone after an update. -/
def C53_a : Cont := ⟨10, 0, {⟨1, 1⟩, ⟨2, 1⟩}⟩
def C53_b : Cont := ⟨11, 0, {⟨1, 1⟩, ⟨2, 1⟩, ⟨3, 7⟩}⟩
def C53_c : Cont := ⟨12, 0, {⟨1, 1⟩}⟩

/-- The zone after its first load, and after an update too, with `journal-content: all`. -/
def C53_w1 : World := ⟨some C53_a, ⟨some C53_a, []⟩, some C53_a⟩
def C53_w2 : World := ⟨some C53_a, ⟨some C53_a, [⟨10, 0, 11, 0, ∅, {⟨3, 7⟩}⟩]⟩, some C53_b⟩

theorem Zload.ex_life1 (l : Load) (hl : l = .diff ∨ l = .difse) : Life ⟨.all, l⟩ C53_w1 (some C53_a) := by
  have h1 : Life ⟨.all, l⟩ ⟨some C53_a, {}, none⟩ none :=
    .step (o := .edit (some C53_a)) (e := none) .start rfl
  have h2 : step ⟨.all, l⟩ ⟨some C53_a, {}, none⟩ (.load C53_plus) = .done C53_w1 none := by
    rcases hl with h | h <;> subst h <;> decide +kernel
  exact .step h1 h2

theorem Zload.ex_life2 (l : Load) (hl : l = .diff ∨ l = .difse) : Life ⟨.all, l⟩ C53_w2 (some C53_b) := by
  have h2 : step ⟨.all, l⟩ C53_w1 (.change C53_plus C53_b) = .done C53_w2 none := by
    rcases hl with h | h <;> subst h <;> decide +kernel
  exact .step (Zload.ex_life1 l hl) h2

/-- The hypotheses of `C53_restart_kept_partial` hold after an update that was not written to the file. -/
example : ∃ w c f, Life ⟨.all, .diff⟩ w (some c) ∧ w.file = some f ∧ f ≠ c ∧
    Older c.serial (C53_plus c.serial) ∧
    (∀ ch ∈ w.jour.chain, ch.fr = f.serial → ch.soaFr = f.soa) ∧ w.jour.chain ≠ [] :=
  ⟨C53_w2, C53_b, C53_a, Zload.ex_life2 _ (.inl rfl), rfl, by decide +kernel,
    (lower_iff _ _).mp (by decide +kernel), by decide +kernel, by decide +kernel⟩

/-- And the start then gives the updated zone. -/
example : eventLoad ⟨.all, .diff⟩ C53_plus { C53_w2 with mem := none } = .done C53_w2 none := by decide +kernel

/-- The life of `C53_restart_journal`: a zone transferred, updated. -/
example : ∃ w, Life ⟨.all, .none⟩ w (some C53_b) ∧ w.jour.chain ≠ [] := by
  have h1 : step ⟨.all, .none⟩ {} (.replace C53_plus C53_a) =
      .done ⟨none, ⟨some C53_a, []⟩, some C53_a⟩ none := by decide +kernel
  have h2 : step ⟨.all, .none⟩ ⟨none, ⟨some C53_a, []⟩, some C53_a⟩ (.change C53_plus C53_b) =
      .done ⟨none, ⟨some C53_a, [⟨10, 0, 11, 0, ∅, {⟨3, 7⟩}⟩]⟩, some C53_b⟩ none := by decide +kernel
  exact ⟨_, .step (.step .start h1) h2, by decide +kernel⟩

/-- The hypotheses of `C53_no_serial` and of `C53_difference`, with a file that changes the zone. -/
example : (∃ w c f, Life ⟨.all, .difse⟩ w (some c) ∧ w.file = some f ∧ f.recs ≠ c.recs ∧
      Older c.serial (C53_plus c.serial) ∧ ∀ ch ∈ w.jour.chain, ch.fr ≠ C53_plus c.serial) ∧
    (∃ w c f, Life ⟨.all, .diff⟩ w (some c) ∧ w.file = some f ∧ f ≠ c ∧ Older c.serial f.serial ∧
      Older c.serial (C53_plus c.serial) ∧ ∀ ch ∈ w.jour.chain, ch.fr ≠ f.serial) := by
  refine ⟨⟨C53_w2, C53_b, C53_a, Zload.ex_life2 _ (.inr rfl), rfl, by decide +kernel,
    (lower_iff _ _).mp (by decide +kernel), by decide +kernel⟩,
    ⟨{ C53_w2 with file := some C53_c }, C53_b, C53_c,
      .step (o := .edit (some C53_c)) (e := none) (Zload.ex_life2 _ (.inl rfl)) rfl, rfl, by decide +kernel,
      (lower_iff _ _).mp (by decide +kernel), (lower_iff _ _).mp (by decide +kernel), by decide +kernel⟩⟩

/-- A reload with a newer file changes the zone; the update is stored. -/
example : eventLoad ⟨.all, .diff⟩ C53_plus { C53_w2 with file := some C53_c } =
    .done ⟨some C53_c, ⟨some C53_a, [⟨10, 0, 11, 0, ∅, {⟨3, 7⟩}⟩,
      ⟨11, 0, 12, 0, {⟨2, 1⟩, ⟨3, 7⟩}, ∅⟩]⟩, some C53_c⟩ none := by decide +kernel

/-- A careful life with `changes`: the file loaded, the zone updated, the file not written. -/
theorem Zload.ex_careful (l : Load) (hl : l = .whole ∨ l = .diff) :
    Careful ⟨.changes, l⟩ ⟨some C53_a, ⟨none, [⟨10, 0, 11, 0, ∅, {⟨3, 7⟩}⟩]⟩, some C53_b⟩ (some C53_b) false := by
  have h1 : Careful ⟨.changes, l⟩ ⟨some C53_a, {}, none⟩ none true :=
    .edit C53_a .start (fun c h => by cases h) (fun ch h => by cases h)
  have h2 : eventLoad ⟨.changes, l⟩ C53_plus ⟨some C53_a, {}, none⟩ =
      .done ⟨some C53_a, {}, some C53_a⟩ none := by
    rcases hl with h | h <;> subst h <;> decide +kernel
  have h3 : Zload.change ⟨.changes, l⟩ C53_plus ⟨some C53_a, {}, some C53_a⟩ C53_b =
      (⟨some C53_a, ⟨none, [⟨10, 0, 11, 0, ∅, {⟨3, 7⟩}⟩]⟩, some C53_b⟩, none) := by
    rcases hl with h | h <;> subst h <;> decide +kernel
  exact .change C53_plus C53_b (.load C53_plus h1 h2) h3

/-- An edit of the file in such a life. -/
example : ∃ w, Careful ⟨.changes, .diff⟩ w (some C53_b) true ∧ w.file = some C53_c ∧ w.jour.chain ≠ [] :=
  ⟨_, .edit C53_c (Zload.ex_careful _ (.inr rfl)) (fun c h => by cases h; exact (lower_iff _ _).mp (by decide +kernel))
    (by decide +kernel), rfl, by decide +kernel⟩

/-! ## Findings -/

/-- C53. Finding: with `journal-content: all` and `difference` or `difference-no-serial` the whole zone is in the
journal, and it is even read from it, but if the zone file is missing or unreadable at the start, the zone is not
loaded. -/
theorem C53_file_needed (cfg : Cfg) (ha : cfg.content = .all) (hl : cfg.load = .diff ∨ cfg.load = .difse)
    (w : World) (c : Cont) (h : Life cfg w (some c)) (next : UInt32 → UInt32) :
    eventLoad cfg next { w with file := none, mem := none } =
      .done { w with file := none, mem := none } (some .parse) := by
  have hw : cfg.load ≠ .whole := by rcases hl with h | h <;> rw [h] <;> simp
  have hn : cfg.load ≠ .none := by rcases hl with h | h <;> rw [h] <;> simp
  rcases life_invA ha hw h with ⟨h1, _⟩ | ⟨c', h1, hh, _⟩
  · cases h1
  · cases h1
    rw [load_held (w := { w with file := none, mem := none }) hw ha (.inl rfl) hh, if_pos ⟨hn, rfl⟩]

/-- C53. Finding: with `journal-content: changes` and `difference` a reload takes a file with changed records and the
old serial (and gives it the next serial), but if an RRset was removed, the start after a crash or a restart
fails to load the zone: the stored change, that removes the RRset again, cannot be applied to the file. -/
theorem C53_same_serial_lost : ∃ f w w',
    eventLoad ⟨.changes, .diff⟩ C53_plus ⟨some C53_a, {}, none⟩ = .done w none ∧ w.mem = some C53_a ∧
    f.serial = C53_a.serial ∧
    eventLoad ⟨.changes, .diff⟩ C53_plus { w with file := some f } = .done w' none ∧
      w'.mem = some ⟨11, 0, f.recs⟩ ∧
    eventLoad ⟨.changes, .diff⟩ C53_plus { w' with mem := none } = .done { w' with mem := none } (some .noent) :=
  ⟨⟨10, 0, {⟨1, 1⟩}⟩, ⟨some C53_a, {}, some C53_a⟩,
    ⟨some ⟨10, 0, {⟨1, 1⟩}⟩, ⟨none, [⟨10, 0, 11, 0, {⟨2, 1⟩}, ∅⟩]⟩, some ⟨11, 0, {⟨1, 1⟩}⟩⟩,
    by decide +kernel, rfl, rfl, by decide +kernel, rfl, by decide +kernel⟩

/-- C53. Finding: with `journal-content: changes` and `difference` a file with a decreased serial is refused by a
reload, and the zone goes on with its contents, but it is taken by the next start: the serial of the zone
goes back. -/
theorem C53_decreased_taken : ∃ f w,
    eventLoad ⟨.changes, .diff⟩ C53_plus ⟨some C53_b, {}, none⟩ = .done w none ∧ w.mem = some C53_b ∧
    eventLoad ⟨.changes, .diff⟩ C53_plus { w with file := some f } = .done { w with file := some f } (some .range) ∧
    eventLoad ⟨.changes, .diff⟩ C53_plus { w with file := some f, mem := none } =
      .done { w with file := some f, mem := some f } none ∧
    Older f.serial C53_b.serial :=
  ⟨C53_a, ⟨some C53_b, {}, some C53_b⟩, by decide +kernel, rfl, by decide +kernel, by decide +kernel,
    (lower_iff _ _).mp (by decide +kernel)⟩

/-- C53. Finding: with the default settings, the zone updated and the update only in the journal, an edit of the SOA of
the file without a new serial makes the server load a zone with two SOA records: the stored change does not find
the SOA it removes, which is not an error, and adds its own. -/
theorem C53_two_soas : ∃ w w' f,
    eventLoad ⟨.changes, .whole⟩ C53_plus ⟨some C53_a, {}, none⟩ = .done w none ∧
    Zload.change ⟨.changes, .whole⟩ C53_plus w C53_b = (w', none) ∧ w'.mem = some C53_b ∧
    f.serial = C53_a.serial ∧ f.recs = C53_a.recs ∧ f.soa ≠ C53_a.soa ∧
    eventLoad ⟨.changes, .whole⟩ C53_plus { w' with file := some f } = .odd :=
  ⟨⟨some C53_a, {}, some C53_a⟩,
    ⟨some C53_a, ⟨none, [⟨10, 0, 11, 0, ∅, {⟨3, 7⟩}⟩]⟩, some C53_b⟩, ⟨10, 1, {⟨1, 1⟩, ⟨2, 1⟩}⟩,
    by decide +kernel, by decide +kernel, rfl, rfl, by decide +kernel, by decide +kernel, by decide +kernel⟩

/-- C53. Finding: with `journal-content: all` and `whole` (which the server accepts with a notice) a new file taken by a
reload is not in the journal, and every later update of the zone is then refused. -/
theorem C53_whole_all_stuck : ∃ w w',
    eventLoad ⟨.all, .whole⟩ C53_plus ⟨some C53_a, {}, none⟩ = .done w none ∧
    eventLoad ⟨.all, .whole⟩ C53_plus { w with file := some C53_b } = .done w' none ∧ w'.mem = some C53_b ∧
    ∀ next c', c' ≠ C53_b → ∃ e, Zload.change ⟨.all, .whole⟩ next w' c' = (w', some e) := by
  refine ⟨⟨some C53_a, ⟨some C53_a, []⟩, some C53_a⟩, ⟨some C53_b, ⟨some C53_a, []⟩, some C53_b⟩,
    by decide +kernel, by decide +kernel, rfl, ?_⟩
  intro next c' hc
  have hf : From C53_b ⟨.incremental, (C53_b.serial, C53_b.soa), c', some (c'.serial, c'.soa),
      C53_b.recs \ c'.recs, c'.recs \ C53_b.recs⟩ := ⟨by simp, rfl, rfl, rfl, .inr rfl⟩
  unfold Zload.change
  dsimp only
  rcases commit_from (cfg := ⟨.all, .whole⟩) (next := next)
    (w := ⟨some C53_b, ⟨some C53_a, []⟩, some C53_b⟩) hf with
    ⟨h0, _⟩ | ⟨_, d, _, _, hA, _, hC⟩ | ⟨_, h4, _⟩
  · exact absurd h0 hc
  · rcases hC with ⟨h, _⟩ | ⟨_, j', hj, _⟩ | ⟨_, e, _, h⟩
    · cases h
    · obtain ⟨_, j1, _, h1, _⟩ := insert_ok hj
      exfalso
      have hs : serialTo ⟨some C53_a, []⟩ = some 10 := rfl
      unfold contiguous at h1
      rw [hs] at h1
      dsimp only at h1
      rw [if_pos (show (10 : UInt32) ≠ (chOf C53_b d).fr from by show (10 : UInt32) ≠ 11; decide),
        if_pos (show (some C53_a).isSome = true from rfl)] at h1
      cases h1
    · exact ⟨e, h⟩
  · cases h4

end Knot
