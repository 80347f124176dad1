import Verif.Zload.Lemmas3
/-! # Lemmas for C53: what holds in every life -/
namespace Knot.Zload
open Knot Knot.Serial

/-- The invariant with journal-content `all`. -/
def InvA (w : World) (last : Option Cont) : Prop :=
  (last = none ∧ w.jour = {} ∧ w.mem = none) ∨
  ∃ c, last = some c ∧ Holds w.jour c ∧ (w.mem = none ∨ w.mem = some c)

theorem invA_mem {w : World} {c : Cont} (hh : Holds w.jour c) (hm : w.mem = some c) (last : Option Cont) :
    InvA w (w.mem <|> last) := by
  right
  refine ⟨c, ?_, hh, .inr hm⟩
  rw [hm]; rfl

theorem invA_same {w w' : World} {last : Option Cont} (h : InvA w last) (hj : w'.jour = w.jour)
    (hm : w'.mem = none ∨ w'.mem = w.mem) : InvA w' (w'.mem <|> last) := by
  rcases h with ⟨h1, h2, h3⟩ | ⟨c, h1, h2, h3⟩
  · have : w'.mem = none := by
      rcases hm with hm | hm
      · exact hm
      · rw [hm, h3]
    left
    rw [this, h1]
    exact ⟨rfl, by rw [hj, h2], rfl⟩
  · right
    have h4 : w'.mem = none ∨ w'.mem = some c := by
      rcases hm with hm | hm
      · exact .inl hm
      · rw [hm]; exact h3
    refine ⟨c, ?_, by rw [hj]; exact h2, h4⟩
    rcases h4 with h4 | h4
    · rw [h4, h1]; rfl
    · rw [h4]; rfl

theorem Ret.of_inj {r : World × Option Err} {w : World} {e : Option Err} (h : Ret.of r = .done w e) :
    r = (w, e) := by
  unfold Ret.of at h
  cases h
  rfl

theorem keep_hybrid {cfg : Cfg} {next : UInt32 → UInt32} {w : World} (c : Cont) :
    commit cfg next w (revert cfg (fromContents .hybrid c)) = ({ w with mem := some c }, none) := by
  obtain ⟨h1, h2, h3⟩ := revert_from (cfg := cfg) (from_same (flag := .hybrid) c (by simp))
  have hc : (revert cfg (fromContents .hybrid c)).cont = c := by
    rcases h3 with h3 | h3
    · rw [h3]; rfl
    · exact h3.1
  rcases commit_from (cfg := cfg) (next := next) (w := w) h1 with ⟨_, h⟩ | ⟨h, _⟩ | ⟨h, _⟩
  · rcases h with ⟨h4, _⟩ | ⟨_, h5⟩
    · rw [h2] at h4; cases h4
    · exact h5
  · exact absurd hc h
  · exact absurd hc h

theorem loadZone_empty : loadZone {} = .err .noent := rfl

theorem loadFile_none {j : Jour} {f : Cont} (h : ∀ ch ∈ j.chain, ch.fr ≠ f.serial) :
    loadFile j f = .ok f := by
  unfold loadFile
  rw [suffix_none h]
  rfl

/-- The load of a zone for the first time. -/
theorem first_load {cfg : Cfg} {next : UInt32 → UInt32} {w w' : World} {e : Option Err}
    (ha : cfg.content = .all) (hl : cfg.load ≠ .whole)
    (hj : w.jour = {}) (hm : w.mem = none) (h : eventLoad cfg next w = .done w' e) :
    w' = w ∨ ∃ f, w.file = some f ∧ w' = { w with jour := insertZone f, mem := some f } := by
  have h1 : journalConts cfg w = .inr () := by
    unfold journalConts
    rw [if_pos ⟨hm, ha, hl⟩, hj, loadZone_empty]
  unfold eventLoad at h
  rw [h1] at h
  dsimp only at h
  unfold loadWith at h
  split at h
  · have h2 := Ret.of_inj h
    unfold loadFinish at h2
    have h3 : storeZone cfg w ((none : Option Cont).isSome || w.jour.zij.isSome) none = w := by
      unfold storeZone
      split
      · rw [hm]
      · rfl
    dsimp only at h2
    rw [h3] at h2
    have h4 : update cfg w none none = .error .noent := by
      unfold update; rw [hm]; rfl
    rw [h4] at h2
    left
    exact (congrArg Prod.fst h2).symm
  · cases hf : w.file with
    | none =>
      rw [hf] at h
      dsimp only at h
      cases h
      exact .inl rfl
    | some f =>
      rw [hf] at h
      dsimp only at h
      have hor : (w.mem <|> none) = none := by rw [hm]; rfl
      rw [hor] at h
      have hfs : fixSerial cfg next none f = f := rfl
      rw [hfs] at h
      have hfc : fileConts cfg w.jour f = .ok f := by
        unfold fileConts
        rw [if_pos (by rw [ha]; simp)]
        apply loadFile_none
        rw [hj]; simp
      rw [hfc] at h
      unfold loadOut at h
      dsimp only at h
      have h2 := Ret.of_inj h
      unfold loadFinish at h2
      have h3 : storeZone cfg w ((none : Option Cont).isSome || w.jour.zij.isSome) (some f) =
          { w with jour := insertZone f } := by
        unfold storeZone
        rw [if_pos ⟨ha, by rw [hj]; rfl⟩, hm]
      dsimp only at h2
      rw [h3] at h2
      have h4 : update cfg { w with jour := insertZone f } none (some f) = .ok (fromContents .hybrid f) := by
        unfold update
        dsimp only
        rw [hm]
        dsimp only
        unfold updateStart
        dsimp only
        unfold fileFlag
        rw [if_neg (by rw [ha]; simp)]
      rw [h4] at h2
      unfold finish at h2
      dsimp only at h2
      rw [keep_hybrid] at h2
      right
      refine ⟨f, rfl, (congrArg Prod.fst h2).symm.trans ?_⟩
      dsimp only
      rw [hf]

theorem rest_invA {cfg : Cfg} {next : UInt32 → UInt32} {w : World} {c : Cont}
    (ha : cfg.content = .all) (hm : w.mem = none ∨ w.mem = some c) (hh : Holds w.jour c) (zf : Option Cont) :
    InvA (rest cfg next w c zf).1 ((rest cfg next w c zf).1.mem <|> some c) := by
  have hI : InvA w (some c) := .inr ⟨c, rfl, hh, hm⟩
  rcases rest_cases (cfg := cfg) (next := next) hm zf with h | ⟨e, h, _⟩ | ⟨c', j', h, ho, hj⟩
  · rw [h]; exact invA_mem (w := { w with mem := some c }) hh rfl _
  · rw [h]; exact invA_same hI rfl (.inr rfl)
  · rw [h]
    rcases hj with ⟨h1, _⟩ | ⟨_, h1⟩
    · rw [ha] at h1; cases h1
    · obtain ⟨j2, h2, h3⟩ := holds_insert hh ho
      rw [h1] at h2
      cases h2
      exact invA_mem (w := { w with jour := j', mem := some c' }) h3 rfl _

theorem ending_invA {cfg : Cfg} {next : UInt32 → UInt32} {w w' : World} {c : Cont} {e : Option Err}
    (ha : cfg.content = .all) (hm : w.mem = none ∨ w.mem = some c) (hh : Holds w.jour c) (o : Option Out)
    (h : ending cfg next w c o = .done w' e) : InvA w' (w'.mem <|> some c) := by
  have key : ∀ zf, Ret.of (rest cfg next w c zf) = .done w' e → InvA w' (w'.mem <|> some c) := by
    intro zf hz
    have := rest_invA (cfg := cfg) (next := next) ha hm hh zf
    rw [Ret.of_inj hz] at this
    exact this
  cases o with
  | none => exact key none h
  | some o =>
    cases o with
    | ok zf => exact key (some zf) h
    | err e => exact key none h
    | odd => cases h

theorem change_from {cfg : Cfg} {next : UInt32 → UInt32} {w : World} {c c' : Cont} (hm : w.mem = some c) :
    Zload.change cfg next w c' = (w, none) ∨ (∃ e, Zload.change cfg next w c' = (w, some e)) ∨
    (cfg.content = .none ∧ Zload.change cfg next w c' = ({ w with mem := some c' }, none)) ∨
    (cfg.content ≠ .none ∧ ∃ j', insert w.jour (chOf c c') = .ok j' ∧
      Zload.change cfg next w c' = ({ w with jour := j', mem := some c' }, none)) := by
  unfold Zload.change
  rw [hm]
  dsimp only
  have hf : From c ⟨.incremental, (c.serial, c.soa), c', some (c'.serial, c'.soa),
      c.recs \ c'.recs, c'.recs \ c.recs⟩ := ⟨by simp, rfl, rfl, rfl, .inr rfl⟩
  rcases commit_from (cfg := cfg) (next := next) (w := w) hf with
    ⟨h0, h⟩ | ⟨_, d, _, _, hA, _, hC⟩ | ⟨_, h4, _⟩
  · rcases h with ⟨_, h⟩ | ⟨h, _⟩
    · exact .inl h
    · cases h
  · have hd : d = c' := hA (by simp)
    subst hd
    rcases hC with hC | hC | ⟨_, e, _, hC⟩
    · exact .inr (.inr (.inl hC))
    · exact .inr (.inr (.inr hC))
    · exact .inr (.inl ⟨e, hC⟩)
  · cases h4

theorem life_invA {cfg : Cfg} (ha : cfg.content = .all) (hl : cfg.load ≠ .whole) {w : World}
    {last : Option Cont} (h : Life cfg w last) : InvA w last := by
  induction h with
  | start => exact .inl ⟨rfl, rfl, rfl⟩
  | @step w w' last o e _ hs ih =>
    cases o with
    | edit f =>
      cases hs
      exact invA_same ih rfl (.inr rfl)
    | flush =>
      cases hs
      have hfl : (Zload.flush w).jour = w.jour ∧ (Zload.flush w).mem = w.mem := by
        unfold Zload.flush
        cases hm : w.mem with
        | none => exact ⟨rfl, hm⟩
        | some c => exact ⟨rfl, rfl⟩
      exact invA_same ih hfl.1 (.inr hfl.2)
    | stop =>
      cases hs
      exact invA_same ih rfl (.inl rfl)
    | load next =>
      have hs : eventLoad cfg next w = .done w' e := hs
      rcases ih with ⟨h1, h2, h3⟩ | ⟨c, h1, h2, h3⟩
      · rcases first_load ha hl h2 h3 hs with h4 | ⟨f, _, h4⟩
        · rw [h4]; exact invA_same (.inl ⟨h1, h2, h3⟩) rfl (.inr rfl)
        · rw [h4]; exact invA_mem (w := { w with jour := insertZone f, mem := some f }) (holds_zone f) rfl _
      · rw [load_held hl ha h3 h2] at hs
        split at hs
        · cases hs; exact invA_same (.inr ⟨c, h1, h2, h3⟩) rfl (.inr rfl)
        · rw [h1]; exact ending_invA ha h3 h2 _ hs
    | change next c' =>
      have hs := Ret.of_inj (hs : Ret.of (Zload.change cfg next w c') = .done w' e)
      cases hm : w.mem with
      | none =>
        have : Zload.change cfg next w c' = (w, some .noent) := by unfold Zload.change; rw [hm]
        rw [this] at hs
        cases hs
        exact invA_same ih rfl (.inr rfl)
      | some c =>
        rcases change_from (cfg := cfg) (next := next) (c' := c') hm with h | ⟨_, h⟩ | ⟨h, _⟩ | ⟨_, j', hj, h⟩
        · rw [h] at hs; cases hs; exact invA_same ih rfl (.inr rfl)
        · rw [h] at hs; cases hs; exact invA_same ih rfl (.inr rfl)
        · rw [ha] at h; cases h
        · rw [h] at hs
          cases hs
          rcases ih with ⟨_, _, h3⟩ | ⟨c2, _, h2, h3⟩
          · rw [hm] at h3; cases h3
          · have : c2 = c := by
              rw [hm] at h3
              rcases h3 with h3 | h3
              · cases h3
              · cases h3; rfl
            subst this
            obtain ⟨j2, h4, h5⟩ := holds_insert h2 (insert_ok hj).1
            rw [hj] at h4
            cases h4
            exact invA_mem (w := { w with jour := j', mem := some c' }) h5 rfl _
    | replace next c' =>
      have hs := Ret.of_inj (hs : Ret.of (Zload.replace cfg next w c') = .done w' e)
      have : Zload.replace cfg next w c' = ({ w with jour := insertZone c', mem := some c' }, none) := by
        unfold Zload.replace commit
        rw [if_neg (by simp [fromContents])]
        have h1 : commitSoa next (fromContents .full c') = .ok (fromContents .full c') := by
          unfold commitSoa; rw [if_pos (show (fromContents .full c').flag = .full from rfl)]
        have h2 : commitJournal cfg w.jour (fromContents .full c') = .ok (insertZone c') := by
          unfold commitJournal; rw [if_pos (show (fromContents .full c').flag = .full from rfl), if_pos ha]; rfl
        rw [h1]; dsimp only; rw [h2]; rfl
      rw [this] at hs
      cases hs
      exact invA_mem (w := { w with jour := insertZone c', mem := some c' }) (holds_zone c') rfl _

/-! ## No zone with two SOA records -/

/-- Each change starts with the SOA the previous one ends with. -/
def Linked : List Ch → Prop
  | a :: b :: l => a.til = b.fr ∧ a.soaTo = b.soaFr ∧ Linked (b :: l)
  | _ => True

theorem applyCh_ok {ch : Ch} {z c : Cont} (h : applyCh ch z = .ok c) :
    z.serial = ch.fr ∧ z.soa = ch.soaFr ∧ c.serial = ch.til ∧ c.soa = ch.soaTo := by
  unfold applyCh at h
  split at h
  · cases h
  · split at h
    · rename_i hh; cases h; exact ⟨hh.1, hh.2, rfl, rfl⟩
    · cases h

theorem linked_of_applyAll : ∀ (l : List Ch) (z c : Cont), applyAll l z = .ok c → Linked l
  | [], _, _, _ => trivial
  | [_], _, _, _ => trivial
  | a :: b :: l, z, c, h => by
    simp only [applyAll] at h
    cases ha : applyCh a z with
    | err e => rw [ha] at h; cases h
    | odd => rw [ha] at h; cases h
    | ok z' =>
      rw [ha] at h
      dsimp only at h
      have hl := linked_of_applyAll (b :: l) z' c (by simp only [applyAll]; exact h)
      cases hb : applyCh b z' with
      | err e => rw [hb] at h; cases h
      | odd => rw [hb] at h; cases h
      | ok z2 =>
        have h1 := applyCh_ok ha
        have h2 := applyCh_ok hb
        exact ⟨by rw [← h1.2.2.1, h2.1], by rw [← h1.2.2.2, h2.2.1], hl⟩

theorem linked_tail {a : Ch} {l : List Ch} (h : Linked (a :: l)) : Linked l := by
  cases l with
  | nil => trivial
  | cons b l => exact h.2.2

theorem linked_suffix {l : List Ch} (h : Linked l) (s : UInt32) : Linked (suffix s l) := by
  unfold suffix
  induction l with
  | nil => trivial
  | cons a l ih =>
    rw [List.dropWhile_cons]
    split
    · exact ih (linked_tail h)
    · exact h

theorem applyAll_not_odd : ∀ (l : List Ch) (z : Cont), Linked l →
    (∀ a l', l = a :: l' → z.serial = a.fr ∧ z.soa = a.soaFr) → applyAll l z ≠ .odd
  | [], _, _, _ => by simp [applyAll]
  | a :: l, z, hl, hz => by
    simp only [applyAll]
    have h0 := hz a l rfl
    cases ha : applyCh a z with
    | err e => simp
    | odd =>
      unfold applyCh at ha
      split at ha
      · cases ha
      · first | cases ha | (rw [if_pos h0] at ha; cases ha)
    | ok z' =>
      dsimp only
      have h1 := applyCh_ok ha
      apply applyAll_not_odd l z' (linked_tail hl)
      intro b l' hb
      subst hb
      exact ⟨by rw [h1.2.2.1, hl.1], by rw [h1.2.2.2, hl.2.1]⟩

theorem suffix_head_fr {s : UInt32} {l : List Ch} {a : Ch} {l' : List Ch} (h : suffix s l = a :: l') :
    a.fr = s ∧ a ∈ l := by
  unfold suffix at h
  induction l with
  | nil => simp at h
  | cons b l ih =>
    rw [List.dropWhile_cons] at h
    split at h
    · have := ih h; exact ⟨this.1, List.mem_cons_of_mem _ this.2⟩
    · rename_i hb
      cases h
      exact ⟨by simpa using hb, by simp⟩

theorem loadFile_not_odd {j : Jour} {c f : Cont} (hh : Holds j c)
    (hf : ∀ ch ∈ j.chain, ch.fr = f.serial → ch.soaFr = f.soa) : loadFile j f ≠ .odd := by
  obtain ⟨z, _, _, ha⟩ := hh
  unfold loadFile
  apply applyAll_not_odd _ _ (linked_suffix (linked_of_applyAll _ _ _ ha) _)
  intro a l' hl
  have := suffix_head_fr hl
  exact ⟨this.1.symm, (hf a this.2 this.1).symm⟩

end Knot.Zload
