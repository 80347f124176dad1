import Verif.Xfr.Lemmas4
import Verif.Serial.Props
/-! # Transfers: reading an IXFR -/
namespace Knot.Xfr
open Knot.Dname (Name)
open Knot.Changeset

/-- How far an IXFR was read. -/
inductive IxA where
  | init
  | first (final : RRset)
  | del (final : RRset) (ds : List Diff) (old : RRset) (dels : List RRset)
  | add (final : RRset) (ds : List Diff) (d : Diff)

inductive Nx where
  | next (s : IxA)
  | done (ds : List Diff)
  | fail

def stepA (byOne : Bool) (s : IxA) (rr : RRset) : Nx :=
  match s with
  | .init => if rr.1.type = soa then .next (.first rr) else .fail
  | .first F => if rr.1.type = soa then .next (.del F [] rr []) else .fail
  | .del F ds old dels =>
    if rr.1.type = soa then .next (.add F ds ⟨old, dels, rr, []⟩) else .next (.del F ds old (dels ++ [rr]))
  | .add F ds d =>
    if rrEqual rr F then .done (ds ++ [d])
    else if rr.1.type = soa then (if byOne then .done (ds ++ [d]) else .next (.del F (ds ++ [d]) rr []))
    else .next (.add F ds { d with adds := d.adds ++ [rr] })

def ixRun (c : Conf) (byOne : Bool) : IxA × Nat → List RRset → Out (IxA × Nat) (List Diff)
  | s, [] => .more s
  | s, rr :: t =>
    if inZone c rr = false then ixRun c byOne s t
    else
      match stepA byOne s.1 rr with
      | .fail => .fail
      | .next a => if (s.2 + c.size rr) / 2 > c.maxSize then .fail else ixRun c byOne (a, s.2 + c.size rr) t
      | .done ds => if (s.2 + c.size rr) / 2 > c.maxSize then .fail else .done ds

theorem ixRun_append (c : Conf) (byOne : Bool) (s : IxA × Nat) (a b : List RRset) :
    ixRun c byOne s (a ++ b) = (ixRun c byOne s a).bind fun s => ixRun c byOne s b := by
  induction a generalizing s with
  | nil => rfl
  | cons rr t ih =>
    simp only [List.cons_append, ixRun]
    split
    · exact ih _
    · split
      · rfl
      · split
        · rfl
        · exact ih _
      · split <;> rfl

/-! ## The data -/

/-- A changeset of which only the removals were read. -/
def halfCh (old : RRset) (dels : List RRset) : Ch := ⟨[], zoneOf dels, some old, none⟩

/-- The data at a point of an IXFR. -/
def IxData (d : Data) : IxA → Prop
  | .init => d.proc = some .start ∧ d.finalSoa = none ∧ d.chs = []
  | .first F => d.proc = some .start ∧ d.finalSoa = some F ∧ d.chs = [] ∧ F.1.type = soa
  | .del F ds old dels => (d.proc = some .soaDel ∨ d.proc = some .del) ∧ d.finalSoa = some F ∧ F.1.type = soa ∧
      d.chs = ds.map Diff.ch ++ [halfCh old dels]
  | .add F ds x => (d.proc = some .soaAdd ∨ d.proc = some .add) ∧ d.finalSoa = some F ∧ F.1.type = soa ∧
      d.chs = (ds ++ [x]).map Diff.ch

structure IxAt (byOne : Bool) (s : IxA × Nat) (d : Data) : Prop where
  data : IxData d s.1
  one : d.byOne = byOne
  size : d.changeSize = s.2
  xfr : d.xfr = .ixfr
  pub : d.published = none
  soa : d.initialSoa = none

theorem updLast_append {f : Ch → Ch} (l : List Ch) (x : Ch) : updLast f (l ++ [x]) = .ok (l ++ [f x]) := by
  induction l with
  | nil => rfl
  | cons y t ih =>
    cases t with
    | nil => simp [updLast]
    | cons z t =>
      have : (y :: z :: t) ++ [x] = y :: z :: (t ++ [x]) := rfl
      rw [this, updLast]
      · have ih' : updLast f (z :: (t ++ [x])) = .ok (z :: t ++ [f x]) := ih
        rw [ih']; rfl
      · simp

theorem rrEqual_soa {a b : RRset} (h : rrEqual a b = true) (hb : b.1.type = soa) : a.1.type = soa := by
  simp only [rrEqual, decide_eq_true_eq] at h
  rw [h.1, hb]

theorem ixfrStepRr_spec {byOne : Bool} {s : IxA} {d : Data} {rr : RRset} (h : IxData d s) (ho : d.byOne = byOne)
    (hs : rr.2.data.length = 1) :
    match stepA byOne s rr with
    | .fail => ∃ d', ixfrStepRr d rr = .ok d' ∧ d'.ret.isSome ∧ d'.published = d.published
    | .next a => ∃ d', ixfrStepRr d rr = .ok d' ∧ d'.ret = none ∧ d'.proc ≠ some .done ∧ IxData d' a ∧
        d'.byOne = byOne ∧ d'.changeSize = d.changeSize ∧ d'.xfr = d.xfr ∧ d'.published = d.published ∧
        d'.initialSoa = d.initialSoa
    | .done ds => ∃ d', ixfrStepRr d rr = .ok d' ∧ d'.ret = none ∧ d'.proc = some .done ∧ d'.chs = ds.map Diff.ch ∧
        d'.finalSoa.isSome ∧ d'.changeSize = d.changeSize ∧ d'.xfr = d.xfr ∧ d'.published = d.published := by
  have hne : rr.2.data ≠ [] := by intro e; rw [e] at hs; simp at hs
  have zsnoc : ∀ l : List RRset, zoneOf (l ++ [rr]) = insertRR (zoneOf l) rr := by intro l; simp [zoneOf]
  cases s with
  | init =>
    obtain ⟨h1, h2, h3⟩ := h
    by_cases ht : rr.1.type = soa
    · simp only [stepA, ht, if_true]
      refine ⟨{ d with ret := none, proc := some .start, finalSoa := some rr, chs := [] }, ?_, rfl, by simp, ⟨rfl, rfl, rfl, ht⟩, ho, rfl, rfl, rfl, rfl⟩
      simp [ixfrStepRr, h1, nextState, h2, ht]
    · simp only [stepA, ht, if_false]
      refine ⟨{ d with proc := some .start, ret := some .emalf }, ?_, rfl, rfl⟩
      simp [ixfrStepRr, h1, nextState, h2, ht]
  | first F =>
    obtain ⟨h1, h2, h3, h4⟩ := h
    by_cases ht : rr.1.type = soa
    · simp only [stepA, ht, if_true]
      refine ⟨{ d with ret := none, proc := some .soaDel, chs := [{ Ch.init with soaFrom := some rr }] }, ?_, rfl, by simp, ⟨.inl rfl, h2, h4, rfl⟩, ho, rfl, rfl, rfl, rfl⟩
      simp [ixfrStepRr, h1, nextState, h2, ht, h3]
    · simp only [stepA, ht, if_false]
      refine ⟨{ d with proc := some .soaDel, ret := some .emalf }, ?_, rfl, rfl⟩
      simp [ixfrStepRr, h1, nextState, h2, ht]
  | del F ds old dels =>
    obtain ⟨h1, h2, h3, h4⟩ := h
    by_cases ht : rr.1.type = soa
    · simp only [stepA, ht, if_true]
      have e1 : ∀ st, nextState st d.finalSoa d.byOne rr = .ok (.soaAdd, d.byOne) →
          d.proc = some st → ixfrStepRr d rr = .ok { d with ret := none, proc := some .soaAdd, chs := ds.map Diff.ch ++ [{ halfCh old dels with soaTo := some rr }] } := by
        intro st hn hp
        simp only [ixfrStepRr, hp, hn, Res.bind_ok, ht, h4, updLast_append]
        simp
      have e2 := h1.elim (fun h => e1 _ (by simp [nextState, ht]) h) (fun h => e1 _ (by simp [nextState, ht]) h)
      refine ⟨_, e2, rfl, ?_, ?_, ho, rfl, rfl, rfl, rfl⟩
      · simp
      · exact ⟨.inl rfl, h2, h3, by simp [Diff.ch, halfCh, zoneOf]⟩
    · simp only [stepA, ht, if_false]
      have e1 : ∀ st, nextState st d.finalSoa d.byOne rr = .ok (.del, d.byOne) →
          d.proc = some st → ixfrStepRr d rr = .ok { d with ret := none, proc := some .del, chs := ds.map Diff.ch ++ [addRemoval (halfCh old dels) rr false] } := by
        intro st hn hp
        simp only [ixfrStepRr, hp, hn, Res.bind_ok, h4, updLast_append]
      have e2 := h1.elim (fun h => e1 _ (by simp [nextState, ht]) h) (fun h => e1 _ (by simp [nextState, ht]) h)
      refine ⟨_, e2, rfl, ?_, ?_, ho, rfl, rfl, rfl, rfl⟩
      · simp
      · refine ⟨.inr rfl, h2, h3, ?_⟩
        simp [addRemoval, halfCh, ht, hne, zsnoc]
  | add F ds x =>
    obtain ⟨h1, h2, h3, h4⟩ := h
    by_cases he : rrEqual rr F = true
    · simp only [stepA, he, if_true]
      have e1 : ∀ st, nextState st d.finalSoa d.byOne rr = .ok (.done, false) →
          d.proc = some st → ixfrStepRr d rr = .ok { d with ret := none, proc := some .done, byOne := false } := by
        intro st hn hp
        simp only [ixfrStepRr, hp, hn, Res.bind_ok]
      have e2 := h1.elim (fun h => e1 _ (by simp [nextState, h2, he]) h) (fun h => e1 _ (by simp [nextState, h2, he]) h)
      exact ⟨_, e2, rfl, rfl, h4, by rw [h2]; rfl, rfl, rfl, rfl⟩
    · simp only [stepA, he, if_false]
      have he' : rrEqual rr F = false := by simpa using he
      by_cases ht : rr.1.type = soa
      · cases hb : byOne with
        | true =>
          simp only [ht, if_true]
          have e1 : ∀ st, nextState st d.finalSoa d.byOne rr = .ok (.done, d.byOne) →
              d.proc = some st → ixfrStepRr d rr = .ok { d with ret := none, proc := some .done } := by
            intro st hn hp
            simp only [ixfrStepRr, hp, hn, Res.bind_ok]
          have e2 := h1.elim (fun h => e1 _ (by simp [nextState, h2, he', ht, ho, hb]) h) (fun h => e1 _ (by simp [nextState, h2, he', ht, ho, hb]) h)
          exact ⟨_, e2, rfl, rfl, h4, by rw [h2]; rfl, rfl, rfl, rfl⟩
        | false =>
          simp only [ht, if_true, Bool.false_eq_true, if_false]
          have e1 : ∀ st, nextState st d.finalSoa d.byOne rr = .ok (.soaDel, d.byOne) →
              d.proc = some st → ixfrStepRr d rr = .ok { d with ret := none, proc := some .soaDel, chs := d.chs ++ [{ Ch.init with soaFrom := some rr }] } := by
            intro st hn hp
            simp only [ixfrStepRr, hp, hn, Res.bind_ok, ht]
            simp
          have e2 := h1.elim (fun h => e1 _ (by simp [nextState, h2, he', ht, ho, hb]) h) (fun h => e1 _ (by simp [nextState, h2, he', ht, ho, hb]) h)
          refine ⟨_, e2, rfl, ?_, ?_, by rw [← hb]; exact ho, rfl, rfl, rfl, rfl⟩
          · simp
          · exact ⟨.inl rfl, h2, h3, by simp only [h4]; rfl⟩
      · simp only [ht, if_false]
        have e1 : ∀ st, nextState st d.finalSoa d.byOne rr = .ok (.add, d.byOne) →
            d.proc = some st → ixfrStepRr d rr = .ok { d with ret := none, proc := some .add, chs := ds.map Diff.ch ++ [addAddition x.ch rr false] } := by
          intro st hn hp
          simp only [ixfrStepRr, hp, hn, Res.bind_ok, h4, List.map_append, List.map_cons, List.map_nil, updLast_append]
        have e2 := h1.elim (fun h => e1 _ (by simp [nextState, h2, he', ht]) h) (fun h => e1 _ (by simp [nextState, h2, he', ht]) h)
        refine ⟨_, e2, rfl, ?_, ?_, ho, rfl, rfl, rfl, rfl⟩
        · simp
        · refine ⟨.inr rfl, h2, h3, ?_⟩
          simp [addAddition, Diff.ch, ht, hne, zsnoc]

theorem ixfrPacket_spec {c : Conf} {byOne : Bool} {l : List RRset} {s : IxA × Nat} {d : Data} (h : IxAt byOne s d)
    (hs : Single l) :
    match ixRun c byOne s l with
    | .more s' => ∃ d', ixfrConsumePacket c d l = .ok (d', .consume) ∧ IxAt byOne s' d'
    | .done ds => ∃ d', ixfrConsumePacket c d l = .ok (d', .done) ∧ d'.chs = ds.map Diff.ch ∧ d'.xfr = .ixfr ∧
        d'.published = none ∧ d'.finalSoa.isSome
    | .fail => ∃ d', ixfrConsumePacket c d l = .ok (d', .fail) ∧ d'.published = none := by
  induction l generalizing s d with
  | nil => exact ⟨d, rfl, h⟩
  | cons rr t ih =>
    have hst : Single t := fun x hx => hs x (List.mem_cons_of_mem _ hx)
    unfold ixRun ixfrConsumePacket
    cases hz : inZone c rr with
    | false =>
      have hr : ixfrConsumeRr c d rr = .ok (d, .consume) := by simp [ixfrConsumeRr, hz]
      rw [hr]
      simp only [if_true, Res.bind_ok]
      exact ih h hst
    | true =>
      have h1 := ixfrStepRr_spec h.data h.one (hs rr (by simp)).2
      simp only [Bool.true_eq_false, if_false]
      have hr : ixfrConsumeRr c d rr = (do
          let d ← ixfrStepRr d rr
          if d.ret.isSome then .ok (d, .fail)
          else
            let d := { d with changeSize := d.changeSize + c.size rr }
            if d.changeSize / 2 > c.maxSize then .ok ({ d with ret := some .ezonesize }, .fail)
            else if d.proc = some .done then .ok (d, .done)
            else .ok (d, .consume)) := by simp [ixfrConsumeRr, hz]
      rw [hr]
      cases ha : stepA byOne s.1 rr with
      | fail =>
        rw [ha] at h1
        obtain ⟨d', e1, e2, e3⟩ := h1
        simp only [e1, Res.bind_ok, e2, if_true]
        exact ⟨d', by simp, by rw [e3, h.pub]⟩
      | next a =>
        rw [ha] at h1
        obtain ⟨d', e1, e2, e3, e4, e5, e6, e7, e8, e9⟩ := h1
        simp only [e1, Res.bind_ok, e2, Option.isSome_none, Bool.false_eq_true, if_false, e6, h.size, e3]
        by_cases hm : (s.2 + c.size rr) / 2 > c.maxSize
        · rw [if_pos hm, if_pos hm]
          exact ⟨_, by simp; rfl, by simp [e8, h.pub]⟩
        · rw [if_neg hm, if_neg hm]
          simp only [Res.bind_ok, if_true]
          refine ih ?_ hst
          refine ⟨?_, e5, rfl, by simp [e7, h.xfr], by simp [e8, h.pub], by simp [e9, h.soa]⟩
          cases a <;> exact e4
      | done ds =>
        rw [ha] at h1
        obtain ⟨d', e1, e2, e3, e4, e5, e6, e7, e8⟩ := h1
        simp only [e1, Res.bind_ok, e2, Option.isSome_none, Bool.false_eq_true, if_false, e6, h.size, e3]
        by_cases hm : (s.2 + c.size rr) / 2 > c.maxSize
        · rw [if_pos hm, if_pos hm]
          exact ⟨_, by simp; rfl, by simp [e8, h.pub]⟩
        · rw [if_neg hm, if_neg hm]
          simp only [if_true, Res.bind_ok]
          exact ⟨_, by simp; rfl, by simp [e4], by simp [e7, h.xfr], by simp [e8, h.pub], by simp [e5]⟩

end Knot.Xfr
