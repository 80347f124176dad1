import Verif.Xfr.Lemmas6
/-! # Transfers: the answer to an IXFR query -/
namespace Knot.Xfr
open Knot.Dname (Name)
open Knot.Changeset
open Knot.Rdataset (Canon)

theorem transferDone_ixfr {c : Conf} {d : Data} {ds : List Diff} {m : Msg} {z0 : Contents} (hz : c.zone = some z0) (w : Wf z0)
    (hc : d.chs = ds.map Diff.ch) (hs : ∀ x ∈ ds, Single x.text) (hx : d.xfr = .ixfr) (hp : d.published = none)
    (hf : d.finalSoa.isSome) :
    ∃ d' st, transferDone c d m = .ok (d', st) ∧ (st = .done ∨ st = .fail) ∧
      (∀ z, d'.published = some z ↔ m.unsigned = false ∧ Applied c ds z) ∧ (st = .done ↔ d'.published.isSome) ∧
      (st = .done → d'.ret = none) := by
  have hn : d.finalSoa ≠ none := by intro e; rw [e] at hf; simp at hf
  unfold transferDone
  simp only [hx, true_and, hn, if_false]
  split
  · rename_i hu
    exact ⟨_, _, rfl, .inr rfl, fun z' => ⟨fun e => by simp [hp] at e, fun e => by simp [e.1] at hu⟩, by simp [hp], by simp⟩
  · rename_i hu
    obtain ⟨d', e1, e2, e3⟩ := ixfrFinalize_spec (c := c) hz w hc hs hp
    simp only [e1, Res.bind_ok]
    refine ⟨d', _, rfl, ?_, fun z' => (e2 z').trans ⟨fun e => ⟨by simpa using hu, e⟩, fun e => e.2⟩, ?_, ?_⟩
    · split
      · exact .inr rfl
      · exact .inl rfl
    · rw [← e3]
      cases d'.ret <;> simp
    · cases d'.ret <;> simp

/-- The data at a point of an IXFR of single records. -/
def At2 (byOne : Bool) (s : IxA × Nat) (d : Data) : Prop :=
  IxAt byOne s d ∧ s.1.Ok byOne ∧ Single s.1.text

/-- From a packet to the outcome. -/
def after (c : Conf) (m : Msg) (r : Res (Data × St)) : Res (Data × St) := do
  let r ← r
  if r.2 = .done then transferDone c r.1 m else .ok r

theorem ixRun_more_text {c : Conf} {byOne : Bool} {l : List RRset} {s s' : IxA × Nat} (ho : s.1.Ok byOne)
    (h : ixRun c byOne s l = .more s') : s'.1.Ok byOne ∧ s'.1.text = s.1.text ++ l.filter (inZone c) := by
  induction l generalizing s with
  | nil =>
    simp only [ixRun, Out.more.injEq] at h
    subst h
    exact ⟨ho, by simp⟩
  | cons rr t ih =>
    unfold ixRun at h
    cases hz : inZone c rr with
    | false =>
      simp only [hz, if_true] at h
      rw [List.filter_cons_of_neg (by simp [hz])]
      exact ih ho h
    | true =>
      simp only [hz, Bool.true_eq_false, if_false] at h
      split at h
      · simp at h
      · rename_i a ha
        split at h
        · simp at h
        · obtain ⟨o1, o2⟩ := stepA_next ho ha
          obtain ⟨e1, e2⟩ := ih (s := (a, s.2 + c.size rr)) o1 h
          rw [List.filter_cons_of_pos hz]
          exact ⟨e1, by rw [e2, o2]; simp⟩
      · split at h <;> simp at h

theorem ixfr_out {c : Conf} {byOne : Bool} {s : IxA × Nat} {d : Data} {m : Msg} {l : List RRset} {z0 : Contents}
    (hz : c.zone = some z0) (w : Wf z0) (h : At2 byOne s d) (hs : Single l) :
    Outcome (Applied c) (At2 byOne) (ixRun c byOne s l) m.unsigned (after c m (ixfrConsumePacket c d l)) := by
  obtain ⟨h1, h2, h3⟩ := h
  have hp := ixfrPacket_spec (c := c) h1 hs
  unfold after
  cases hr : ixRun c byOne s l with
  | more s' =>
    rw [hr] at hp
    obtain ⟨d', e, ha⟩ := hp
    rw [e]
    obtain ⟨k1, k2⟩ := ixRun_more_text h2 hr
    refine ⟨d', by simp, ha, k1, ?_⟩
    rw [k2]
    exact Single.append.mpr ⟨h3, hs.filter _⟩
  | done ds =>
    rw [hr] at hp
    obtain ⟨d', e, k1, k2, k3, k4⟩ := hp
    rw [e]
    simp only [Res.bind_ok, if_true]
    refine transferDone_ixfr hz w k1 ?_ k2 k3 k4
    obtain ⟨p, e, q, a, n, f1, f2, f3, f4, f5⟩ := ixRun_done.mp hr
    obtain ⟨g1, g2⟩ := ixRun_more_text h2 f2
    obtain ⟨F, g3, _⟩ := (stepA_done g1).mp f4
    have hsp : Single a.text := by
      rw [g2]
      exact Single.append.mpr ⟨h3, Single.filter (fun rr hr => hs rr (by rw [f1]; simp [hr])) _⟩
    intro x hx rr hrr
    exact hsp rr (by rw [g3]; exact List.mem_cons_of_mem _ (List.mem_flatMap.mpr ⟨x, hx, hrr⟩))
  | fail =>
    rw [hr] at hp
    obtain ⟨d', e, hp⟩ := hp
    rw [e]
    exact ⟨d', by simp, hp⟩

theorem axfr_out {c : Conf} {s : Contents × Nat} {d : Data} {m : Msg} {l : List RRset} (h : AxAt s d) (hs : Single l) :
    Outcome (Accepted c) AxAny (axfrRun c s l) m.unsigned (after c m (axfrConsumePacket c d l)) := by
  have h1 := axfrPacket_spec (c := c) h hs
  unfold after
  cases hr : axfrRun c s l with
  | more s' =>
    rw [hr] at h1
    obtain ⟨d', e, ha⟩ := h1
    rw [e]
    exact ⟨d', by simp, .inl ha⟩
  | done z =>
    rw [hr] at h1
    obtain ⟨d', e, h2, h3, h4⟩ := h1
    rw [e]
    simp only [Res.bind_ok, if_true]
    exact transferDone_axfr h2 h3 h4
  | fail =>
    rw [hr] at h1
    obtain ⟨d', e, hp⟩ := h1
    rw [e]
    exact ⟨d', by simp, hp⟩

theorem transferConsume_after {c : Conf} {d : Data} {m : Msg} (hf : m.Fine) (hx : d.xfr ≠ .axfr) :
    transferConsume c d m = after c m (ixfrConsume c { d with fallbackAxfr := decide (d.xfr = .ixfr) } m) := by
  unfold transferConsume after
  simp [hf.2, hx]

theorem ixData_proc {d : Data} {s : IxA} (h : IxData d s) : ∃ st, d.proc = some st := by
  cases s with
  | init => exact ⟨_, h.1⟩
  | first F => exact ⟨_, h.1⟩
  | del F ds old dels => exact h.1.elim (fun e => ⟨_, e⟩) (fun e => ⟨_, e⟩)
  | add F ds d => exact h.1.elim (fun e => ⟨_, e⟩) (fun e => ⟨_, e⟩)

theorem IxAt.fallback {byOne : Bool} {s : IxA × Nat} {d : Data} (h : IxAt byOne s d) (b : Bool) :
    IxAt byOne s { d with fallbackAxfr := b } := by
  refine ⟨?_, h.one, h.size, h.xfr, h.pub, h.soa⟩
  have := h.data
  cases hs : s.1 <;> rw [hs] at this <;> exact this

theorem ixfr_step {c : Conf} {byOne : Bool} {s : IxA × Nat} {d : Data} {m : Msg} {z0 : Contents}
    (hz : c.zone = some z0) (w : Wf z0) (h : At2 byOne s d) (hf : m.Fine) (hs : Single m.answer) :
    Outcome (Applied c) (At2 byOne) (ixRun c byOne s m.answer) m.unsigned (transferConsume c d m) := by
  rw [transferConsume_after hf (by rw [h.1.xfr]; simp)]
  obtain ⟨st, hp⟩ := ixData_proc h.1.data
  have : ixfrConsume c { d with fallbackAxfr := decide (d.xfr = .ixfr) } m =
      ixfrConsumePacket c { d with fallbackAxfr := decide (d.xfr = .ixfr) } m.answer := by
    unfold ixfrConsume ixfrGoOn
    simp [hf.1, hp, h.1.soa]
  rw [this]
  exact ixfr_out hz w ⟨h.1.fallback _, h.2⟩ hs

theorem ixfr_bad {c : Conf} {d : Data} {m : Msg} (h : d.xfr ≠ .axfr) (hp : d.published = none) (hx : m.expired = false)
    (hr : m.rcode ≠ 0) : ∃ d', transferConsume c d m = .ok (d', .fail) ∧ d'.published = none := by
  unfold transferConsume
  simp [hx, h, ixfrConsume, hr, hp]

theorem ixfr_exec {c : Conf} {byOne : Bool} {evs : List Event} {z0 : Contents} (hz : c.zone = some z0) (w : Wf z0)
    (he : ∀ e ∈ evs, e.Single) {s : IxA × Nat} {d : Data} (hd : At2 byOne s d) :
    Ends c (ixRun c byOne) (Applied c) s d evs :=
  exec_got (fun _ _ _ h hf hs => ixfr_step hz w h hf hs)
    (fun _ _ _ h hx hr => ixfr_bad (by rw [h.1.xfr]; simp) h.1.pub hx hr) (fun _ _ h => h.1.pub) he hd

/-! ## The saved SOA -/

theorem got_join {σ ρ : Type} {run : σ → List RRset → Out σ ρ} {F : ρ → Contents → Prop}
    (ha : ∀ s a b, run s (a ++ b) = (run s a).bind fun s => run s b) {s : σ} {m1 m2 : Msg} {es : List Event} {z : Contents}
    (hf : m1.Fine) (hn : ∀ r, run s m1.answer ≠ .done r) :
    Got run F s (.msg m1 :: .msg m2 :: es) z ↔ Got run F s (.msg { m2 with answer := m1.answer ++ m2.answer } :: es) z := by
  constructor
  · intro h
    cases h with
    | last _ f => exact absurd f (hn _)
    | more _ f g =>
      cases g with
      | last k1 k2 k3 k4 =>
        refine .last (m := { m2 with answer := m1.answer ++ m2.answer }) k1 ?_ k3 k4
        rw [ha, f]; exact k2
      | more k1 k2 k3 =>
        refine .more (m := { m2 with answer := m1.answer ++ m2.answer }) k1 ?_ k3
        rw [ha, f]; exact k2
  · intro h
    cases hr : run s m1.answer with
    | done r => exact absurd hr (hn r)
    | fail =>
      cases h with
      | last _ f => rw [ha, hr] at f; simp [Out.bind] at f
      | more _ f => rw [ha, hr] at f; simp [Out.bind] at f
    | more s' =>
      refine .more hf hr ?_
      cases h with
      | last k1 k2 k3 k4 =>
        rw [ha, hr] at k2
        exact .last k1 k2 k3 k4
      | more k1 k2 k3 =>
        rw [ha, hr] at k2
        exact .more k1 k2 k3

theorem ends_join {σ ρ : Type} {c : Conf} {run : σ → List RRset → Out σ ρ} {F : ρ → Contents → Prop} {At : σ → Data → Prop}
    {s : σ} {d : Data} {m : Msg} {l : List RRset} {es : List Event} (hfine : m.Fine)
    (ho : Outcome F At (run s (l ++ m.answer)) m.unsigned (transferConsume c d m))
    (ih : ∀ s d, At s d → Ends c run F s d es) :
    ∃ d' o io, exec c d (.msg m :: es) = .ok (d', o, io) ∧
      (∀ z, d'.published = some z ↔ Got run F s (.msg { m with answer := l ++ m.answer } :: es) z) ∧
      (o = none ↔ d'.published.isSome) ∧ (o = none → d'.ret = none) := by
  have hfine' : Msg.Fine { m with answer := l ++ m.answer } := hfine
  cases hrun : run s (l ++ m.answer) with
  | more s' =>
    rw [hrun] at ho
    obtain ⟨d', ht, ha⟩ := ho
    obtain ⟨d2, o, io, h1, h2, h3⟩ := ih _ _ ha
    refine ⟨d2, o, io, by simp [exec, ht, h1], fun z => (h2 z).trans ⟨fun h => .more hfine' hrun h, fun h => ?_⟩, h3⟩
    cases h with
    | last _ f => rw [hrun] at f; simp at f
    | more _ f g =>
      rw [hrun] at f
      simp only [Out.more.injEq] at f
      rw [f]; exact g
  | done r =>
    rw [hrun] at ho
    obtain ⟨d', st, ht, hst, hz, hd', hret⟩ := ho
    have hgot : ∀ z, (m.unsigned = false ∧ F r z) ↔ Got run F s (.msg { m with answer := l ++ m.answer } :: es) z := by
      intro z
      refine ⟨fun h => .last hfine' hrun h.1 h.2, fun h => ?_⟩
      cases h with
      | last _ f u g =>
        rw [hrun] at f
        simp only [Out.done.injEq] at f
        rw [f]; exact ⟨u, g⟩
      | more _ f => rw [hrun] at f; simp at f
    rcases hst with e | e
    · subst e
      refine ⟨finish d', none, false, by simp [exec, ht], fun z => ?_, ?_, fun _ => by rw [finish_ret]; exact hret rfl⟩
      · rw [finish_published]; exact (hz z).trans (hgot z)
      · rw [finish_published]; simpa using hd'
    · subst e
      refine ⟨finish d', some .eprocessing, false, by simp [exec, ht], fun z => ?_, ?_, by simp⟩
      · rw [finish_published]; exact (hz z).trans (hgot z)
      · rw [finish_published]; simpa using hd'
  | fail =>
    rw [hrun] at ho
    obtain ⟨d', ht, hp⟩ := ho
    refine ⟨finish d', some .eprocessing, false, by simp [exec, ht], fun z => ?_, ?_, by simp⟩
    · rw [finish_published, hp]
      refine ⟨fun h => by simp at h, fun h => ?_⟩
      cases h with
      | last _ f => rw [hrun] at f; simp at f
      | more _ f => rw [hrun] at f; simp at f
    · rw [finish_published, hp]; simp

/-- The data when the first message had just a SOA. -/
structure Saved (byOne : Bool) (one : RRset) (d : Data) : Prop where
  xfr : d.xfr = .undetermined
  proc : d.proc = none
  byone : d.byOne = byOne
  saved : d.initialSoa = some one
  noZone : d.axfrZone = none
  pub : d.published = none

theorem saved_ixfr {c : Conf} {byOne : Bool} {one : RRset} {d : Data} {m : Msg} {z0 : Contents} (hz : c.zone = some z0)
    (w : Wf z0) (h : Saved byOne one d) (ht : one.1.type = soa) (hf : m.Fine) (h1 : KeyOk one.1 ∧ one.2.data.length = 1)
    (hs : Single m.answer)
    (hd : determine c m.answer (zoneSerial c) (some one) = .ok .ixfr) :
    Outcome (Applied c) (At2 byOne) (ixRun c byOne (.init, 0) ([one] ++ m.answer)) m.unsigned (transferConsume c d m) := by
  rw [transferConsume_after hf (by rw [h.xfr]; simp)]
  have hu : ixfrConsume c { d with fallbackAxfr := decide (d.xfr = .ixfr) } m =
      ixfrGoOn c { d with fallbackAxfr := decide (d.xfr = .ixfr), ret := none, xfr := .ixfr, proc := some .start, finalSoa := none, chs := [], changeSize := 0 } m := by
    unfold ixfrConsume
    simp only [hf.1, ne_eq, not_true_eq_false, if_false, h.proc, h.saved, hd, Res.bind_ok]
  rw [hu]
  unfold ixfrGoOn
  simp only [h.saved]
  cases hin : inZone c one with
  | false =>
    have hr : ∀ d, ixfrConsumeRr c d one = .ok (d, .consume) := by intro d; simp [ixfrConsumeRr, hin]
    rw [hr]
    simp only [Res.bind_ok, if_true]
    have e : ixRun c byOne (.init, 0) ([one] ++ m.answer) = ixRun c byOne (.init, 0) m.answer := by
      simp [ixRun, hin]
    rw [e]
    exact ixfr_out hz w ⟨⟨⟨rfl, rfl, rfl⟩, h.byone, rfl, rfl, h.pub, rfl⟩, trivial, by intro rr hr; simp [IxA.text] at hr⟩ hs
  | true =>
    by_cases hm : c.size one / 2 > c.maxSize
    · have e : ixRun c byOne (.init, 0) ([one] ++ m.answer) = .fail := by
        simp [ixRun, hin, stepA, ht, hm]
      rw [e]
      simp only [ixfrConsumeRr, hin, not_true_eq_false, if_false, ixfrStepRr, nextState, Res.bind_ok, ht]
      simp [hm, after, Outcome, h.pub]
    · have e : ixRun c byOne (.init, 0) ([one] ++ m.answer) = ixRun c byOne (.first one, c.size one) m.answer := by
        simp [ixRun, hin, stepA, ht, hm]
      rw [e]
      have hr : ∀ d : Data, d.proc = some .start → d.finalSoa = none → d.chs = [] → d.changeSize = 0 →
          ixfrConsumeRr c d one = .ok ({ d with ret := none, finalSoa := some one, changeSize := c.size one }, .consume) := by
        intro d h1 h2 h3 h4
        have hm' : ¬ (c.maxSize < c.size one / 2) := hm
        obtain ⟨a1, a2, a3, a4, a5, a6, a7, a8, a9, a10, a11, a12⟩ := d
        simp only at h1 h2 h3 h4
        subst h1 h2 h3 h4
        simp [ixfrConsumeRr, hin, ixfrStepRr, nextState, ht, hm']
      rw [hr _ rfl rfl rfl rfl]
      simp only [Res.bind_ok, if_true]
      refine ixfr_out hz w ⟨⟨⟨rfl, rfl, rfl, ht⟩, h.byone, rfl, rfl, h.pub, rfl⟩, ht, ?_⟩ hs
      intro rr hr
      simp only [IxA.text, List.mem_singleton] at hr
      rw [hr]; exact h1

theorem saved_axfr {c : Conf} {byOne : Bool} {one : RRset} {d : Data} {m : Msg}
    (h : Saved byOne one d) (ht : one.1.type = soa) (hf : m.Fine) (h1 : KeyOk one.1 ∧ one.2.data.length = 1)
    (hs : Single m.answer)
    (hd : determine c m.answer (zoneSerial c) (some one) = .ok .axfr) :
    Outcome (Accepted c) AxAny (axfrRun c ([], 0) ([one] ++ m.answer)) m.unsigned (transferConsume c d m) := by
  rw [transferConsume_after hf (by rw [h.xfr]; simp)]
  have hu : ixfrConsume c { d with fallbackAxfr := decide (d.xfr = .ixfr) } m =
      axfrConsume c { d with fallbackAxfr := decide (d.xfr = .ixfr), ret := none, xfr := .axfr, axfrStyle := true } m true := by
    unfold ixfrConsume
    simp only [hf.1, ne_eq, not_true_eq_false, if_false, h.proc, h.saved, hd, Res.bind_ok]
  rw [hu]
  unfold axfrConsume axfrStart axfrSaved
  simp only [hf.1, ne_eq, not_true_eq_false, if_false, h.noZone, h.saved, if_true]
  rw [axfrRun_append]
  have hc := axfrConsumeRr_spec (c := c) (s := ([], 0)) (rr := one) (d := { d with fallbackAxfr := decide (d.xfr = .ixfr), ret := none, xfr := .axfr, axfrStyle := true, axfrZone := some [], changeSize := 0 }) rfl rfl h1.2
  have hl : lookup ([] : Contents) (soaKey c.apex) = none := rfl
  simp only [hl, Option.isSome_none, Bool.false_eq_true, and_false, if_false, h.saved] at hc
  simp only [axfrRun, hl, Option.isSome_none, Bool.false_eq_true, and_false, if_false]
  by_cases hm : 0 + c.size one > c.maxSize
  · rw [if_pos hm] at hc ⊢
    obtain ⟨d', e, hp⟩ := hc
    rw [e]
    simp only [Out.bind, after, Res.bind_ok, reduceCtorEq, if_false, Outcome]
    exact ⟨_, rfl, by simp [hp, h.pub]⟩
  · rw [if_neg hm] at hc ⊢
    obtain ⟨d', e, hp⟩ := hc
    rw [e]
    simp only [Out.bind, Res.bind_ok, if_true]
    refine axfr_out ⟨?_, ?_, ?_, ?_, ?_⟩ hs
    · rw [hp]
    · rw [hp]
    · rw [hp]
    · rw [hp]; exact h.pub
    · rfl

end Knot.Xfr
