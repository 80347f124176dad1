import Verif.Xfr.Lemmas7
/-! # Transfers: what comes of the answer to an IXFR query -/
namespace Knot.Xfr
open Knot.Dname (Name)
open Knot.Changeset

/-- The claim. -/
def Served (c : Conf) (byOne : Bool) (d : Data) (evs : List Event) : Prop :=
  ∃ d' o io, exec c d evs = .ok (d', o, io) ∧ (∀ z, d'.published = some z ↔ Brings c byOne evs z) ∧
    (o = none ↔ d'.published.isSome ∨ UpToDate c evs) ∧ (o = none → d'.ret = none)

theorem brings_fine {c : Conf} {byOne : Bool} {evs : List Event} {z : Contents} (he : ∀ e ∈ evs, e.Single)
    (h : Brings c byOne evs z) : ∃ m es, evs = .msg m :: es ∧ m.Fine := by
  rcases h with ⟨_, h⟩ | ⟨_, h⟩
  · exact got_fine ((got_axfr he).mpr h)
  · exact got_fine (got_ixfr.mpr h)

theorem served_none {c : Conf} {byOne : Bool} {d d' : Data} {evs : List Event} {e : Err} {io : Bool}
    (h : exec c d evs = .ok (finish d', some e, io)) (hp : d'.published = none)
    (hn : ∀ z, ¬ Brings c byOne evs z) (hu : ¬ UpToDate c evs) : Served c byOne d evs := by
  refine ⟨_, _, _, h, fun z => ?_, ?_, by simp⟩
  · rw [finish_published, hp]
    exact ⟨fun h => by simp at h, fun h => absurd h (hn z)⟩
  · rw [finish_published, hp]; simpa using hu

theorem upToDate_fine {c : Conf} {evs : List Event} (h : UpToDate c evs) : ∃ m es, evs = .msg m :: es ∧ m.Fine := by
  obtain ⟨m, es, _, e, f, _⟩ := h
  exact ⟨m, es, e, f⟩

theorem served_any {c : Conf} {byOne : Bool} {d : Data} {evs : List Event} (he : ∀ e ∈ evs, e.Single)
    (hpub : d.published = none) (hx : d.xfr ≠ .axfr)
    (hfine : ∀ m es, evs = .msg m :: es → m.Fine → Served c byOne d (.msg m :: es)) : Served c byOne d evs := by
  have no : (¬ ∃ m es, evs = .msg m :: es ∧ m.Fine) → (∀ z, ¬ Brings c byOne evs z) ∧ ¬ UpToDate c evs :=
    fun h => ⟨fun z hb => h (brings_fine he hb), fun hu => h (upToDate_fine hu)⟩
  cases evs with
  | nil =>
    obtain ⟨h1, h2⟩ := no (by simp)
    exact served_none rfl hpub h1 h2
  | cons e es =>
    cases e with
    | io x =>
      obtain ⟨h1, h2⟩ := no (by simp)
      exact served_none rfl hpub h1 h2
    | bad x =>
      obtain ⟨h1, h2⟩ := no (by simp)
      exact served_none rfl hpub h1 h2
    | msg m =>
      by_cases hf : m.Fine
      · exact hfine m es rfl hf
      · obtain ⟨h1, h2⟩ := no (by
          rintro ⟨m', es', e1, f⟩
          simp only [List.cons.injEq, Event.msg.injEq] at e1
          rw [← e1.1] at f
          exact hf f)
        cases hxp : m.expired with
        | true =>
          have ht : transferConsume c d m = .ok (d, .ignore) := by simp [transferConsume, hxp]
          exact served_none (d' := d) (e := .error) (io := false) (by simp [exec, ht]) hpub h1 h2
        | false =>
          obtain ⟨d', ht, hp⟩ := ixfr_bad (c := c) hx hpub hxp (fun hr => hf ⟨hr, hxp⟩)
          exact served_none (d' := d') (e := .eprocessing) (io := false) (by simp [exec, ht]) hp h1 h2

/-- From what an AXFR or an IXFR gives. -/
theorem served_of {c : Conf} {byOne : Bool} {d : Data} {evs : List Event} {P : Contents → Prop}
    (h : ∃ d' o io, exec c d evs = .ok (d', o, io) ∧ (∀ z, d'.published = some z ↔ P z) ∧ (o = none ↔ d'.published.isSome) ∧
      (o = none → d'.ret = none))
    (hb : ∀ z, P z ↔ Brings c byOne evs z) (hu : ¬ UpToDate c evs) : Served c byOne d evs := by
  obtain ⟨d', o, io, h1, h2, h3, h4⟩ := h
  exact ⟨d', o, io, h1, fun z => (h2 z).trans (hb z), h3.trans ⟨.inl, fun h => h.resolve_right hu⟩, h4⟩

theorem isCurrent_newer {c : Conf} {one : RRset} :
    isCurrent (zoneSerial c) (serial c.serialOf one) = .ok (!newer c one) := by
  unfold newer
  obtain ⟨x, hx⟩ := Knot.C08_compare_total (zoneSerial c) (serial c.serialOf one)
  have : ∃ b, isCurrent (zoneSerial c) (serial c.serialOf one) = .ok b := ⟨_, by unfold isCurrent; rw [hx]; rfl⟩
  obtain ⟨b, hb⟩ := this
  rw [hb]
  cases b <;> simp

theorem ixfr_client {c : Conf} {byOne : Bool} {evs : List Event} {z0 : Contents} (hz : c.zone = some z0) (w : Wf z0)
    (he : ∀ e ∈ evs, e.Single) : Served c byOne (Data.init true byOne) evs := by
  refine served_any he rfl (by simp [Data.init]) (fun m es heq hf => ?_)
  subst heq
  have hsm : Single m.answer := he (.msg m) (by simp)
  have hes : ∀ e ∈ es, e.Single := fun e h => he e (List.mem_cons_of_mem _ h)
  have htc := transferConsume_after (c := c) (d := Data.init true byOne) hf (by simp [Data.init])
  have htc' : transferConsume c (Data.init true byOne) m = after c m (do
      let t ← determine c m.answer (zoneSerial c) none
      match t with
      | .error => .ok ({ Data.init true byOne with fallbackAxfr := true, ret := some .emalf, xfr := .ixfr }, .fail)
      | .notimp => .ok ({ Data.init true byOne with fallbackAxfr := true, ret := some .enotsup, xfr := .ixfr }, .fail)
      | .undetermined => .ok ({ Data.init true byOne with fallbackAxfr := true, xfr := .undetermined, initialSoa := m.answer.head? }, .consume)
      | .axfr => axfrConsume c { Data.init true byOne with fallbackAxfr := true, xfr := .axfr, axfrStyle := true } m true
      | .uptodate => .ok ({ Data.init true byOne with fallbackAxfr := true, xfr := .uptodate }, .done)
      | .ixfr => ixfrGoOn c { Data.init true byOne with fallbackAxfr := true, proc := some .start, finalSoa := none, chs := [], changeSize := 0 } m) := by
    rw [htc]
    unfold ixfrConsume
    simp only [hf.1, ne_eq, not_true_eq_false, if_false, Data.init]
    congr 1
    cases determine c m.answer (zoneSerial c) none with
    | ub => rfl
    | err e => rfl
    | ok t => cases t <;> rfl
  -- the answer is a whole zone
  have axfrCase : determine c m.answer (zoneSerial c) none = .ok .axfr → style (newer c) (.msg m :: es) = some .axfr →
      ¬ UpToDate c (.msg m :: es) → Served c byOne (Data.init true byOne) (.msg m :: es) := by
    intro hd hst hu
    have ho : Outcome (Accepted c) AxAny (axfrRun c ([], 0) m.answer) m.unsigned (transferConsume c (Data.init true byOne) m) := by
      rw [htc', hd]
      simp only [Res.bind_ok]
      have : axfrConsume c { Data.init true byOne with fallbackAxfr := true, xfr := .axfr, axfrStyle := true } m true =
          axfrConsumePacket c { Data.init true byOne with fallbackAxfr := true, xfr := .axfr, axfrStyle := true, axfrZone := some [] } m.answer := by
        unfold axfrConsume axfrStart axfrSaved
        simp [hf.1, Data.init]
      rw [this]
      exact axfr_out ⟨rfl, rfl, rfl, rfl, rfl⟩ hsm
    refine served_of (ends_msg hf ho (fun s d h => axfr_exec hes h)) (fun z => ?_) hu
    rw [got_axfr he]
    simp [Brings, hst]
  -- the answer has differences
  have ixfrCase : determine c m.answer (zoneSerial c) none = .ok .ixfr → style (newer c) (.msg m :: es) = some .ixfr →
      ¬ UpToDate c (.msg m :: es) → Served c byOne (Data.init true byOne) (.msg m :: es) := by
    intro hd hst hu
    have ho : Outcome (Applied c) (At2 byOne) (ixRun c byOne (.init, 0) m.answer) m.unsigned (transferConsume c (Data.init true byOne) m) := by
      rw [htc', hd]
      simp only [Res.bind_ok]
      exact ixfr_out hz w ⟨⟨⟨rfl, rfl, rfl⟩, rfl, rfl, rfl, rfl, rfl⟩, trivial, by intro rr hr; simp [IxA.text] at hr⟩ hsm
    refine served_of (ends_msg hf ho (fun s d h => ixfr_exec hz w hes h)) (fun z => ?_) hu
    rw [got_ixfr]
    simp [Brings, hst]
  have nope : style (newer c) (.msg m :: es) = none → ∀ z, ¬ Brings c byOne (.msg m :: es) z := by
    intro h z hb
    simp [Brings, h] at hb
  have nou : (∀ one, m.answer ≠ [one]) → ¬ UpToDate c (.msg m :: es) := by
    rintro h ⟨m', _, one, e1, _, _, e2, _⟩
    simp only [List.cons.injEq, Event.msg.injEq] at e1
    rw [← e1.1] at e2
    exact h one e2
  cases ha : m.answer with
  | nil =>
    have ht : transferConsume c (Data.init true byOne) m = .ok ({ Data.init true byOne with fallbackAxfr := true, ret := some .enotsup, xfr := .ixfr }, .fail) := by
      rw [htc', ha]; simp [determine, after]
    exact served_none (e := .eprocessing) (io := false) (by simp only [exec, ht]; rfl) rfl
      (nope (by simp [style, ha])) (nou (by simp [ha]))
  | cons one rest =>
    cases rest with
    | cons two more =>
      have hu := nou (by simp [ha])
      by_cases hc : one.1.type = soa ∧ (two.1.type ≠ soa ∨ (more = [] ∧ rrEqual one two))
      · refine axfrCase ?_ (by simp only [style, ha, if_pos hc]) hu
        rw [ha]
        simp only [determine]
        by_cases h1 : more = [] ∧ one.1.type = soa ∧ rrEqual one two
        · rw [if_pos h1]
        · rw [if_neg h1]
          have h2 : two.1.type ≠ soa := hc.2.resolve_right (fun h => h1 ⟨h.1, hc.1, h.2⟩)
          rw [if_pos ⟨hc.1, h2⟩]
      · refine ixfrCase ?_ (by simp only [style, ha, if_neg hc]) hu
        rw [ha]
        simp only [determine]
        rw [if_neg (fun h => hc ⟨h.2.1, .inr ⟨h.1, h.2.2⟩⟩), if_neg (fun h => hc ⟨h.1, .inl h.2⟩)]
    | nil =>
      by_cases hs1 : one.1.type = soa
      · cases hn : newer c one with
        | false =>
          have ht0 : transferConsume c (Data.init true byOne) m = after c m (.ok ({ Data.init true byOne with fallbackAxfr := true, xfr := .uptodate }, .done)) := by
            rw [htc', ha]
            simp only [determine, hs1, if_true, isCurrent_newer, hn]
            rfl
          have hst : style (newer c) (.msg m :: es) = none := by simp [style, ha, hn]
          cases hun : m.unsigned with
          | true =>
            have ht : transferConsume c (Data.init true byOne) m = .ok ({ Data.init true byOne with fallbackAxfr := true, xfr := .uptodate, ret := some .emalf }, .fail) := by
              rw [ht0]; simp [after, transferDone, hun]
            refine served_none (e := .eprocessing) (io := false) (by simp only [exec, ht]; rfl) rfl (nope hst) ?_
            rintro ⟨m', _, _, e1, _, e2, _⟩
            simp only [List.cons.injEq, Event.msg.injEq] at e1
            rw [← e1.1, hun] at e2
            simp at e2
          | false =>
            have ht : transferConsume c (Data.init true byOne) m = .ok ({ Data.init true byOne with fallbackAxfr := true, xfr := .uptodate }, .done) := by
              rw [ht0]; simp [after, transferDone, hun]
            refine ⟨_, _, _, by simp only [exec, ht]; rfl, fun z => ?_, ?_, fun _ => rfl⟩
            · rw [finish_published]
              exact ⟨fun h => by simp [Data.init] at h, fun h => absurd h (nope hst z)⟩
            · exact ⟨fun _ => .inr ⟨m, es, one, rfl, hf, hun, ha, hs1, hn⟩, fun _ => rfl⟩
        | true =>
          -- just a SOA, a newer one
          have ht : transferConsume c (Data.init true byOne) m = .ok ({ Data.init true byOne with fallbackAxfr := true, xfr := .undetermined, initialSoa := some one }, .consume) := by
            rw [htc', ha]
            simp only [determine, hs1, if_true, isCurrent_newer, hn]
            rfl
          have hu : ¬ UpToDate c (.msg m :: es) := by
            rintro ⟨m', _, one', e1, _, _, e2, _, e3⟩
            simp only [List.cons.injEq, Event.msg.injEq] at e1
            rw [← e1.1, ha] at e2
            simp only [List.cons.injEq, and_true] at e2
            rw [← e2, hn] at e3
            simp at e3
          have hsv : Saved byOne one { Data.init true byOne with fallbackAxfr := true, xfr := .undetermined, initialSoa := some one } :=
            ⟨rfl, rfl, rfl, rfl, rfl, rfl⟩
          generalize { Data.init true byOne with fallbackAxfr := true, xfr := .undetermined, initialSoa := some one } = d1 at ht hsv
          have hx : exec c (Data.init true byOne) (.msg m :: es) = exec c d1 es := by simp [exec, ht]
          have k1 : KeyOk one.1 ∧ one.2.data.length = 1 := hsm one (by rw [ha]; simp)
          have noneG : (¬ ∃ m2 es2, es = .msg m2 :: es2 ∧ m2.Fine) → ∀ z, ¬ Brings c byOne (.msg m :: es) z := by
            rintro hno z (⟨hst, h⟩ | ⟨hst, h⟩)
            · rw [← got_axfr he] at h
              cases h with
              | last _ f =>
                rw [ha] at f
                simp only [axfrRun, show lookup ([] : Contents) (soaKey c.apex) = none from rfl] at f
                simp only [Option.isSome_none, Bool.false_eq_true, and_false, if_false] at f
                split at f <;> simp at f
              | more _ _ g => exact hno (got_fine g)
            · rw [← got_ixfr] at h
              cases h with
              | last _ f =>
                rw [ha] at f
                simp only [ixRun, stepA, hs1, if_true] at f
                split at f
                · simp at f
                · split at f <;> simp at f
              | more _ _ g => exact hno (got_fine g)
          cases es with
          | nil =>
            exact served_none (e := .etimeout) (io := true) (by rw [hx]; rfl) hsv.pub (noneG (by simp)) hu
          | cons e2 es2 =>
            cases e2 with
            | io x => exact served_none (io := true) (by rw [hx]; rfl) hsv.pub (noneG (by simp)) hu
            | bad x => exact served_none (io := false) (by rw [hx]; rfl) hsv.pub (noneG (by simp)) hu
            | msg m2 =>
              by_cases hf2 : m2.Fine
              · have hs2 : Single m2.answer := hes (.msg m2) (by simp)
                have hes2 : ∀ e ∈ es2, e.Single := fun e h => hes e (List.mem_cons_of_mem _ h)
                cases ha2 : m2.answer with
                | nil =>
                  have ht2 : transferConsume c d1 m2 = .ok ({ d1 with fallbackAxfr := false, ret := some .enotsup, xfr := .ixfr }, .fail) := by
                    rw [transferConsume_after hf2 (by rw [hsv.xfr]; simp)]
                    simp [ixfrConsume, hf2.1, hsv.proc, ha2, determine, after, hsv.xfr]
                  exact served_none (d' := { d1 with fallbackAxfr := false, ret := some .enotsup, xfr := .ixfr }) (e := .eprocessing) (io := false) (by rw [hx]; simp [exec, ht2]) hsv.pub
                    (nope (by simp [style, ha, ha2])) hu
                | cons two more =>
                  by_cases hc : two.1.type ≠ soa ∨ rrEqual one two
                  · have hst : style (newer c) (.msg m :: .msg m2 :: es2) = some .axfr := by
                      simp only [style, ha, hs1, hn, ha2, if_pos hc]; simp
                    have hd : determine c m2.answer (zoneSerial c) (some one) = .ok .axfr := by
                      rw [ha2]
                      simp only [determine]
                      split
                      · rename_i hs; rw [if_pos (hc.resolve_left (fun h => h hs))]
                      · rfl
                    have ho := saved_axfr (c := c) hsv hs1 hf2 k1 hs2 hd
                    have := ends_join (l := [one]) (es := es2) hf2 ho (fun s d h => axfr_exec hes2 h)
                    rw [← hx] at this
                    refine served_of this (fun z => ?_) hu
                    rw [← ha, ← got_join (axfrRun_append c) hf, got_axfr he]
                    · simp [Brings, hst]
                    · intro r f
                      rw [ha] at f
                      simp only [axfrRun, show lookup ([] : Contents) (soaKey c.apex) = none from rfl] at f
                      simp only [Option.isSome_none, Bool.false_eq_true, and_false, if_false] at f
                      split at f <;> simp at f
                  · have hst : style (newer c) (.msg m :: .msg m2 :: es2) = some .ixfr := by
                      simp only [style, ha, hs1, hn, ha2, if_neg hc]; simp
                    have hd : determine c m2.answer (zoneSerial c) (some one) = .ok .ixfr := by
                      rw [ha2]
                      simp only [determine]
                      rw [if_pos (Decidable.byContradiction fun h => hc (.inl h)), if_neg (fun h => hc (.inr h))]
                    have ho := saved_ixfr (c := c) hz w hsv hs1 hf2 k1 hs2 hd
                    have := ends_join (l := [one]) (es := es2) hf2 ho (fun s d h => ixfr_exec hz w hes2 h)
                    rw [← hx] at this
                    refine served_of this (fun z => ?_) hu
                    rw [← ha, ← got_join (ixRun_append c byOne) hf, got_ixfr]
                    · simp [Brings, hst]
                    · intro r f
                      rw [ha] at f
                      simp only [ixRun, stepA, hs1, if_true] at f
                      split at f
                      · simp at f
                      · split at f <;> simp at f
              · have hno : ¬ ∃ m3 es3, Event.msg m2 :: es2 = .msg m3 :: es3 ∧ m3.Fine := by
                  rintro ⟨m3, _, e1, f⟩
                  simp only [List.cons.injEq, Event.msg.injEq] at e1
                  rw [← e1.1] at f
                  exact hf2 f
                cases hxp : m2.expired with
                | true =>
                  have ht2 : transferConsume c d1 m2 = .ok (d1, .ignore) := by simp [transferConsume, hxp]
                  exact served_none (d' := d1) (e := .error) (io := false) (by rw [hx]; simp [exec, ht2]) hsv.pub (noneG hno) hu
                | false =>
                  obtain ⟨d', ht2, hp⟩ := ixfr_bad (c := c) (d := d1) (by rw [hsv.xfr]; simp) hsv.pub hxp (fun hr => hf2 ⟨hr, hxp⟩)
                  exact served_none (d' := d') (e := .eprocessing) (io := false) (by rw [hx]; simp [exec, ht2]) hp (noneG hno) hu
      · have ht : transferConsume c (Data.init true byOne) m = .ok ({ Data.init true byOne with fallbackAxfr := true, ret := some .emalf, xfr := .ixfr }, .fail) := by
          rw [htc', ha]; simp [determine, after, hs1]
        refine served_none (e := .eprocessing) (io := false) (by simp only [exec, ht]; rfl) rfl
          (nope (by simp [style, ha, hs1])) ?_
        rintro ⟨m', _, one', e1, _, _, e2, e3, _⟩
        simp only [List.cons.injEq, Event.msg.injEq] at e1
        rw [← e1.1, ha] at e2
        simp only [List.cons.injEq, and_true] at e2
        exact hs1 (e2 ▸ e3)

end Knot.Xfr
