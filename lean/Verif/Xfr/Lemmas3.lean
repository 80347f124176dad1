import Verif.Xfr.Lemmas2
/-! # Transfers: the client, messages put together -/
namespace Knot.Xfr
open Knot.Dname (Name)
open Knot.Changeset

/-- What becomes of reading records. -/
inductive Out (σ ρ : Type) where
  | more (s : σ)
  | done (r : ρ)
  | fail

/-- Reading goes on in the next message where it stopped. -/
def Out.bind {σ ρ : Type} (o : Out σ ρ) (f : σ → Out σ ρ) : Out σ ρ :=
  match o with
  | .more s => f s
  | .done r => .done r
  | .fail => .fail

section
variable {σ ρ : Type}

def Outcome (F : ρ → Contents → Prop) (At : σ → Data → Prop) : Out σ ρ → Bool → Res (Data × St) → Prop
  | .more s, _, r => ∃ d', r = .ok (d', .consume) ∧ At s d'
  | .done x, u, r => ∃ d' st, r = .ok (d', st) ∧ (st = .done ∨ st = .fail) ∧
      (∀ z, d'.published = some z ↔ u = false ∧ F x z) ∧ (st = .done ↔ d'.published.isSome) ∧ (st = .done → d'.ret = none)
  | .fail, _, r => ∃ d', r = .ok (d', .fail) ∧ d'.published = none

/-- The events lead to contents `z`. -/
inductive Got (run : σ → List RRset → Out σ ρ) (F : ρ → Contents → Prop) : σ → List Event → Contents → Prop
  | last {s : σ} {m : Msg} {es : List Event} {r : ρ} {z : Contents} : m.Fine → run s m.answer = .done r →
      m.unsigned = false → F r z → Got run F s (.msg m :: es) z
  | more {s s' : σ} {m : Msg} {es : List Event} {z : Contents} : m.Fine → run s m.answer = .more s' →
      Got run F s' es z → Got run F s (.msg m :: es) z

theorem finish_published (d : Data) : (finish d).published = d.published := by
  unfold finish
  split <;> rfl

/-- The claim about the rest of an exchange. -/
def Ends (c : Conf) (run : σ → List RRset → Out σ ρ) (F : ρ → Contents → Prop) (s : σ) (d : Data) (evs : List Event) : Prop :=
  ∃ d' o io, exec c d evs = .ok (d', o, io) ∧ (∀ z, d'.published = some z ↔ Got run F s evs z) ∧
    (o = none ↔ d'.published.isSome) ∧ (o = none → d'.ret = none)

theorem finish_ret (d : Data) : (finish d).ret = d.ret := by
  unfold finish
  split <;> rfl

theorem ends_none {c : Conf} {run : σ → List RRset → Out σ ρ} {F : ρ → Contents → Prop} {s : σ} {d d' : Data}
    {evs : List Event} {e : Err} {io : Bool} (h : exec c d evs = .ok (finish d', some e, io)) (hp : d'.published = none)
    (hn : ∀ z, ¬ Got run F s evs z) : Ends c run F s d evs := by
  refine ⟨_, _, _, h, fun z => ?_, ?_, by simp⟩
  · rw [finish_published, hp]
    exact ⟨fun h => by simp at h, fun h => absurd h (hn z)⟩
  · rw [finish_published, hp]; simp

theorem ends_msg {c : Conf} {run : σ → List RRset → Out σ ρ} {F : ρ → Contents → Prop} {At : σ → Data → Prop}
    {s : σ} {d : Data} {m : Msg} {es : List Event} (hfine : m.Fine)
    (ho : Outcome F At (run s m.answer) m.unsigned (transferConsume c d m))
    (ih : ∀ s d, At s d → Ends c run F s d es) : Ends c run F s d (.msg m :: es) := by
  cases hrun : run s m.answer with
  | more s' =>
    rw [hrun] at ho
    obtain ⟨d', ht, ha⟩ := ho
    obtain ⟨d2, o, io, h1, h2, h3⟩ := ih _ _ ha
    refine ⟨d2, o, io, by simp [exec, ht, h1], fun z => (h2 z).trans ⟨fun h => .more hfine hrun h, fun h => ?_⟩, h3⟩
    cases h with
    | last _ f => rw [hrun] at f; simp at f
    | more _ f g =>
      rw [hrun] at f
      simp only [Out.more.injEq] at f
      rw [f]; exact g
  | done r =>
    rw [hrun] at ho
    obtain ⟨d', st, ht, hst, hz, hd', hret⟩ := ho
    have hgot : ∀ z, (m.unsigned = false ∧ F r z) ↔ Got run F s (.msg m :: es) z := by
      intro z
      refine ⟨fun h => .last hfine hrun h.1 h.2, fun h => ?_⟩
      cases h with
      | last _ f u g =>
        rw [hrun] at f
        simp only [Out.done.injEq] at f
        rw [f]; exact ⟨u, g⟩
      | more _ f => rw [hrun] at f; simp at f
    rcases hst with e | e
    · subst e
      refine ⟨finish d', none, false, by simp [exec, ht], fun z => ?_, ?_, fun _ => by rw [finish_ret]; exact hret rfl⟩
      · rw [finish_published]; exact (hz z).trans (hgot z)
      · rw [finish_published]; simpa using hd'
    · subst e
      refine ⟨finish d', some .eprocessing, false, by simp [exec, ht], fun z => ?_, ?_, by simp⟩
      · rw [finish_published]; exact (hz z).trans (hgot z)
      · rw [finish_published]; simpa using hd'
  | fail =>
    rw [hrun] at ho
    obtain ⟨d', ht, hp⟩ := ho
    refine ends_none (d' := d') (e := .eprocessing) (io := false) (by simp [exec, ht]) hp (fun z h => ?_)
    cases h with
    | last _ f => rw [hrun] at f; simp at f
    | more _ f => rw [hrun] at f; simp at f

/-- Whatever does not begin with a message without an error brings nothing. -/
theorem got_fine {run : σ → List RRset → Out σ ρ} {F : ρ → Contents → Prop} {s : σ} {evs : List Event} {z : Contents}
    (h : Got run F s evs z) : ∃ m es, evs = .msg m :: es ∧ m.Fine := by
  cases h with
  | last f => exact ⟨_, _, rfl, f⟩
  | more f => exact ⟨_, _, rfl, f⟩

theorem ends_any {c : Conf} {run : σ → List RRset → Out σ ρ} {F : ρ → Contents → Prop} {s : σ} {d : Data} {evs : List Event}
    (hpub : d.published = none)
    (hbad : ∀ m, m.expired = false → m.rcode ≠ 0 → ∃ d', transferConsume c d m = .ok (d', .fail) ∧ d'.published = none)
    (hfine : ∀ m es, evs = .msg m :: es → m.Fine → Ends c run F s d (.msg m :: es)) : Ends c run F s d evs := by
  cases evs with
  | nil => exact ends_none rfl hpub (fun z h => by cases h)
  | cons e es =>
    cases e with
    | io x => exact ends_none rfl hpub (fun z h => by cases h)
    | bad x => exact ends_none rfl hpub (fun z h => by cases h)
    | msg m =>
      cases hx : m.expired with
      | true =>
        have ht : transferConsume c d m = .ok (d, .ignore) := by simp [transferConsume, hx]
        refine ends_none (d' := d) (e := .error) (io := false) (by simp [exec, ht]) hpub (fun z h => ?_)
        obtain ⟨_, _, e1, f⟩ := got_fine h
        simp only [List.cons.injEq, Event.msg.injEq] at e1
        rw [← e1.1] at f
        rw [f.2] at hx; simp at hx
      | false =>
        by_cases hr : m.rcode = 0
        · exact hfine m es rfl ⟨hr, hx⟩
        · obtain ⟨d', ht, hp⟩ := hbad m hx hr
          refine ends_none (d' := d') (e := .eprocessing) (io := false) (by simp [exec, ht]) hp (fun z h => ?_)
          obtain ⟨_, _, e1, f⟩ := got_fine h
          simp only [List.cons.injEq, Event.msg.injEq] at e1
          rw [← e1.1] at f
          exact hr f.1

theorem exec_got {c : Conf} {run : σ → List RRset → Out σ ρ} {F : ρ → Contents → Prop} {At : σ → Data → Prop}
    (hstep : ∀ s d m, At s d → m.Fine → Single m.answer →
      Outcome F At (run s m.answer) m.unsigned (transferConsume c d m))
    (hbad : ∀ s d m, At s d → m.expired = false → m.rcode ≠ 0 →
      ∃ d', transferConsume c d m = .ok (d', .fail) ∧ d'.published = none)
    (hpub : ∀ s d, At s d → d.published = none) {evs : List Event} (he : ∀ e ∈ evs, e.Single) {s : σ} {d : Data}
    (hd : At s d) : Ends c run F s d evs := by
  induction evs generalizing s d with
  | nil => exact ends_any (hpub _ _ hd) (hbad s d · hd) (fun m es h => by simp at h)
  | cons e es ih =>
    refine ends_any (hpub _ _ hd) (hbad s d · hd) (fun m es' h hf => ?_)
    simp only [List.cons.injEq] at h
    obtain ⟨rfl, rfl⟩ := h
    exact ends_msg hf (hstep s d m hd hf (he (.msg m) (by simp)))
      (fun s d ha => ih (fun e h => he e (List.mem_cons_of_mem _ h)) ha)

/-- Messages put together. -/
theorem got_iff {run : σ → List RRset → Out σ ρ} {F : ρ → Contents → Prop} (h0 : ∀ s, run s [] = .more s)
    (ha : ∀ s a b, run s (a ++ b) = (run s a).bind fun s => run s b) {s : σ} {evs : List Event} {z : Contents} :
    Got run F s evs z ↔ ∃ (ms : List Msg) (m : Msg) (es : List Event) (s' : σ) (r : ρ), evs = ms.map .msg ++ .msg m :: es ∧ (∀ x ∈ ms, Msg.Fine x) ∧ m.Fine ∧
      m.unsigned = false ∧ run s (ms.flatMap (·.answer)) = .more s' ∧ run s' m.answer = .done r ∧ F r z := by
  constructor
  · intro h
    induction h with
    | last f hr hu hf =>
      rename_i s m es r z
      exact ⟨[], m, es, s, r, rfl, fun _ h => by simp at h, f, hu, h0 _, hr, hf⟩
    | more f hr _ ih =>
      rename_i s s1 m es z _
      obtain ⟨ms, m', es', s', r, e1, e2, e3, e4, e5, e6, e7⟩ := ih
      refine ⟨m :: ms, m', es', s', r, by rw [e1]; rfl, ?_, e3, e4, ?_, e6, e7⟩
      · intro x hx
        rcases List.mem_cons.mp hx with e | e
        · rw [e]; exact f
        · exact e2 x e
      · rw [List.flatMap_cons, ha, hr]; exact e5
  · rintro ⟨ms, m, es, s', r, rfl, e2, e3, e4, e5, e6, e7⟩
    induction ms generalizing s with
    | nil =>
      simp only [List.flatMap_nil, h0, Out.more.injEq] at e5
      subst e5
      exact .last e3 e6 e4 e7
    | cons x ms ih =>
      rw [List.flatMap_cons, ha] at e5
      cases hr : run s x.answer with
      | more s1 =>
        rw [hr] at e5
        exact .more (e2 x (by simp)) hr (ih (fun y hy => e2 y (List.mem_cons_of_mem _ hy)) e5)
      | done r => rw [hr] at e5; simp [Out.bind] at e5
      | fail => rw [hr] at e5; simp [Out.bind] at e5

end

/-! ## AXFR -/

/-- Reading the records of an AXFR: contents and size so far. -/
def axfrRun (c : Conf) : Contents × Nat → List RRset → Out (Contents × Nat) Contents
  | s, [] => .more s
  | s, rr :: t =>
    if rr.1.type = soa ∧ (lookup s.1 (soaKey c.apex)).isSome then .done s.1
    else if s.2 + c.size rr > c.maxSize then .fail
    else axfrRun c (if inZone c rr then insertRR s.1 rr else s.1, s.2 + c.size rr) t

theorem axfrRun_append (c : Conf) (s : Contents × Nat) (a b : List RRset) :
    axfrRun c s (a ++ b) = (axfrRun c s a).bind fun s => axfrRun c s b := by
  induction a generalizing s with
  | nil => rfl
  | cons rr t ih =>
    simp only [List.cons_append, axfrRun]
    split
    · rfl
    · split
      · rfl
      · exact ih _

/-- The data in the middle of an AXFR. -/
structure AxAt (s : Contents × Nat) (d : Data) : Prop where
  zone : d.axfrZone = some s.1
  size : d.changeSize = s.2
  xfr : d.xfr = .axfr
  pub : d.published = none
  soa : d.initialSoa = none

theorem axfrConsumeRr_spec {c : Conf} {s : Contents × Nat} {d : Data} (h1 : d.axfrZone = some s.1)
    (h2 : d.changeSize = s.2) {rr : RRset} (hs : rr.2.data.length = 1) :
    if rr.1.type = soa ∧ (lookup s.1 (soaKey c.apex)).isSome then axfrConsumeRr c d rr = .ok (d, .done)
    else if s.2 + c.size rr > c.maxSize then ∃ d', axfrConsumeRr c d rr = .ok (d', .fail) ∧ d'.published = d.published
    else ∃ d', axfrConsumeRr c d rr = .ok (d', .consume) ∧
      d' = { d with ret := none, axfrZone := some (if inZone c rr then insertRR s.1 rr else s.1),
                    changeSize := s.2 + c.size rr } := by
  unfold axfrConsumeRr
  simp only [h1]
  split
  · rfl
  · have hc : createStep c s.1 rr = .ok (if inZone c rr then insertRR s.1 rr else s.1) := by
      unfold createStep
      cases hz : inZone c rr <;> simp [hs]
    simp only [hc, h2]
    split
    · exact ⟨_, rfl, rfl⟩
    · exact ⟨_, rfl, rfl⟩

theorem axfrPacket_spec {c : Conf} {l : List RRset} {s : Contents × Nat} {d : Data} (h : AxAt s d) (hs : Single l) :
    match axfrRun c s l with
    | .more s' => ∃ d', axfrConsumePacket c d l = .ok (d', .consume) ∧ AxAt s' d'
    | .done z => ∃ d', axfrConsumePacket c d l = .ok (d', .done) ∧ d'.axfrZone = some z ∧ d'.xfr = .axfr ∧ d'.published = none
    | .fail => ∃ d', axfrConsumePacket c d l = .ok (d', .fail) ∧ d'.published = none := by
  induction l generalizing s d with
  | nil => exact ⟨d, rfl, h⟩
  | cons rr t ih =>
    have h1 := axfrConsumeRr_spec (c := c) h.zone h.size (hs rr (by simp)).2
    unfold axfrRun axfrConsumePacket
    split at h1
    · rename_i hc
      rw [if_pos hc, h1]
      exact ⟨d, by simp, h.zone, h.xfr, h.pub⟩
    · rename_i hc
      rw [if_neg hc]
      split at h1
      · rename_i hm
        obtain ⟨d', e, hp⟩ := h1
        rw [if_pos hm, e]
        exact ⟨d', by simp, by rw [hp, h.pub]⟩
      · rename_i hm
        obtain ⟨d', e, hp⟩ := h1
        rw [if_neg hm, e]
        simp only [Res.bind_ok, if_true]
        refine ih ?_ (fun x hx => hs x (List.mem_cons_of_mem _ hx))
        rw [hp]
        exact ⟨rfl, rfl, h.xfr, h.pub, h.soa⟩

/-- What is done with the contents at the end. -/
def Accepted (c : Conf) (z z' : Contents) : Prop := z' = z ∧ c.check z = true ∧ c.commit z = true

theorem axfrFinalize_spec {c : Conf} {d : Data} {z : Contents} (h : d.axfrZone = some z) (hp : d.published = none) :
    ∃ d', axfrFinalize c d = .ok d' ∧ (∀ z', d'.published = some z' ↔ Accepted c z z') ∧
      (d'.ret.isSome = false ↔ d'.published.isSome) := by
  unfold axfrFinalize
  simp only [h]
  split
  · rename_i hc
    exact ⟨_, rfl, fun z' => ⟨fun e => by simp [hp] at e, fun e => by simp [e.2.1] at hc⟩, by simp [hp]⟩
  · rename_i hc
    split
    · rename_i hm
      exact ⟨_, rfl, fun z' => ⟨fun e => by simp [hp] at e, fun e => by simp [e.2.2] at hm⟩, by simp [hp]⟩
    · rename_i hm
      refine ⟨_, rfl, fun z' => ⟨fun e => ?_, fun e => ?_⟩, by simp⟩
      · simp only [Option.some.injEq] at e
        exact ⟨e.symm, by simpa using hc, by simpa using hm⟩
      · simp [e.1]

theorem transferDone_axfr {c : Conf} {d : Data} {z : Contents} {m : Msg} (h : d.axfrZone = some z) (hx : d.xfr = .axfr)
    (hp : d.published = none) :
    ∃ d' st, transferDone c d m = .ok (d', st) ∧ (st = .done ∨ st = .fail) ∧
      (∀ z', d'.published = some z' ↔ m.unsigned = false ∧ Accepted c z z') ∧ (st = .done ↔ d'.published.isSome) ∧
      (st = .done → d'.ret = none) := by
  unfold transferDone
  simp only [hx, reduceCtorEq, false_and, if_false]
  split
  · rename_i hu
    exact ⟨_, _, rfl, .inr rfl, fun z' => ⟨fun e => by simp [hp] at e, fun e => by simp [e.1] at hu⟩, by simp [hp], by simp⟩
  · rename_i hu
    obtain ⟨d', e1, e2, e3⟩ := axfrFinalize_spec (c := c) h hp
    simp only [e1, Res.bind_ok]
    refine ⟨d', _, rfl, ?_, fun z' => (e2 z').trans ⟨fun e => ⟨by simpa using hu, e⟩, fun e => e.2⟩, ?_, ?_⟩
    · split
      · exact .inr rfl
      · exact .inl rfl
    · rw [← e3]
      cases d'.ret <;> simp
    · cases d'.ret <;> simp

theorem axfr_step {c : Conf} {s : Contents × Nat} {d : Data} {m : Msg} (h : AxAt s d) (hf : m.Fine)
    (hs : Single m.answer) :
    Outcome (Accepted c) AxAt (axfrRun c s m.answer) m.unsigned (transferConsume c d m) := by
  unfold transferConsume
  simp only [hf.2, Bool.false_eq_true, if_false, h.xfr, if_true, reduceCtorEq, decide_false]
  have hd : AxAt s { d with fallbackAxfr := false } := ⟨h.zone, h.size, h.xfr, h.pub, h.soa⟩
  have hc : axfrConsume c { d with fallbackAxfr := false } m false =
      axfrConsumePacket c { d with fallbackAxfr := false } m.answer := by
    unfold axfrConsume
    simp [hf.1, axfrStart, axfrSaved, h.zone, h.soa]
  have hx : { d with fallbackAxfr := false, xfr := XType.axfr } = { d with fallbackAxfr := false } := by
    rw [← h.xfr]
  simp only [hx, hc]
  have h1 := axfrPacket_spec (c := c) hd hs
  cases hr : axfrRun c s m.answer with
  | more s' =>
    rw [hr] at h1
    obtain ⟨d', e, ha⟩ := h1
    rw [e]
    exact ⟨d', by simp, ha⟩
  | done z =>
    rw [hr] at h1
    obtain ⟨d', e, h2, h3, h4⟩ := h1
    rw [e]
    simp only [Res.bind_ok, if_true]
    exact transferDone_axfr h2 h3 h4
  | fail =>
    rw [hr] at h1
    obtain ⟨d', e, hp⟩ := h1
    rw [e]
    exact ⟨d', by simp, hp⟩

theorem axfr_bad {c : Conf} {s : Contents × Nat} {d : Data} {m : Msg} (h : AxAt s d) (hx : m.expired = false)
    (hr : m.rcode ≠ 0) : ∃ d', transferConsume c d m = .ok (d', .fail) ∧ d'.published = none := by
  unfold transferConsume
  simp [hx, h.xfr, axfrConsume, hr, h.pub]

/-- The start of an AXFR is like the middle of it with nothing read. -/
theorem axfr_first {c : Conf} {d : Data} (hx : d.xfr = .axfr) (hz : d.axfrZone = none) (m : Msg) :
    (m.Fine → transferConsume c d m =
      transferConsume c { d with ret := none, axfrZone := some [], changeSize := 0, initialSoa := none } m) := by
  intro hf
  unfold transferConsume
  simp only [hf.2, Bool.false_eq_true, if_false, hx, if_true, reduceCtorEq, decide_false]
  congr 1
  unfold axfrConsume
  simp only [hf.1, ne_eq, not_true_eq_false, if_false, axfrStart, hz, axfrSaved]
  cases hi : d.initialSoa <;> simp

/-- The data of an AXFR, not begun or in the middle. -/
def AxAny (s : Contents × Nat) (d : Data) : Prop :=
  AxAt s d ∨ (s = ([], 0) ∧ d.xfr = .axfr ∧ d.axfrZone = none ∧ d.published = none)

theorem axfr_exec {c : Conf} {evs : List Event} (he : ∀ e ∈ evs, e.Single) {s : Contents × Nat} {d : Data}
    (hd : AxAny s d) : Ends c (axfrRun c) (Accepted c) s d evs := by
  have hA : ∀ s d m, AxAny s d → m.Fine → Single m.answer →
      Outcome (Accepted c) AxAny (axfrRun c s m.answer) m.unsigned (transferConsume c d m) := by
    intro s d m hd hf hs
    have aux : ∀ d1, AxAt s d1 → Outcome (Accepted c) AxAny (axfrRun c s m.answer) m.unsigned (transferConsume c d1 m) := by
      intro d1 h
      have h1 := axfr_step h hf hs (c := c)
      cases hr : axfrRun c s m.answer with
      | more s' =>
        rw [hr] at h1
        obtain ⟨d', e, ha⟩ := h1
        exact ⟨d', e, .inl ha⟩
      | done z => rw [hr] at h1; exact h1
      | fail => rw [hr] at h1; exact h1
    rcases hd with h | ⟨h1, h2, h3, h4⟩
    · exact aux d h
    · rw [axfr_first h2 h3 m hf]
      refine aux _ ?_
      subst h1
      exact ⟨rfl, rfl, h2, h4, rfl⟩
  have hB : ∀ s d m, AxAny s d → m.expired = false → m.rcode ≠ 0 →
      ∃ d', transferConsume c d m = .ok (d', .fail) ∧ d'.published = none := by
    intro s d m hd hx hr
    have h1 : d.xfr = .axfr ∧ d.published = none := by
      rcases hd with h | h
      · exact ⟨h.xfr, h.pub⟩
      · exact ⟨h.2.1, h.2.2.2⟩
    unfold transferConsume
    simp [hx, h1.1, axfrConsume, hr, h1.2]
  exact exec_got hA hB (fun s d h => by
    rcases h with h | h
    · exact h.pub
    · exact h.2.2.2) he hd

end Knot.Xfr
