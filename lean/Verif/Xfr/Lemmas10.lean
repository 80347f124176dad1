import Verif.Xfr.Lemmas9
/-! # Transfers: the answers of the server -/
namespace Knot.Xfr
open Knot.Dname (Name)
open Knot.Changeset

/-! ## What is read from the journal -/

theorem cut_pass {serialOf : Bytes → Nat} {to : Nat} {b : Bool} {l r : List RRset} (h : ∀ rr ∈ l, rr.1.type ≠ soa) :
    cut serialOf to b (l ++ r) = l ++ cut serialOf to b r := by
  induction l with
  | nil => rfl
  | cons x t ih =>
    rw [List.cons_append, cut, if_neg (h x (by simp)), ih (fun rr hr => h rr (List.mem_cons_of_mem _ hr))]
    rfl

theorem lastSerial_pass {serialOf : Bytes → Nat} {to n : Nat} {b : Bool} {l r : List RRset} (h : ∀ rr ∈ l, rr.1.type ≠ soa) :
    lastSerial serialOf to b (l ++ r) n = lastSerial serialOf to b r n := by
  induction l with
  | nil => rfl
  | cons x t ih =>
    rw [List.cons_append, lastSerial, if_neg (h x (by simp)), ih (fun rr hr => h rr (List.mem_cons_of_mem _ hr))]

theorem flat_cons {ch : Ch} {chs : List Ch} {a b : RRset} (ha : ch.soaFrom = some a) (hb : ch.soaTo = some b) :
    flat (ch :: chs) = a :: (ch.rem ++ (b :: (ch.add ++ flat chs))) := by
  simp [flat, ha, hb]

theorem step_flat {serialOf : Bytes → Nat} {to n : Nat} {ch : Ch} {a b : RRset} {r : List RRset}
    (ha : a.1.type = soa) (hs : serial serialOf a ≠ to) (hb : b.1.type = soa)
    (h1 : ∀ rr ∈ ch.rem, rr.1.type ≠ soa) (h2 : ∀ rr ∈ ch.add, rr.1.type ≠ soa) :
    cut serialOf to false (a :: (ch.rem ++ (b :: (ch.add ++ r)))) = a :: (ch.rem ++ (b :: (ch.add ++ cut serialOf to false r))) ∧
    lastSerial serialOf to false (a :: (ch.rem ++ (b :: (ch.add ++ r)))) n = lastSerial serialOf to false r (serial serialOf b) := by
  constructor
  · simp [cut, ha, hs, cut_pass h1, hb, cut_pass h2]
  · simp [lastSerial, ha, hs, lastSerial_pass h1, hb, lastSerial_pass h2]

/-- What is left of the journal where the zone ends. -/
theorem later_cut {serialOf : Bytes → Nat} {to n : Nat} {later : List Ch}
    (h : ∀ ch, later.head? = some ch → StartsAt serialOf ch to) :
    cut serialOf to false (flat later) = [] ∧ lastSerial serialOf to false (flat later) n = n := by
  cases later with
  | nil => exact ⟨rfl, rfl⟩
  | cons ch t =>
    obtain ⟨a, h1, h2, h3⟩ := h ch rfl
    simp [flat, h1, cut, lastSerial, h2, h3]

theorem history_last {apex : Name} {z z' : Contents} {chs : List Ch} (h : History apex z chs z') (hne : chs ≠ []) :
    ∃ b, chs.getLast?.bind (·.soaTo) = some b := by
  induction h with
  | nil => exact absurd rfl hne
  | @cons z z' ch chs a b u0 u1 w ht h1 h2 h3 h4 h5 hi happ _ ih =>
    cases chs with
    | nil => exact ⟨b, by simp [h3]⟩
    | cons x t =>
      rw [List.getLast?_cons_cons]
      exact ih (by simp)

theorem history_cut {serialOf : Bytes → Nat} {to : Nat} {apex : Name} {z z' : Contents} {chs later : List Ch}
    (h : History apex z chs z')
    (hser : ∀ ch ∈ chs, ¬ StartsAt serialOf ch to) (hl : ∀ ch, later.head? = some ch → StartsAt serialOf ch to) (n : Nat) :
    cut serialOf to false (flat (chs ++ later)) = flat chs ∧
    lastSerial serialOf to false (flat (chs ++ later)) n =
      ((chs.getLast?.bind (·.soaTo)).map (serial serialOf)).getD n := by
  induction h generalizing n with
  | nil => simpa [flat] using later_cut hl
  | @cons z z' ch chs a b u0 u1 w ht h1 h2 h3 h4 h5 hi happ _ ih =>
    have ta : a.1.type = soa := by rw [(w.2.2.2.2.2 a h1).1]
    have tb : b.1.type = soa := by rw [(w.2.2.2.2.1 b h3).1]
    have ns : serial serialOf a ≠ to := fun e => hser ch (by simp) ⟨a, h1, ta, e⟩
    obtain ⟨i1, i2⟩ := ih (fun c hc => hser c (List.mem_cons_of_mem _ hc)) (serial serialOf b)
    obtain ⟨s1, s2⟩ := step_flat (n := n) (r := flat (chs ++ later)) ta ns tb w.2.2.2.1 w.2.2.1
    rw [List.cons_append, flat_cons h1 h3, flat_cons h1 h3, s1, s2, i1, i2]
    refine ⟨rfl, ?_⟩
    cases chs with
    | nil => simp [h3]
    | cons x t =>
      obtain ⟨y, hy⟩ := history_last ‹History apex u1.zone (x :: t) z'› (by simp)
      rw [List.getLast?_cons_cons, hy]
      rfl

/-! ## The server -/

theorem serveAxfr_spec {pk : Pack} {srv : Server} {n : Nat} {ms : List (List RRset)} (hs : pk.fits [] srv.soaRr = true)
    (h : serveAxfr pk srv n = (ms, .done)) :
    ms.flatten = srv.soaRr :: (notSoa srv.trees.contents ++ [srv.soaRr]) ∧ ∀ m ∈ ms, m ≠ [] := by
  unfold serveAxfr at h
  split at h
  · simp at h
  · have := (axfr_sends hs).answer (x := axfrInit srv.trees) ⟨fun _ => rfl, by simp [axfrInit]⟩ h
    rwa [axfrInit_left] at this

theorem sends_all {X : Type} {step : X → List RRset × X × St} {P : X → Prop} {R : X → List RRset} {q : RRset → Prop}
    (h : Sends step P R) : Sends step (fun x => P x ∧ ∀ rr ∈ R x, q rr) R where
  more x m x' hp he := by
    obtain ⟨h1, h2, h3⟩ := h.more x m x' hp.1 he
    exact ⟨⟨h1, fun rr hr => hp.2 rr (by rw [h2]; simp [hr])⟩, h2, h3⟩
  last x m x' hp he := h.last x m x' hp.1 he

theorem serveAxfr_done {pk : Pack} {srv : Server} {n : Nat} (hf : srv.frozen = false)
    (hs : ∀ rr ∈ srv.soaRr :: notSoa srv.trees.contents, pk.fits [] rr = true)
    (hn : (notSoa srv.trees.contents).length + 2 < n) : ∃ ms, serveAxfr pk srv n = (ms, .done) := by
  have h0 : pk.fits [] srv.soaRr = true := hs _ (by simp)
  have := (sends_all (q := fun rr => pk.fits [] rr = true) (axfr_sends h0)).done (fun x hx => axfrStep_goes h0 hx.1 hx.2) (n := n)
    (x := axfrInit srv.trees) ⟨⟨fun _ => rfl, by simp [axfrInit]⟩, by
      rw [axfrInit_left]
      intro rr hr
      have : rr ∈ srv.soaRr :: notSoa srv.trees.contents := by
        simp only [List.mem_cons, List.mem_append, List.not_mem_nil, or_false] at hr ⊢
        grind
      exact hs rr this⟩ (by rw [axfrInit_left]; simp; omega)
  unfold serveAxfr
  rw [if_neg (by simp [hf])]
  exact ⟨_, Prod.ext rfl this⟩

/-- The state an IXFR starts with. -/
def ixfrInit (serialOf : Bytes → Nat) (srv : Server) (stream : List RRset) (broken : Bool) (from' : Nat) : Proc Unit IxfrSt :=
  ⟨0, [()], ⟨stream, broken, none, false, serial serialOf srv.soaRr, from'⟩⟩

theorem ixfrInit_ok {serialOf : Bytes → Nat} {srv : Server} {stream : List RRset} {broken : Bool} {from' : Nat} :
    IxfrOk serialOf (serial serialOf srv.soaRr) (lastSerial serialOf (serial serialOf srv.soaRr) false stream from') broken
      (ixfrInit serialOf srv stream broken from') :=
  ⟨.inl rfl, rfl, rfl, rfl⟩

theorem ixfrInit_left {serialOf : Bytes → Nat} {srv : Server} {stream : List RRset} {broken : Bool} {from' : Nat} :
    toSend srv.soaRr (ixfrLeft serialOf) (ixfrInit serialOf srv stream broken from') =
      srv.soaRr :: (cut serialOf (serial serialOf srv.soaRr) false stream ++ [srv.soaRr]) := by
  simp [toSend, ixfrInit, ixfrLeft]

theorem serveIxfr_ixfr {serialOf : Bytes → Nat} {pk : Pack} {srv : Server} {from' n : Nat} {stream : List RRset} {broken : Bool}
    (hf : srv.frozen = false) (hp : srv.provideIxfr = true) (hj : srv.journal from' = .rrs stream broken)
    (hc : ∀ x, Serial.serialCompare (serial serialOf srv.soaRr) from' = .ok x → x ≠ .lower ∧ x ≠ .equal) :
    serveIxfr serialOf pk srv from' n = .ok (answer (ixfrStep serialOf pk srv.soaRr) n (ixfrInit serialOf srv stream broken from')) := by
  obtain ⟨x, hx⟩ := Knot.C08_compare_total (serial serialOf srv.soaRr) from'
  obtain ⟨h1, h2⟩ := hc x hx
  unfold serveIxfr ixfrPlan
  simp [hf, hp, hx, h1, h2, hj, ixfrInit]

theorem ixfr_answer {serialOf : Bytes → Nat} {pk : Pack} {srv : Server} {from' n : Nat} {stream : List RRset} {broken : Bool}
    (hb : pk.big [] = false) (hs : pk.fits [] srv.soaRr = true) {ms : List (List RRset)}
    (h : answer (ixfrStep serialOf pk srv.soaRr) n (ixfrInit serialOf srv stream broken from') = (ms, .done)) :
    ms.flatten = srv.soaRr :: (cut serialOf (serial serialOf srv.soaRr) false stream ++ [srv.soaRr]) ∧ (∀ m ∈ ms, m ≠ []) ∧
      lastSerial serialOf (serial serialOf srv.soaRr) false stream from' = serial serialOf srv.soaRr := by
  have hsd := ixfr_sends (serialOf := serialOf) hb hs (serial serialOf srv.soaRr)
    (lastSerial serialOf (serial serialOf srv.soaRr) false stream from') broken
  obtain ⟨h1, h2⟩ := hsd.answer ixfrInit_ok h
  rw [ixfrInit_left] at h1
  obtain ⟨y, hy, hd⟩ := hsd.ends_at ixfrInit_ok h
  exact ⟨h1, h2, ixfrStep_done hb hs hy hd⟩

theorem ixfr_answer_done {serialOf : Bytes → Nat} {pk : Pack} {srv : Server} {from' n : Nat} {stream : List RRset}
    (hb : pk.big [] = false)
    (hs : ∀ rr ∈ srv.soaRr :: cut serialOf (serial serialOf srv.soaRr) false stream, pk.fits [] rr = true)
    (hl : lastSerial serialOf (serial serialOf srv.soaRr) false stream from' = serial serialOf srv.soaRr)
    (hn : (cut serialOf (serial serialOf srv.soaRr) false stream).length + 2 < n) :
    ∃ ms, answer (ixfrStep serialOf pk srv.soaRr) n (ixfrInit serialOf srv stream false from') = (ms, .done) := by
  have h0 : pk.fits [] srv.soaRr = true := hs _ (by simp)
  have hok := ixfrInit_ok (serialOf := serialOf) (srv := srv) (stream := stream) (broken := false) (from' := from')
  rw [hl] at hok
  have := (sends_all (q := fun rr => pk.fits [] rr = true) (ixfr_sends (serialOf := serialOf) hb h0 (serial serialOf srv.soaRr)
      (serial serialOf srv.soaRr) false)).done (fun x hx => ixfrStep_goes hb h0 hx.1 hx.2) (n := n)
    (x := ixfrInit serialOf srv stream false from') ⟨hok, by
      rw [ixfrInit_left]
      intro rr hr
      have : rr ∈ srv.soaRr :: cut serialOf (serial serialOf srv.soaRr) false stream := by
        simp only [List.mem_cons, List.mem_append, List.not_mem_nil, or_false] at hr ⊢
        grind
      exact hs rr this⟩ (by rw [ixfrInit_left]; simp; omega)
  exact ⟨_, Prod.ext rfl this⟩

/-! ## What the answer looks like to the client -/

theorem flatten_head {ms : List (List RRset)} {s : RRset} {l : List RRset} (h : ms.flatten = s :: l) (hne : ∀ m ∈ ms, m ≠ []) :
    ∃ t rest, ms = (s :: t) :: rest ∧ t ++ rest.flatten = l := by
  cases ms with
  | nil => simp at h
  | cons m rest =>
    cases m with
    | nil => exact absurd rfl (hne [] (by simp))
    | cons x t =>
      simp only [List.flatten_cons, List.cons_append, List.cons.injEq] at h
      exact ⟨t, rest, by rw [h.1], h.2⟩

theorem style_ixfr {c : Conf} {ms : List (List RRset)} {s a : RRset} {l : List RRset} (h : ms.flatten = s :: a :: l)
    (hne : ∀ m ∈ ms, m ≠ []) (hs : s.1.type = soa ∧ split s = [s]) (ha : a.1.type = soa ∧ split a = [a])
    (heq : rrEqual s a = false) (hn : newer c s = true) : style (newer c) (ms.map wire) = some .ixfr := by
  obtain ⟨t, rest, e1, e2⟩ := flatten_head h hne
  subst e1
  cases t with
  | nil =>
    obtain ⟨t2, rest2, e3, e4⟩ := flatten_head (ms := rest) e2 (fun m hm => hne m (List.mem_cons_of_mem _ hm))
    subst e3
    simp [style, wire, hs.1, hs.2, ha.1, ha.2, hn, heq]
  | cons x t =>
    simp only [List.cons_append, List.cons.injEq] at e2
    rw [e2.1]
    simp [style, wire, hs.2, ha.1, ha.2, heq]

theorem split_head {x : RRset} (h : x.2.data ≠ []) : ∃ y ys, split x = y :: ys ∧ y.1 = x.1 := by
  cases hd : x.2.data with
  | nil => exact absurd hd h
  | cons r t => 
    simp only [split, hd, List.map_cons]
    exact ⟨_, _, rfl, rfl⟩

theorem style_axfr {c : Conf} {z : Contents} {s : RRset} (h : ZoneOk c.apex z s) {ms : List (List RRset)}
    (hm : ms.flatten = s :: (notSoa z ++ [s])) (hne : ∀ m ∈ ms, m ≠ []) (hn : newer c s = true) :
    style (newer c) (ms.map wire) = some .axfr := by
  have hs1 : split s = [s] := split_one h.one (soa_ne_rrsig h.key)
  have hst : s.1.type = soa := by rw [h.key]
  obtain ⟨t, rest, e1, e2⟩ := flatten_head hm hne
  subst e1
  cases t with
  | nil =>
    cases hz : notSoa z with
    | nil =>
      rw [hz] at e2
      obtain ⟨t2, rest2, e3, e4⟩ := flatten_head (ms := rest) e2 (fun m hm => hne m (List.mem_cons_of_mem _ hm))
      subst e3
      simp [style, wire, hst, hs1, hn, rrEqual_refl]
    | cons x l =>
      have hx : x ∈ notSoa z := by rw [hz]; simp
      have hxt : x.1.type ≠ soa := by simpa [notSoa] using (List.mem_filter.mp hx).2
      obtain ⟨y, ys, k1, k2⟩ := split_head (h.wf.2 x (List.mem_filter.mp hx).1).2.1
      rw [hz] at e2
      obtain ⟨t2, rest2, e3, e4⟩ := flatten_head (ms := rest) e2 (fun m hm => hne m (List.mem_cons_of_mem _ hm))
      subst e3
      simp [style, wire, hst, hs1, hn, k1, k2, hxt]
  | cons x0 t =>
    cases hz : notSoa z with
    | nil =>
      rw [hz] at e2
      simp only [List.cons_append, List.nil_append, List.cons.injEq, List.append_eq_nil_iff] at e2
      rw [e2.1, e2.2.1]
      simp [style, wire, hst, hs1, rrEqual_refl]
    | cons x l =>
      have hx : x ∈ notSoa z := by rw [hz]; simp
      have hxt : x.1.type ≠ soa := by simpa [notSoa] using (List.mem_filter.mp hx).2
      obtain ⟨y, ys, k1, k2⟩ := split_head (h.wf.2 x (List.mem_filter.mp hx).1).2.1
      rw [hz] at e2
      simp only [List.cons_append, List.cons.injEq] at e2
      rw [e2.1]
      simp [style, wire, hst, hs1, k1, k2, hxt]

/-- Both sides agree on what is newer. -/
theorem newer_compare {c : Conf} {s : RRset} (h1 : serial c.serialOf s < 4294967296) (h2 : zoneSerial c < 4294967296) :
    newer c s = true ↔ ∀ x, Serial.serialCompare (serial c.serialOf s) (zoneSerial c) = .ok x → x ≠ .lower ∧ x ≠ .equal := by
  unfold newer isCurrent
  generalize serial c.serialOf s = a at *
  generalize zoneSerial c = b at *
  obtain ⟨x, hx⟩ := Knot.C08_compare_total a b
  obtain ⟨y, hy⟩ := Knot.C08_compare_total b a
  have r1 := Knot.C08_compare_antisymm a b h1 h2
  have r2 := Knot.C08_compare_antisymm b a h2 h1
  have r3 := (Knot.C08_compare_rfc1982 a b h1 h2).1
  have r4 := (Knot.C08_compare_rfc1982 b a h2 h1).1
  rw [hx, hy] at r1 r2
  rw [hx] at r3
  rw [hy] at r4
  simp only [hx, hy, Res.bind_ok, Res.ok.injEq] at *
  cases x <;> cases y <;> simp_all

/-! ## Two attempts -/

theorem finish_axfrZone (d : Data) : (finish d).axfrZone = none := by
  unfold finish
  split <;> rfl

theorem exec_axfrZone {c : Conf} {evs : List Event} {d d' : Data} {o : Option Err} {io : Bool}
    (h : exec c d evs = .ok (d', o, io)) : d'.axfrZone = none := by
  induction evs generalizing d with
  | nil => simp [exec] at h; rw [← h.1]; exact finish_axfrZone _
  | cons e es ih =>
    cases e with
    | io x => simp [exec] at h; rw [← h.1]; exact finish_axfrZone _
    | bad x => simp [exec] at h; rw [← h.1]; exact finish_axfrZone _
    | msg m =>
      simp only [exec] at h
      cases ht : transferConsume c d m with
      | ub => rw [ht] at h; simp at h
      | err x => rw [ht] at h; simp at h
      | ok r =>
        rw [ht] at h
        simp only [Res.bind_ok] at h
        split at h
        · exact ih h
        all_goals
          simp only [Res.ok.injEq, Prod.mk.injEq] at h
          rw [← h.1]; exact finish_axfrZone _

theorem tryRefresh_spec {c : Conf} {byOne : Bool} {z0 : Contents} (hz : c.zone = some z0) (w : Wf z0) {evs evs2 : List Event}
    (he : ∀ e ∈ evs, e.Single) (he2 : ∀ e ∈ evs2, e.Single) :
    ∃ d again r, tryRefresh c (Data.init true byOne) evs evs2 = .ok (d, again, r) ∧
      (∀ z, d.published = some z ↔ Brings c byOne evs z ∨ (again = true ∧ AxfrBrings c evs2 z)) ∧
      (again = true → (∀ z, ¬ Brings c byOne evs z) ∧ ¬ UpToDate c evs) ∧
      (r = none ↔ d.published.isSome ∨ (again = false ∧ UpToDate c evs)) := by
  obtain ⟨d, o, io, h1, h2, h3, h4⟩ := ixfr_client (byOne := byOne) hz w he
  have hz := exec_axfrZone h1
  by_cases hc : ¬ io ∧ d.fallbackAxfr ∧ (d.ret <|> o).isSome
  · have ho : o ≠ none := by
      intro e
      have := hc.2.2
      rw [h4 e, e] at this
      simp at this
    have hpn : d.published = none := by
      cases hp : d.published with
      | none => rfl
      | some z => exact absurd (h3.mpr (.inl (by rw [hp]; rfl))) ho
    have hnb : ∀ z, ¬ Brings c byOne evs z := by
      intro z hb
      have := (h2 z).mpr hb
      rw [hpn] at this; simp at this
    obtain ⟨d2, o2, io2, k1, k2, k3, k4⟩ := axfr_exec (c := c) he2
      (d := { d with ret := none, xfr := .axfr, fallbackAxfr := false }) (.inr ⟨rfl, rfl, hz, hpn⟩)
    refine ⟨d2, true, d2.ret <|> o2, ?_, fun z => ?_, fun _ => ⟨hnb, fun hu => ho (h3.mpr (.inr hu))⟩, ?_⟩
    · unfold tryRefresh
      rw [h1]
      simp only [Res.bind_ok, if_pos hc, k1]
    · rw [k2 z, got_axfr he2]
      exact ⟨fun h => .inr ⟨rfl, h⟩, fun h => by
        rcases h with h | h
        · exact absurd h (hnb z)
        · exact h.2⟩
    · simp only [reduceCtorEq, false_and, or_false]
      rw [← k3]
      refine ⟨fun h => ?_, fun h => by rw [k4 h, h]; rfl⟩
      cases hr : d2.ret with
      | none => rw [hr] at h; exact h
      | some x => rw [hr] at h; simp at h
  · refine ⟨d, false, d.ret <|> o, ?_, fun z => ?_, by simp, ?_⟩
    · unfold tryRefresh
      rw [h1]
      simp only [Res.bind_ok, if_neg hc]
    · rw [h2 z]; simp
    · simp only [true_and]
      rw [← h3]
      refine ⟨fun h => ?_, fun h => by rw [h4 h, h]; rfl⟩
      cases hr : d.ret with
      | none => rw [hr] at h; exact h
      | some x => rw [hr] at h; simp at h

/-! ## An AXFR cut short -/

theorem soa_count {l : List RRset} (h : ∀ rr ∈ l, rr.1.type ≠ soa) :
    ((l.flatMap split).filter (fun rr => decide (rr.1.type = soa))) = [] := by
  rw [List.filter_eq_nil_iff]
  intro rr hr
  obtain ⟨x, h1, h2⟩ := List.mem_flatMap.mp hr
  obtain ⟨r, _, e⟩ := List.mem_map.mp h2
  rw [← e]
  simpa using h x h1

theorem prefix_nosoa {p : List RRset} {s : RRset} {l : List RRset} (h : p <+: s :: l) (hl : ∀ rr ∈ l, rr.1.type ≠ soa) :
    ∀ rr ∈ p.tail, rr.1.type ≠ soa := by
  intro rr hr
  cases p with
  | nil => simp at hr
  | cons x t =>
    rw [List.cons_prefix_cons] at h
    exact hl rr (h.2.subset hr)

theorem wire_prefix {ms : List (List RRset)} {evs : List Event} (hev : ∀ m, evs.head? ≠ some (.msg m)) {as : List Msg} {a : Msg}
    {rst : List Event} (h : ms.map wire ++ evs = as.map .msg ++ .msg a :: rst) :
    as.flatMap (·.answer) ++ a.answer <+: ms.flatten.flatMap split := by
  induction ms generalizing as with
  | nil =>
    simp only [List.map_nil, List.nil_append] at h
    cases as with
    | nil => exact absurd (by rw [h]; rfl) (hev a)
    | cons b t => exact absurd (by rw [h]; rfl) (hev b)
  | cons m t ih =>
    simp only [List.map_cons, List.cons_append] at h
    cases as with
    | nil =>
      simp only [List.map_nil, List.nil_append, List.cons.injEq, wire, Event.msg.injEq] at h
      rw [← h.1]
      simp
    | cons b u =>
      simp only [List.map_cons, List.cons_append, List.cons.injEq] at h
      have := ih h.2
      have hb : b.answer = m.flatMap split := by
        have := h.1
        simp only [wire, Event.msg.injEq] at this
        rw [← this]
      simp only [List.flatMap_cons, List.flatten_cons, List.flatMap_append, List.append_assoc, hb]
      exact (List.prefix_append_right_inj _).mpr this

theorem axfr_cut {c : Conf} {z : Contents} {s : RRset} (h : ZoneOk c.apex z s) {ms rest : List (List RRset)}
    (hm : (ms ++ rest).flatten = s :: (notSoa z ++ [s])) (hr : rest ≠ []) (hne : ∀ m ∈ rest, m ≠ []) {evs : List Event}
    (hev : ∀ m, evs.head? ≠ some (.msg m)) (y : Contents) : ¬ AxfrBrings c (ms.map wire ++ evs) y := by
  rintro ⟨as, a, rst, pre, e, post, e1, _, _, _, e2, _, e3, ho, _⟩
  have hs1 : split s = [s] := split_one h.one (soa_ne_rrsig h.key)
  -- what was received is a part of the front
  have hpre : ms.flatten <+: s :: notSoa z := by
    rw [List.flatten_append] at hm
    obtain ⟨m, t, rfl⟩ := List.exists_cons_of_ne_nil hr
    have hmn := hne m (by simp)
    rcases List.eq_nil_or_concat (m :: t).flatten with h0 | ⟨q, x, hq⟩
    · rw [List.flatten_cons] at h0
      exact absurd (List.append_eq_nil_iff.mp h0).1 hmn
    · rw [hq, List.concat_eq_append, ← List.append_assoc, ← List.cons_append] at hm
      have := List.append_inj_left' hm (by simp)
      exact ⟨q, this⟩
  have hp := wire_prefix hev e1
  rw [e2] at hp
  obtain ⟨p1, sx, p2, q1, q2, _, _⟩ := ho
  have hcount : ((ms.flatten.flatMap split).filter (fun rr => decide (rr.1.type = soa))).length ≤ 1 := by
    have hns := prefix_nosoa hpre (fun rr hr => by simpa [notSoa] using (List.mem_filter.mp hr).2)
    cases hf : ms.flatten with
    | nil => simp
    | cons x t =>
      rw [hf] at hpre hns
      simp only [List.tail_cons] at hns
      rw [List.cons_prefix_cons] at hpre
      rw [hpre.1, List.flatMap_cons, List.filter_append, soa_count hns, hs1]
      simp only [List.append_nil]
      exact Nat.le_trans (List.length_filter_le _ _) (by simp)
  have hle := (hp.sublist.filter (fun rr => decide (rr.1.type = soa))).length_le
  rw [q1] at hle
  have t1 : sx.1.type = soa := by rw [q2]
  simp [List.filter_append, List.filter_cons, t1, e3] at hle
  omega

end Knot.Xfr
