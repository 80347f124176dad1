import Verif.Xfr.Lemmas3
/-! # Transfers: what an AXFR brings -/
namespace Knot.Xfr
open Knot.Dname (Name)
open Knot.Changeset
open Knot.Rdataset (Canon)

/-! ## Contents made of records -/

theorem good_single {r : RRs} (h : r.data.length = 1) : Good r := by
  obtain ⟨x, hx⟩ := List.length_eq_one_iff.mp h
  rw [Good, hx]
  exact ⟨by simp, by simp [Canon]⟩

theorem Zone.insert {l : List RRset} {z : Contents} (h : Zone l z) {rr : RRset} (hk : KeyOk rr.1) (hg : Good rr.2) :
    Zone (l ++ [rr]) (insertRR z rr) := by
  obtain ⟨w, hm, ht⟩ := h
  have hl : ∀ k, lookup (insertRR z rr) k = if k = rr.1 then some (nodeAdd k.type (lookup z k) rr.2) else lookup z k :=
    fun k => lookup_zAdd w rr k
  refine ⟨w.zAdd hk hg, fun k x => ?_, fun k d hd hr => ?_⟩
  · rw [hl]
    by_cases e : k = rr.1
    · rw [if_pos e]
      rw [show recs (some (nodeAdd k.type (lookup z k) rr.2)) = (nodeAdd k.type (lookup z k) rr.2).data from rfl,
        mem_nodeAdd, hm]
      simp only [List.mem_append, List.mem_singleton]
      constructor
      · rintro (⟨r, h1, h2, h3⟩ | h1)
        · exact ⟨r, .inl h1, h2, h3⟩
        · exact ⟨rr, .inr rfl, e.symm, h1⟩
      · rintro ⟨r, h1 | h1, h2, h3⟩
        · exact .inl ⟨r, h1, h2, h3⟩
        · subst h1; exact .inr h3
    · rw [if_neg e, hm]
      simp only [List.mem_append, List.mem_singleton]
      constructor
      · rintro ⟨r, h1, h2, h3⟩
        exact ⟨r, .inl h1, h2, h3⟩
      · rintro ⟨r, h1 | h1, h2, h3⟩
        · exact ⟨r, h1, h2, h3⟩
        · subst h1; exact absurd h2.symm e
  · rw [hl] at hd
    by_cases e : k = rr.1
    · rw [if_pos e] at hd
      simp only [Option.some.injEq] at hd
      refine ⟨l, rr, [], rfl, e.symm, ?_, by simp⟩
      have := nodeAdd_ttl (ty := k.type) (w.goodO k) rr.2
      rw [hd] at this
      rcases this with e | e
      · exact absurd e hr
      · exact e.symm
    · rw [if_neg e] at hd
      obtain ⟨a, r, b, h1, h2, h3, h4⟩ := ht k d hd hr
      refine ⟨a, r, b ++ [rr], by rw [h1]; simp, h2, h3, fun x hx => ?_⟩
      rcases List.mem_append.mp hx with hx | hx
      · exact h4 x hx
      · rw [List.mem_singleton.mp hx]; exact fun h => e h.symm

theorem zone_nil : Zone [] [] :=
  ⟨⟨by simp, by simp⟩, fun k x => by simp [lookup, recs], fun k d h => by simp [lookup] at h⟩

theorem zone_foldl {l : List RRset} (hs : ∀ rr ∈ l, KeyOk rr.1 ∧ Good rr.2) {p : List RRset} {z : Contents} (h : Zone p z) :
    Zone (p ++ l) (l.foldl insertRR z) := by
  induction l generalizing p z with
  | nil => simpa using h
  | cons rr t ih =>
    have := ih (fun x hx => hs x (List.mem_cons_of_mem _ hx)) (h.insert (hs rr (by simp)).1 (hs rr (by simp)).2)
    simpa using this

theorem zoneOf_zone {l : List RRset} (hs : Single l) : Zone l (zoneOf l) := by
  have := zone_foldl (fun rr h => ⟨(hs rr h).1, good_single (hs rr h).2⟩) zone_nil
  simpa [zoneOf] using this

/-- Contents with the records of a zone. -/
theorem Zone.same {l : List RRset} {z c : Contents} (h : Zone l z) (wc : Wf c)
    (h1 : ∀ k x, (∃ rr ∈ l, rr.1 = k ∧ x ∈ rr.2.data) ↔ x ∈ recs (lookup c k))
    (h2 : ∀ rr ∈ l, ∀ d, lookup c rr.1 = some d → SameTtl rr.1.type rr.2.ttl d.ttl) : Same z c := by
  intro k
  refine sameRRs_of (h.1.goodO k) (wc.goodO k) (fun y => (h.2.1 k y).trans (h1 k y)) (fun a b ha hb => ?_)
  by_cases hr : k.type = rrsig
  · exact .inl hr
  · obtain ⟨p, rr, q, e1, e2, e3, _⟩ := h.2.2 k a ha hr
    have := h2 rr (by rw [e1]; simp) b (by rw [e2]; exact hb)
    rw [e2, e3] at this
    exact this

/-! ## Reading -/

def seen (c : Conf) (z : Contents) : Bool := (lookup z (soaKey c.apex)).isSome

/-- No SOA that ends the transfer. -/
def Quiet (apex : Name) : Bool → List RRset → Prop
  | _, [] => True
  | b, rr :: t => ¬ (rr.1.type = soa ∧ b = true) ∧ Quiet apex (b || decide (rr.1 = soaKey apex)) t

theorem inZone_apex (c : Conf) (rr : RRset) (h : rr.1 = soaKey c.apex) : inZone c rr = true := by
  simp [inZone, h]

theorem seen_step (c : Conf) {z : Contents} (w : Wf z) (rr : RRset) :
    seen c (if inZone c rr then insertRR z rr else z) = (seen c z || decide (rr.1 = soaKey c.apex)) := by
  unfold seen
  by_cases e : rr.1 = soaKey c.apex
  · rw [if_pos (inZone_apex c rr e), show insertRR z rr = zAdd z rr from rfl, lookup_zAdd w]
    simp [e]
  · split
    · rw [show insertRR z rr = zAdd z rr from rfl, lookup_zAdd w, if_neg (Ne.symm e)]
      simp [e]
    · simp [e]

theorem axfrRun_more {c : Conf} {l : List RRset} (hs : Single l) {s s' : Contents × Nat} (w : Wf s.1) :
    axfrRun c s l = .more s' ↔ Quiet c.apex (seen c s.1) l ∧ (l = [] ∨ s.2 + total c l ≤ c.maxSize) ∧
      s' = ((l.filter (inZone c)).foldl insertRR s.1, s.2 + total c l) := by
  induction l generalizing s with
  | nil => simp [axfrRun, Quiet, total, eq_comm]
  | cons rr t ih =>
    have h1 := hs rr (by simp)
    have ht : total c (rr :: t) = c.size rr + total c t := by simp [total]
    unfold axfrRun Quiet
    by_cases hc : rr.1.type = soa ∧ (lookup s.1 (soaKey c.apex)).isSome
    · rw [if_pos hc]
      simp [seen, hc]
    · rw [if_neg hc]
      have hc' : ¬ (rr.1.type = soa ∧ seen c s.1 = true) := hc
      by_cases hm : s.2 + c.size rr > c.maxSize
      · rw [if_pos hm]
        refine ⟨fun h => by simp at h, fun h => ?_⟩
        rcases h.2.1 with e | e
        · simp at e
        · rw [ht] at e; omega
      · rw [if_neg hm]
        have w' : Wf (if inZone c rr then insertRR s.1 rr else s.1) := by
          split
          · exact w.zAdd h1.1 (good_single h1.2)
          · exact w
        rw [ih (fun x hx => hs x (List.mem_cons_of_mem _ hx)) w']
        dsimp only
        rw [seen_step c w]
        constructor
        · rintro ⟨a, b, e⟩
          refine ⟨⟨hc', a⟩, .inr ?_, ?_⟩
          · rcases b with b | b
            · subst b; rw [ht]; simp [total]; omega
            · rw [ht]; omega
          · rw [e, ht]
            cases hz : inZone c rr <;> simp [hz, Nat.add_assoc]
        · rintro ⟨⟨_, a⟩, b, e⟩
          refine ⟨a, .inr ?_, ?_⟩
          · rcases b with b | b
            · simp at b
            · rw [ht] at b; omega
          · rw [e, ht]
            cases hz : inZone c rr <;> simp [hz, Nat.add_assoc]

theorem axfrRun_done {c : Conf} {l : List RRset} {s : Contents × Nat} {z : Contents} :
    axfrRun c s l = .done z ↔ ∃ pre e post n, l = pre ++ e :: post ∧ axfrRun c s pre = .more (z, n) ∧ e.1.type = soa ∧
      seen c z = true := by
  induction l generalizing s with
  | nil => simp [axfrRun]
  | cons rr t ih =>
    by_cases hc : rr.1.type = soa ∧ (lookup s.1 (soaKey c.apex)).isSome
    · unfold axfrRun
      rw [if_pos hc]
      constructor
      · intro h
        simp only [Out.done.injEq] at h
        exact ⟨[], rr, t, s.2, rfl, by simp [axfrRun, ← h], hc.1, by rw [← h]; exact hc.2⟩
      · rintro ⟨pre, e, post, n, h1, h2, h3, h4⟩
        cases pre with
        | nil => simp only [axfrRun, Out.more.injEq] at h2; rw [h2]
        | cons x pre =>
          simp only [List.cons_append, List.cons.injEq] at h1
          rw [← h1.1] at h2
          simp only [axfrRun, if_pos hc, reduceCtorEq] at h2
    · by_cases hm : s.2 + c.size rr > c.maxSize
      · unfold axfrRun
        rw [if_neg hc, if_pos hm]
        refine ⟨fun h => by simp at h, ?_⟩
        rintro ⟨pre, e, post, n, h1, h2, h3, h4⟩
        cases pre with
        | nil =>
          simp only [List.nil_append, List.cons.injEq] at h1
          simp only [axfrRun, Out.more.injEq] at h2
          refine absurd ⟨h1.1 ▸ h3, ?_⟩ hc
          rw [h2]; exact h4
        | cons x pre =>
          simp only [List.cons_append, List.cons.injEq] at h1
          rw [← h1.1] at h2
          simp only [axfrRun, if_neg hc, if_pos hm, reduceCtorEq] at h2
      · have hx : ∀ l', axfrRun c s (rr :: l') =
            axfrRun c (if inZone c rr then insertRR s.1 rr else s.1, s.2 + c.size rr) l' := by
          intro l'
          rw [axfrRun, if_neg hc, if_neg hm]
        rw [hx, ih]
        constructor
        · rintro ⟨pre, e, post, n, h1, h2, h3, h4⟩
          exact ⟨rr :: pre, e, post, n, by rw [h1]; rfl, by rw [hx]; exact h2, h3, h4⟩
        · rintro ⟨pre, e, post, n, h1, h2, h3, h4⟩
          cases pre with
          | nil =>
            simp only [List.nil_append, List.cons.injEq] at h1
            simp only [axfrRun, Out.more.injEq] at h2
            refine absurd ⟨h1.1 ▸ h3, ?_⟩ hc
            rw [h2]; exact h4
          | cons x pre =>
            simp only [List.cons_append, List.cons.injEq] at h1
            rw [← h1.1, hx] at h2
            exact ⟨pre, e, post, n, h1.2, h2, h3, h4⟩

theorem quiet_true {apex : Name} {l : List RRset} : Quiet apex true l ↔ ∀ rr ∈ l, rr.1.type ≠ soa := by
  induction l with
  | nil => simp [Quiet]
  | cons rr t ih => simp [Quiet, ih]

theorem quiet_false {apex : Name} {l : List RRset} :
    (Quiet apex false l ∧ ∃ rr ∈ l, rr.1 = soaKey apex) ↔ Open apex l := by
  induction l with
  | nil => simp [Open]
  | cons rr t ih =>
    by_cases e : rr.1 = soaKey apex
    · simp only [Quiet, e, decide_true, Bool.or_true, quiet_true]
      constructor
      · rintro ⟨⟨_, h⟩, _⟩
        exact ⟨[], rr, t, rfl, e, by simp, h⟩
      · rintro ⟨a, s, b, h1, h2, h3, h4⟩
        cases a with
        | nil =>
          simp only [List.nil_append, List.cons.injEq] at h1
          exact ⟨⟨by simp, by rw [h1.2]; exact h4⟩, rr, by simp, e⟩
        | cons x a =>
          simp only [List.cons_append, List.cons.injEq] at h1
          exact absurd (h1.1 ▸ e) (h3 x (by simp))
    · simp only [Quiet, e, decide_false, Bool.or_false, Bool.false_eq_true, and_false, not_false_eq_true, true_and]
      constructor
      · rintro ⟨h1, r, h2, h3⟩
        have hr : r ∈ t := by
          rcases List.mem_cons.mp h2 with h | h
          · exact absurd (h ▸ h3) e
          · exact h
        obtain ⟨a, s, b, e1, e2, e3, e4⟩ := ih.mp ⟨h1, r, hr, h3⟩
        refine ⟨rr :: a, s, b, by rw [e1]; rfl, e2, ?_, e4⟩
        intro x hx
        rcases List.mem_cons.mp hx with h | h
        · rw [h]; exact e
        · exact e3 x h
      · rintro ⟨a, s, b, h1, h2, h3, h4⟩
        cases a with
        | nil =>
          simp only [List.nil_append, List.cons.injEq] at h1
          exact absurd (h1.1 ▸ h2) e
        | cons x a =>
          simp only [List.cons_append, List.cons.injEq] at h1
          obtain ⟨q, r, hr, hk⟩ := ih.mpr ⟨a, s, b, h1.2, h2, fun y hy => h3 y (List.mem_cons_of_mem _ hy), h4⟩
          exact ⟨q, r, List.mem_cons_of_mem _ hr, hk⟩

theorem Single.filter {l : List RRset} (h : Single l) (p : RRset → Bool) : Single (l.filter p) :=
  fun rr hr => h rr (List.mem_filter.mp hr).1

theorem Single.append {a b : List RRset} : Single (a ++ b) ↔ Single a ∧ Single b := by
  simp only [Single, List.mem_append]
  exact ⟨fun h => ⟨fun rr hr => h rr (.inl hr), fun rr hr => h rr (.inr hr)⟩, fun h rr hr => hr.elim (h.1 rr) (h.2 rr)⟩

theorem seen_zoneOf {c : Conf} {l : List RRset} (hs : Single l) :
    seen c (zoneOf (l.filter (inZone c))) = true ↔ ∃ rr ∈ l, rr.1 = soaKey c.apex := by
  have hz := zoneOf_zone (hs.filter (inZone c))
  unfold seen
  rw [Option.isSome_iff_exists]
  constructor
  · rintro ⟨d, hd⟩
    obtain ⟨y, hy⟩ := (hz.1.goodO _).ex hd
    obtain ⟨rr, h1, h2, _⟩ := (hz.2.1 _ y).mp hy
    exact ⟨rr, (List.mem_filter.mp h1).1, h2⟩
  · rintro ⟨rr, h1, h2⟩
    obtain ⟨x, hx⟩ := List.length_eq_one_iff.mp (hs rr h1).2
    have := (hz.2.1 (soaKey c.apex) x).mpr ⟨rr, List.mem_filter.mpr ⟨h1, inZone_apex c rr h2⟩, h2, by simp [hx]⟩
    obtain ⟨r, hr, _⟩ := recs_ne this
    exact ⟨r, hr⟩

theorem wf_nil : Wf [] := ⟨by simp, by simp⟩

theorem axfrRun_nil_done {c : Conf} {l : List RRset} (hs : Single l) {z : Contents} :
    axfrRun c ([], 0) l = .done z ↔ ∃ pre e post, l = pre ++ e :: post ∧ e.1.type = soa ∧ Open c.apex pre ∧
      total c pre ≤ c.maxSize ∧ z = zoneOf (pre.filter (inZone c)) := by
  rw [axfrRun_done]
  constructor
  · rintro ⟨pre, e, post, n, h1, h2, h3, h4⟩
    have hp : Single pre := by rw [h1, Single.append] at hs; exact hs.1
    rw [axfrRun_more hp wf_nil] at h2
    obtain ⟨a, b, e2⟩ := h2
    simp only [Prod.mk.injEq] at e2
    have e3 : z = zoneOf (pre.filter (inZone c)) := e2.1
    rw [e3, seen_zoneOf hp] at h4
    refine ⟨pre, e, post, h1, h3, quiet_false.mp ⟨?_, h4⟩, ?_, e3⟩
    · exact a
    · rcases b with b | b
      · subst b; simp [total]
      · simpa using b
  · rintro ⟨pre, e, post, h1, h3, h4, h5, h6⟩
    have hp : Single pre := by rw [h1, Single.append] at hs; exact hs.1
    obtain ⟨q1, q2⟩ := quiet_false.mpr h4
    refine ⟨pre, e, post, 0 + total c pre, h1, ?_, h3, ?_⟩
    · rw [axfrRun_more hp wf_nil]
      exact ⟨q1, .inr (by simpa using h5), by rw [h6]; rfl⟩
    · rw [h6, seen_zoneOf hp]; exact q2

theorem single_answers {evs : List Event} (he : ∀ e ∈ evs, e.Single) {ms : List Msg} (h : ∀ m ∈ ms, Event.msg m ∈ evs) :
    Single (ms.flatMap (·.answer)) := by
  intro rr hr
  obtain ⟨m, h1, h2⟩ := List.mem_flatMap.mp hr
  exact he _ (h m h1) rr h2

theorem got_axfr {c : Conf} {evs : List Event} (he : ∀ e ∈ evs, e.Single) {z : Contents} :
    Got (axfrRun c) (Accepted c) ([], 0) evs z ↔ AxfrBrings c evs z := by
  rw [got_iff (fun s => rfl) (axfrRun_append c)]
  constructor
  · rintro ⟨ms, m, es, s', r, e1, e2, e3, e4, e5, e6, e7, e8, e9⟩
    subst e7
    have hs1 : Single (ms.flatMap (·.answer)) := single_answers he (fun x hx => by rw [e1]; simp [hx])
    have hs2 : Single m.answer := he (.msg m) (by rw [e1]; simp)
    have hd : axfrRun c ([], 0) (ms.flatMap (·.answer) ++ m.answer) = .done z := by
      rw [axfrRun_append, e5]; exact e6
    obtain ⟨p, e, q, n, f1, f2, f3, f4⟩ := axfrRun_done.mp e6
    have hm : axfrRun c ([], 0) (ms.flatMap (·.answer) ++ p) = .more (z, n) := by
      rw [axfrRun_append, e5]; exact f2
    have hsp : Single (ms.flatMap (·.answer) ++ p) := by
      rw [f1, Single.append] at hs2
      exact Single.append.mpr ⟨hs1, hs2.1⟩
    rw [axfrRun_more hsp wf_nil] at hm
    obtain ⟨q1, q2, q3⟩ := hm
    simp only [Prod.mk.injEq] at q3
    have q4 : z = zoneOf ((ms.flatMap (·.answer) ++ p).filter (inZone c)) := q3.1
    rw [q4, seen_zoneOf hsp] at f4
    refine ⟨ms, m, es, ms.flatMap (·.answer) ++ p, e, q, e1, e2, e3, e4, by rw [f1]; simp, by simp, f3,
      quiet_false.mp ⟨q1, f4⟩, ?_, q4, e8, e9⟩
    rcases q2 with h | h
    · rw [h]; simp [total]
    · simpa using h
  · rintro ⟨ms, m, es, pre, e, post, e1, e2, e3, e4, e5, e6, e7, e8, e9, e10, e11, e12⟩
    have hs1 : Single (ms.flatMap (·.answer)) := single_answers he (fun x hx => by rw [e1]; simp [hx])
    have hs2 : Single m.answer := he (.msg m) (by rw [e1]; simp)
    obtain ⟨p, hp⟩ : ∃ p, pre = ms.flatMap (·.answer) ++ p := by
      have h1 : ms.flatMap (·.answer) <+: pre ++ e :: post := ⟨m.answer, e5⟩
      have h2 : pre <+: pre ++ e :: post := ⟨_, rfl⟩
      obtain ⟨p, hp⟩ := List.prefix_of_prefix_length_le h1 h2 e6
      exact ⟨p, hp.symm⟩
    have hm : m.answer = p ++ e :: post := by
      rw [hp, List.append_assoc] at e5
      exact List.append_cancel_left e5
    have hsp : Single pre := by
      rw [hp]; rw [hm, Single.append] at hs2; exact Single.append.mpr ⟨hs1, hs2.1⟩
    obtain ⟨q1, q2⟩ := quiet_false.mpr e8
    have hr : axfrRun c ([], 0) pre = .more (z, 0 + total c pre) := by
      rw [axfrRun_more hsp wf_nil]
      exact ⟨q1, .inr (by simpa using e9), by rw [e10]; rfl⟩
    rw [hp, axfrRun_append] at hr
    cases h1 : axfrRun c ([], 0) (ms.flatMap (·.answer)) with
    | more s' =>
      rw [h1] at hr
      refine ⟨ms, m, es, s', z, e1, e2, e3, e4, h1 ▸ rfl, ?_, rfl, e11, e12⟩
      rw [axfrRun_done]
      exact ⟨p, e, post, _, hm, hr, e7, by rw [e10, seen_zoneOf hsp]; exact q2⟩
    | done r => rw [h1] at hr; simp [Out.bind] at hr
    | fail => rw [h1] at hr; simp [Out.bind] at hr

/-! ## From server to client -/

theorem mem_split {rr r : RRset} (h : r ∈ split rr) : r.1 = rr.1 ∧ r.2.data.length = 1 ∧
    (∀ x ∈ r.2.data, x ∈ rr.2.data) ∧ SameTtl rr.1.type r.2.ttl rr.2.ttl := by
  unfold split at h
  obtain ⟨x, hx, e⟩ := List.mem_map.mp h
  subst e
  refine ⟨rfl, rfl, fun y hy => by simp at hy; rw [hy]; exact hx, ?_⟩
  by_cases hr : rr.1.type = rrsig
  · exact .inl hr
  · right; simp [hr]

theorem split_single {l : List RRset} (h : ∀ rr ∈ l, KeyOk rr.1) : Single (l.flatMap split) := by
  intro r hr
  obtain ⟨rr, h1, h2⟩ := List.mem_flatMap.mp hr
  obtain ⟨a, b, _⟩ := mem_split h2
  exact ⟨a ▸ h rr h1, b⟩

theorem split_mem {rr : RRset} {x : Bytes} (h : x ∈ rr.2.data) : ∃ r ∈ split rr, r.1 = rr.1 ∧ x ∈ r.2.data := by
  refine ⟨_, List.mem_map.mpr ⟨x, h, rfl⟩, rfl, by simp⟩

theorem split_one {rr : RRset} (h : rr.2.data.length = 1) (ht : rr.1.type ≠ rrsig) : split rr = [rr] := by
  obtain ⟨k, t, d⟩ := rr
  obtain ⟨x, hx⟩ := List.length_eq_one_iff.mp h
  simp only at hx ht
  subst hx
  simp [split, ht]

/-- The records of a zone, in any order of RRsets. -/
theorem zone_same {c : Contents} (w : Wf c) {l : List RRset} (hl : ∀ rr, rr ∈ l ↔ rr ∈ c) :
    Same (zoneOf (l.flatMap split)) c := by
  have hs : Single (l.flatMap split) := split_single (fun rr h => (w.2 rr ((hl rr).mp h)).1)
  refine (zoneOf_zone hs).same w (fun k x => ?_) (fun r hr d hd => ?_)
  · constructor
    · rintro ⟨r, h1, h2, h3⟩
      obtain ⟨rr, h4, h5⟩ := List.mem_flatMap.mp h1
      obtain ⟨a, _, b, _⟩ := mem_split h5
      have : lookup c rr.1 = some rr.2 := mem_lookup w.1 ((hl rr).mp h4)
      rw [← h2, a, this]
      exact b x h3
    · intro hx
      obtain ⟨d, hd, hx⟩ := recs_ne hx
      obtain ⟨r, h1, h2, h3⟩ := split_mem (rr := (k, d)) hx
      exact ⟨r, List.mem_flatMap.mpr ⟨(k, d), (hl _).mpr (lookup_mem hd), h1⟩, h2, h3⟩
  · obtain ⟨rr, h4, h5⟩ := List.mem_flatMap.mp hr
    obtain ⟨a, _, _, b⟩ := mem_split h5
    have : lookup c rr.1 = some rr.2 := mem_lookup w.1 ((hl rr).mp h4)
    rw [a, this] at hd
    simp only [Option.some.injEq] at hd
    rw [a, ← hd]; exact b

theorem mem_axfr {apex : Name} {c : Contents} {s : RRset} (h : ZoneOk apex c s) (rr : RRset) :
    rr ∈ s :: notSoa c ↔ rr ∈ c := by
  have hs : s ∈ c := lookup_mem h.apexSoa
  simp only [List.mem_cons, notSoa, List.mem_filter, ne_eq, decide_not, Bool.not_eq_true', decide_eq_false_iff_not]
  constructor
  · rintro (e | e)
    · rw [e]; exact hs
    · exact e.1
  · intro hm
    by_cases ht : rr.1.type = soa
    · left
      have h1 := h.only rr hm ht
      have h2 : lookup c rr.1 = some rr.2 := mem_lookup h.wf.1 hm
      rw [h1, ← h.key, h.apexSoa] at h2
      simp only [Option.some.injEq] at h2
      exact Prod.ext (by rw [h1, h.key]) h2.symm
    · exact .inr ⟨hm, ht⟩

end Knot.Xfr
