import Verif.Xfr.Lemmas10
/-! # Transfers: from the server to the client -/
namespace Knot.Xfr
open Knot.Dname (Name)
open Knot.Changeset

theorem axfr_keys {apex : Name} {z : Contents} {s : RRset} (h : ZoneOk apex z s) {ms : List (List RRset)}
    (hm : ms.flatten = s :: (notSoa z ++ [s])) : ∀ rr ∈ ms.flatten, KeyOk rr.1 := by
  intro rr hr
  rw [hm] at hr
  have hs : KeyOk s.1 := by rw [h.key]; exact soaKey_ok _
  simp only [List.mem_cons, List.mem_append, List.not_mem_nil, or_false] at hr
  rcases hr with e | hr | e
  · rw [e]; exact hs
  · exact (h.wf.2 rr (List.mem_filter.mp hr).1).1
  · rw [e]; exact hs

theorem History.append {apex : Name} {z z1 z2 : Contents} {chs more : List Ch} (h : History apex z chs z1) (h2 : History apex z1 more z2) :
    History apex z (chs ++ more) z2 := by
  induction h with
  | nil => exact h2
  | cons w ht h1 h2' h3 h4 h5 hi happ _ ih => exact .cons w ht h1 h2' h3 h4 h5 hi happ (ih h2)

theorem history_soas {apex : Name} {z z' : Contents} {chs : List Ch} (h : History apex z chs z') :
    ∀ ch ∈ chs, ∃ a b, ch.soaFrom = some a ∧ a.1 = soaKey apex ∧ a.2.data.length = 1 ∧ ch.soaTo = some b ∧ b.1 = soaKey apex ∧
      ch.Wf apex := by
  induction h with
  | nil => simp
  | @cons z z' ch chs a b u0 u1 w ht h1 h2 h3 h4 h5 hi happ _ ih =>
    intro x hx
    rcases List.mem_cons.mp hx with e | hx
    · rw [e]
      exact ⟨a, b, h1, (w.2.2.2.2.2 a h1).1, h2, h3, (w.2.2.2.2.1 b h3).1, w⟩
    · exact ih x hx

theorem flat_keys {apex : Name} {z z' : Contents} {chs : List Ch} (h : History apex z chs z') : ∀ rr ∈ flat chs, KeyOk rr.1 := by
  intro rr hr
  obtain ⟨ch, hc, hr⟩ := List.mem_flatMap.mp hr
  obtain ⟨a, b, h1, h2, _, h3, h4, w⟩ := history_soas h ch hc
  rw [h1, h3] at hr
  simp only [Option.toList_some, List.mem_append, List.mem_cons, List.not_mem_nil, or_false] at hr
  rcases hr with ((e | hr) | e) | hr
  · rw [e, h2]; exact soaKey_ok _
  · exact (w.2.1.2 rr hr).1
  · rw [e, h4]; exact soaKey_ok _
  · exact (w.1.2 rr hr).1

theorem ixfr_run {pk : Pack} {srv : Server} {c : Conf} {byOne : Bool} {n : Nat} {y z z1 z2 : Contents} {chs more later : List Ch}
    (hf : srv.frozen = false) (hp : srv.provideIxfr = true) (hb : pk.big [] = false)
    (hk : srv.soaRr.1 = soaKey c.apex) (hone : srv.soaRr.2.data.length = 1)
    (hy : c.zone = some y) (wy : Wf y) (hyz : Same y z) (wz : Wf z) (hzs : (lookup z (soaKey c.apex)).isSome)
    (hh : History c.apex z chs z1) (hh2 : History c.apex z1 more z2) (hne : chs ≠ [])
    (hby : if byOne then chs.length = 1 else more = [])
    (hj : srv.journal (zoneSerial c) = .rrs (flat (chs ++ more ++ later)) false)
    (hfrom : ∀ ch ∈ chs ++ more, ¬ StartsAt c.serialOf ch (serial c.serialOf srv.soaRr))
    (hlast : ∀ b, (chs ++ more).getLast?.bind (·.soaTo) = some b → serial c.serialOf b = serial c.serialOf srv.soaRr)
    (hlater : ∀ ch, later.head? = some ch → StartsAt c.serialOf ch (serial c.serialOf srv.soaRr))
    (hnew : newer c srv.soaRr = true) (hr1 : serial c.serialOf srv.soaRr < 4294967296) (hr2 : zoneSerial c < 4294967296)
    (hs : ∀ rr ∈ srv.soaRr :: flat (chs ++ more), pk.fits [] rr = true) (hn : (flat (chs ++ more)).length + 2 < n)
    (hsz : total c ((srv.soaRr :: (flat (chs ++ more) ++ [srv.soaRr])).flatMap split) / 2 ≤ c.maxSize)
    (hok : ∀ x, Same x z1 → c.check x = true ∧ c.commit x = true) :
    ∃ ms, serveIxfr c.serialOf pk srv (zoneSerial c) n = .ok (ms, .done) ∧ ∃ d io x,
      exec c (Data.init true byOne) (ms.map wire) = .ok (d, none, io) ∧ d.published = some x ∧ Same x z1 := by
  have hall := hh.append hh2
  obtain ⟨c1, c2⟩ := history_cut hall hfrom hlater (zoneSerial c)
  obtain ⟨b, hb'⟩ := history_last hall (by simp [hne])
  have hl : lastSerial c.serialOf (serial c.serialOf srv.soaRr) false (flat (chs ++ more ++ later)) (zoneSerial c) =
      serial c.serialOf srv.soaRr := by
    rw [c2, hb']
    exact hlast b hb'
  have hcmp := (newer_compare hr1 hr2).mp hnew
  obtain ⟨ms, hms⟩ := ixfr_answer_done (pk := pk) (srv := srv) (from' := zoneSerial c) (n := n) hb (by rw [c1]; exact hs) hl
    (by rw [c1]; exact hn)
  obtain ⟨f1, f2, _⟩ := ixfr_answer hb (hs _ (by simp)) hms
  rw [c1] at f1
  have hser : ∀ ch ∈ chs, ∀ a, ch.soaFrom = some a → serial c.serialOf a ≠ serial c.serialOf srv.soaRr := by
    intro ch hc a ha e
    obtain ⟨a', _, k1, k2, _⟩ := history_soas hh ch hc
    rw [ha] at k1
    have k1 := Option.some.inj k1
    exact hfrom ch (by simp [hc]) ⟨a, ha, by rw [k1, k2], e⟩
  obtain ⟨x, hx, hbr⟩ := ixfr_brings (byOne := byOne) (more := more) hh wz hy wy hyz hzs hne hk hone hser
    (by
      cases byOne with
      | false => simpa using hby
      | true =>
        simp only [if_true] at hby ⊢
        refine ⟨hby, fun ch hc => ?_⟩
        obtain ⟨a, _, k1, k2, k3, _⟩ := history_soas hh2 ch hc
        exact ⟨a, k1, k2, k3⟩) f1 hsz hok
  have hsty : style (newer c) (ms.map wire) = some .ixfr := by
    obtain ⟨ch, t, e⟩ := List.exists_cons_of_ne_nil hne
    obtain ⟨a, b, k1, k2, k3, k4, _⟩ := history_soas hh ch (by rw [e]; simp)
    have f1' := f1
    rw [e, List.cons_append, flat_cons k1 k4] at f1'
    refine style_ixfr f1' f2 ⟨by rw [hk], split_one hone (soa_ne_rrsig hk)⟩ ⟨by rw [k2], split_one k3 (soa_ne_rrsig k2)⟩ ?_ hnew
    exact rrEqual_serial (fun h => hser ch (by rw [e]; simp) a k1 h.symm)
  obtain ⟨d, o, io, k1, k2, k3, _⟩ := ixfr_client (c := c) (byOne := byOne) hy wy (evs := ms.map wire) (wire_single (by
    rw [f1]
    intro rr hr
    have hs : KeyOk srv.soaRr.1 := by rw [hk]; exact soaKey_ok _
    simp only [List.mem_cons, List.mem_append, List.not_mem_nil, or_false] at hr
    rcases hr with e | hr | e
    · rw [e]; exact hs
    · exact flat_keys hall rr hr
    · rw [e]; exact hs))
  have hpub := (k2 x).mpr (.inr ⟨hsty, hbr⟩)
  have ho : o = none := k3.mpr (.inl (by rw [hpub]; rfl))
  exact ⟨ms, by rw [serveIxfr_ixfr hf hp hj hcmp, hms], d, io, x, by rw [k1, ho], hpub, hx⟩

theorem axfr_style_run {pk : Pack} {srv : Server} {c : Conf} {byOne : Bool} {n : Nat} {y : Contents}
    (hf : srv.frozen = false) (hj : srv.provideIxfr = false ∨ ∀ l b, srv.journal (zoneSerial c) ≠ .rrs l b)
    (hz : ZoneOk c.apex srv.trees.contents srv.soaRr) (hy : c.zone = some y) (wy : Wf y)
    (hnew : newer c srv.soaRr = true) (hr1 : serial c.serialOf srv.soaRr < 4294967296) (hr2 : zoneSerial c < 4294967296)
    (hs : ∀ rr ∈ srv.soaRr :: notSoa srv.trees.contents, pk.fits [] rr = true)
    (hn : (notSoa srv.trees.contents).length + 2 < n)
    (hsz : total c ((srv.soaRr :: notSoa srv.trees.contents).flatMap split) ≤ c.maxSize)
    (hok : ∀ y, Same y srv.trees.contents → c.check y = true ∧ c.commit y = true) :
    ∃ ms, serveIxfr c.serialOf pk srv (zoneSerial c) n = .ok (ms, .done) ∧ ∃ d io x,
      exec c (Data.init true byOne) (ms.map wire) = .ok (d, none, io) ∧ d.published = some x ∧ Same x srv.trees.contents := by
  obtain ⟨ms, hm⟩ := serveAxfr_done hf hs hn
  obtain ⟨h1, h2⟩ := serveAxfr_spec (hs _ (by simp)) hm
  obtain ⟨x, hx, hb⟩ := axfr_brings hz h1 hsz hok
  obtain ⟨d, o, io, k1, k2, k3, _⟩ := ixfr_client (c := c) (byOne := byOne) hy wy (evs := ms.map wire) (wire_single (axfr_keys hz h1))
  have hpub := (k2 x).mpr (.inl ⟨style_axfr hz h1 h2 hnew, hb⟩)
  have ho : o = none := k3.mpr (.inl (by rw [hpub]; rfl))
  refine ⟨ms, ?_, d, io, x, by rw [k1, ho], hpub, hx⟩
  have hcmp := (newer_compare hr1 hr2).mp hnew
  obtain ⟨q, hq⟩ := Knot.C08_compare_total (serial c.serialOf srv.soaRr) (zoneSerial c)
  obtain ⟨q1, q2⟩ := hcmp q hq
  unfold serveIxfr ixfrPlan
  rw [if_neg (by simp [hf])]
  by_cases hp : srv.provideIxfr = true
  · rw [if_neg (by simp [hp]), hq]
    simp only [Res.bind_ok, q1, q2, or_self, if_false]
    cases hr : srv.journal (zoneSerial c) with
    | none => simp [hm]
    | range => simp [hm]
    | rrs l b =>
      rcases hj with h | h
      · rw [hp] at h; simp at h
      · exact absurd hr (h l b)
  · rw [if_pos (by simpa using hp)]
    simp [hm]

end Knot.Xfr
