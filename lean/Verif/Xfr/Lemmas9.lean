import Verif.Xfr.Lemmas8
import Verif.Xfr.Lemmas2
/-! # Transfers: from server to client -/
namespace Knot.Xfr
open Knot.Dname (Name)
open Knot.Changeset
open Knot.Rdataset (Canon)

theorem find_msg {α : Type} {A : List (List α)} {pre post : List α} {e : α} (h : A.flatten = pre ++ e :: post) :
    ∃ A0 a A1 post', A = A0 ++ a :: A1 ∧ A0.flatten ++ a = pre ++ e :: post' ∧ A0.flatten.length ≤ pre.length := by
  induction A generalizing pre with
  | nil => simp at h
  | cons x t ih =>
    rw [List.flatten_cons] at h
    by_cases hl : x.length ≤ pre.length
    · obtain ⟨p, hp⟩ : ∃ p, pre = x ++ p := by
        obtain ⟨p, hp⟩ := List.prefix_of_prefix_length_le (l₁ := x) (l₂ := pre) (l₃ := x ++ t.flatten) ⟨_, rfl⟩ ⟨_, h.symm⟩ hl
        exact ⟨p, hp.symm⟩
      rw [hp, List.append_assoc] at h
      obtain ⟨A0, a, A1, post', h1, h2, h3⟩ := ih (List.append_cancel_left h)
      refine ⟨x :: A0, a, A1, post', by rw [h1]; rfl, by rw [List.flatten_cons, List.append_assoc, h2, hp]; simp, ?_⟩
      rw [hp, List.flatten_cons, List.length_append, List.length_append]; omega
    · obtain ⟨q, hq⟩ : ∃ q, x = pre ++ q := by
        obtain ⟨q, hq⟩ := List.prefix_of_prefix_length_le (l₁ := pre) (l₂ := x) (l₃ := x ++ t.flatten) ⟨_, h.symm⟩ ⟨_, rfl⟩ (by omega)
        exact ⟨q, hq.symm⟩
      cases q with
      | nil => rw [hq] at hl; simp at hl
      | cons y q =>
        rw [hq, List.append_assoc] at h
        have := List.append_cancel_left h
        simp only [List.cons_append, List.cons.injEq] at this
        exact ⟨[], x, t, q, rfl, by rw [hq, this.1]; simp, by simp⟩

/-- The messages and the records in them. -/
theorem wire_find {ms : List (List RRset)} {pre post : List RRset} {e : RRset}
    (h : ms.flatten.flatMap split = pre ++ e :: post) :
    ∃ (as : List Msg) (a : Msg) (rest : List Event) (post' : List RRset), ms.map wire = as.map .msg ++ .msg a :: rest ∧
      (∀ x ∈ as, Msg.Fine x) ∧ a.Fine ∧ a.unsigned = false ∧ as.flatMap (·.answer) ++ a.answer = pre ++ e :: post' ∧
      (as.flatMap (·.answer)).length ≤ pre.length := by
  have hf : (ms.map (·.flatMap split)).flatten = pre ++ e :: post := by
    rw [← h]
    clear h
    induction ms with
    | nil => rfl
    | cons x t ih => simp [ih]
  obtain ⟨A0, a, A1, post', h1, h2, h3⟩ := find_msg hf
  obtain ⟨m0, m1, rfl, h4, h5⟩ := List.map_eq_append_iff.mp h1
  obtain ⟨x, m2, rfl, h6, h7⟩ := List.map_eq_cons_iff.mp h5
  refine ⟨m0.map (fun m => ⟨0, m.flatMap split, false, false⟩), ⟨0, x.flatMap split, false, false⟩, m2.map wire, post', ?_, ?_, ⟨rfl, rfl⟩, rfl, ?_, ?_⟩
  · simp [wire]
  · intro y hy
    obtain ⟨m, _, e⟩ := List.mem_map.mp hy
    rw [← e]; exact ⟨rfl, rfl⟩
  · rw [← h2, ← h4, ← h6]
    simp [List.flatMap_map, List.flatMap_def]
    rfl
  · rw [← h4] at h3
    simp only [List.flatMap_map]
    simpa [List.flatMap_def] using h3

theorem wire_single {ms : List (List RRset)} (h : ∀ rr ∈ ms.flatten, KeyOk rr.1) : ∀ e ∈ ms.map wire, e.Single := by
  intro e he
  obtain ⟨m, hm, e1⟩ := List.mem_map.mp he
  rw [← e1]
  exact split_single (fun rr hr => h rr (List.mem_flatten.mpr ⟨m, hm, hr⟩))

theorem soa_ne_rrsig {apex : Name} {s : RRset} (h : s.1 = soaKey apex) : s.1.type ≠ rrsig := by
  rw [h]; exact (by decide : soa ≠ rrsig)

theorem isSuffixOf_refl (n : Name) : n.isSuffixOf n = true := by
  rw [List.isSuffixOf_iff_suffix]; exact List.suffix_refl n

/-- The records of an AXFR bring the zone. -/
theorem axfr_brings {c : Conf} {z : Contents} {s : RRset} (h : ZoneOk c.apex z s) {ms : List (List RRset)}
    (hm : ms.flatten = s :: (notSoa z ++ [s])) (hsz : total c ((s :: notSoa z).flatMap split) ≤ c.maxSize)
    (hok : ∀ y, Same y z → c.check y = true ∧ c.commit y = true) :
    ∃ y, Same y z ∧ AxfrBrings c (ms.map wire) y := by
  have hs1 : split s = [s] := split_one h.one (soa_ne_rrsig h.key)
  have hst : s.1.type = soa := by rw [h.key]
  obtain ⟨as, a, rest, post', e1, e2, e3, e4, e5, e6⟩ := wire_find (ms := ms) (pre := (s :: notSoa z).flatMap split) (e := s) (post := []) (by
    rw [hm, ← hs1]
    simp [hs1])
  have hsame := zone_same h.wf (mem_axfr h)
  have hin : ∀ rr ∈ (s :: notSoa z).flatMap split, inZone c rr = true := by
    intro rr hr
    obtain ⟨x, h1, h2⟩ := List.mem_flatMap.mp hr
    unfold inZone
    rw [(mem_split h2).1]
    exact h.inside x ((mem_axfr h x).mp h1)
  refine ⟨zoneOf ((s :: notSoa z).flatMap split), hsame, as, a, rest, _, s, post', e1, e2, e3, e4, e5, e6, hst, ?_, hsz, ?_, hok _ hsame⟩
  · refine ⟨[], s, (notSoa z).flatMap split, by simp [hs1], h.key, by simp, fun rr hr => ?_⟩
    obtain ⟨x, h1, h2⟩ := List.mem_flatMap.mp hr
    rw [(mem_split h2).1]
    simpa [notSoa] using (List.mem_filter.mp h1).2
  · rw [List.filter_eq_self.mpr hin]

/-! ## The same changesets, one record after another -/

theorem SameRRs.get {ty : Nat} {o o' : Option RRs} (h : SameRRs ty o o') :
    recs o = recs o' ∧ ∀ x', o' = some x' → ∃ x, o = some x ∧ x.data = x'.data ∧ SameTtl ty x.ttl x'.ttl := by
  cases o with
  | none =>
    cases o' with
    | none => exact ⟨rfl, by simp⟩
    | some x' => exact absurd h (by simp [SameRRs])
  | some x =>
    cases o' with
    | none => exact absurd h (by simp [SameRRs])
    | some x' =>
      exact ⟨h.1, fun y hy => by simp only [Option.some.injEq] at hy; subst hy; exact ⟨x, rfl, h.1, h.2⟩⟩

theorem fits1_same {ty : Nat} {b r a b' r' a' : Option RRs} (h : Fits1 ty b r a) (hb : SameRRs ty b b')
    (hr : SameRRs ty r r') (ha : SameRRs ty a a') : Fits1 ty b' r' a' := by
  obtain ⟨b1, b2⟩ := SameRRs.get hb
  obtain ⟨r1, r2⟩ := SameRRs.get hr
  obtain ⟨a1, a2⟩ := SameRRs.get ha
  refine ⟨by rw [← r1, ← b1]; exact h.sub, by rw [← r1, ← b1, ← a1]; exact h.dis, fun rr bb h1 h2 => ?_, fun aa bb h1 h2 h3 => ?_⟩
  · obtain ⟨x, e1, _, e3⟩ := r2 _ h1
    obtain ⟨y, f1, _, f3⟩ := b2 _ h2
    exact e3.symm.trans ((h.tr _ _ e1 f1).trans f3)
  · obtain ⟨x, e1, _, e3⟩ := a2 _ h1
    obtain ⟨y, f1, f2, f3⟩ := b2 _ h2
    rw [← r1, ← f2] at h3
    exact e3.symm.trans ((h.tx _ _ e1 f1 h3).trans f3)

theorem leads1_same {ty : Nat} {b c r a b' r' a' : Option RRs} (h : Leads1 ty b c r a) (hb : SameRRs ty b b')
    (hr : SameRRs ty r r') (ha : SameRRs ty a a') : Leads1 ty b' c r' a' := by
  have hf := fits1_same h.fits hb hr ha
  obtain ⟨b1, b2⟩ := SameRRs.get hb
  obtain ⟨r1, r2⟩ := SameRRs.get hr
  obtain ⟨a1, a2⟩ := SameRRs.get ha
  refine ⟨hf.sub, hf.dis, by rw [← r1, ← b1, ← a1]; exact h.eq, hf.tr, fun aa cc h1 h2 => ?_, fun bb cc h1 h2 h3 => ?_⟩
  · obtain ⟨x, e1, _, e3⟩ := a2 _ h1
    exact e3.symm.trans (h.ta _ _ e1 h2)
  · obtain ⟨y, f1, f2, f3⟩ := b2 _ h1
    rw [← r1, ← f2] at h3
    exact (h.tk _ _ f1 h2 h3).trans f3

/-- A changeset taken apart and put together. -/
def rebuilt (ch : Ch) : Ch := ⟨zoneOf (ch.add.flatMap split), zoneOf (ch.rem.flatMap split), ch.soaFrom, ch.soaTo⟩

theorem rebuilt_same {apex : Name} {ch : Ch} (w : ch.Wf apex) :
    Same (rebuilt ch).add ch.add ∧ Same (rebuilt ch).rem ch.rem ∧ (rebuilt ch).Wf apex := by
  have h1 : Same (zoneOf (ch.add.flatMap split)) ch.add := zone_same w.1 (fun _ => Iff.rfl)
  have h2 : Same (zoneOf (ch.rem.flatMap split)) ch.rem := zone_same w.2.1 (fun _ => Iff.rfl)
  have w1 := (zoneOf_zone (split_single (fun rr h => (w.1.2 rr h).1))).1
  have w2 := (zoneOf_zone (split_single (fun rr h => (w.2.1.2 rr h).1))).1
  have aux : ∀ x y : Contents, Same x y → Wf x → (∀ rr ∈ y, rr.1.type ≠ soa) → ∀ rr ∈ x, rr.1.type ≠ soa := by
    intro x y hs wx hy rr hr
    obtain ⟨k, d⟩ := rr
    obtain ⟨d', e, _⟩ := (SameRRs.get (hs k).symm).2 d (mem_lookup wx.1 hr)
    exact hy (k, d') (lookup_mem e)
  exact ⟨h1, h2, w1, w2, aux _ _ h1 w1 w.2.2.1, aux _ _ h2 w2 w.2.2.2.1, w.2.2.2.2⟩

theorem leads_same {apex : Name} {z c y : Contents} {ch ch' : Ch} (h : Leads apex z c ch) (hz : Same z y)
    (ha : Same ch.add ch'.add) (hr : Same ch.rem ch'.rem) (hs : ch'.soaTo = ch.soaTo) : Leads apex y c ch' := by
  refine ⟨fun k hk => leads1_same (h.1 k hk) (hz k) (hr k) (ha k), ?_⟩
  rw [hs]
  cases hc : ch.soaTo with
  | some rr => have := h.2; rw [hc] at this; exact this
  | none =>
    have := h.2
    rw [hc] at this
    exact this.trans (hz _)

theorem apply_history {apex : Name} {z z' : Contents} {chs : List Ch} (h : History apex z chs z') (wz : Wf z) {u : Update}
    (ha : u.apex = apex) (wu : Wf u.zone) (wc : u.change.Wf apex) {z0 : Contents} (hl : Leads apex z0 u.zone u.change)
    (hs : Same u.zone z) : ∃ u', applyAll u (chs.map rebuilt) = .ok u' ∧ Same u'.zone z' := by
  induction h generalizing u with
  | nil => exact ⟨u, rfl, hs⟩
  | @cons z z' ch chs a b u0 u1 w ht h1 h2 h3 h4 h5 hi happ _ ih =>
    have hz : (lookup z (soaKey apex)).isSome := by
      unfold Update.init at hi
      split at hi
      · simp at hi
      · rename_i s hs; rw [hs]; rfl
    have hf := fits_of_strict wz w ht hi happ
    have hz' : (lookup u.zone (soaKey apex)).isSome := hs.symm.isSome hz
    obtain ⟨r1, r2, r3⟩ := rebuilt_same w
    have hf' : Fits apex u.zone (rebuilt ch) := fun k hk => fits1_same (hf k hk) (hs.symm k) (r2.symm k) (r1.symm k)
    -- at the server
    obtain ⟨f1, f2⟩ := replay_fits wz w hz hf
    obtain ⟨sr, hsr⟩ := Option.isSome_iff_exists.mp hz
    obtain ⟨u0', e0, ea, _, ez, ew, el, _⟩ := init_ok (s := true) wz hsr
    rw [hi, Res.ok.injEq] at e0
    subst e0
    obtain ⟨u1', g1, g2, g3, _⟩ := run_fair (u := u0) (z := z) (cs := ch.walk) (by rw [ez]; exact wz)
      (by rw [ea]; exact ew) (by rw [ea, ez]; exact el) (by rw [ea, ez]; exact f1)
    have : u1' = u1 := by
      have : u0.run ch.walk = .ok u1 := happ
      rw [g1, Res.ok.injEq] at this
      exact this
    subst this
    rw [ez] at g2
    -- at the client
    obtain ⟨k1, k2⟩ := replay_fits wu r3 hz' hf'
    obtain ⟨v, v1, v2, v3, v4, _, v5, v6, _⟩ := run_fair (u := u) (z := z0) (cs := (rebuilt ch).walk) wu
      (by rw [ha]; exact wc) (by rw [ha]; exact hl) (by rw [ha]; exact k1)
    have hsame : Same v.zone u1'.zone := by
      rw [v2, g2]
      refine Leads.det k2 (leads_same f2 hs.symm r1.symm r2.symm rfl) (by rw [← v2]; exact v3) (by rw [← g2]; exact g3)
    obtain ⟨u', q1, q2⟩ := ih g3 (u := v) (v6.trans ha) v3 (by rw [← ha]; exact v4) (by rw [← ha]; exact v5) hsame
    refine ⟨u', ?_, q2⟩
    rw [List.map_cons, applyAll]
    have : u.applyChangeset (rebuilt ch) = .ok v := v1
    rw [this]
    exact q1

/-! ## The records of an IXFR -/

/-- The difference that tells a changeset. -/
def told (ch : Ch) (a b : RRset) : Diff := ⟨a, ch.rem.flatMap split, b, ch.add.flatMap split⟩

theorem split_type {l : List RRset} {t : Nat} (h : ∀ rr ∈ l, rr.1.type ≠ t) : ∀ rr ∈ l.flatMap split, rr.1.type ≠ t := by
  intro rr hr
  obtain ⟨x, h1, h2⟩ := List.mem_flatMap.mp hr
  rw [(mem_split h2).1]
  exact h x h1

theorem history_told {apex : Name} {z z' : Contents} {chs : List Ch} (h : History apex z chs z') :
    ∃ ds : List Diff, ds.map Diff.ch = chs.map rebuilt ∧ (flat chs).flatMap split = ds.flatMap Diff.text ∧
      ds.length = chs.length ∧ (∀ d ∈ ds, d.Ok) ∧ (∀ d ∈ ds, ∃ ch ∈ chs, ch.soaFrom = some d.old) ∧
      (∀ rr ∈ ds.flatMap Diff.text, apex.isSuffixOf rr.1.owner = true) ∧ ∀ rr ∈ flat chs, KeyOk rr.1 := by
  induction h with
  | nil => exact ⟨[], rfl, rfl, rfl, by simp, by simp, by simp, by simp [flat]⟩
  | @cons z z' ch chs a b u0 u1 w ht h1 h2 h3 h4 h5 hi happ _ ih =>
    obtain ⟨ds, i1, i2, i3, i4, i5, i6, i7⟩ := ih
    obtain ⟨ka, ga⟩ := w.2.2.2.2.2 a h1
    obtain ⟨kb, gb⟩ := w.2.2.2.2.1 b h3
    have sa : split a = [a] := split_one h2 (soa_ne_rrsig ka)
    have sb : split b = [b] := split_one h4 (soa_ne_rrsig kb)
    have hfl : flat (ch :: chs) = (a :: (ch.rem ++ b :: ch.add)) ++ flat chs := by
      simp [flat, h1, h3]
    have htx : (a :: (ch.rem ++ b :: ch.add)).flatMap split = (told ch a b).text := by
      simp [told, Diff.text, sa, sb]
    refine ⟨told ch a b :: ds, ?_, ?_, by simp [i3], ?_, ?_, ?_, ?_⟩
    · simp [i1, told, Diff.ch, rebuilt, h1, h3]
    · rw [hfl, List.flatMap_append, htx, i2]; simp
    · intro d hd
      rcases List.mem_cons.mp hd with e | e
      · rw [e]
        exact ⟨by simp [told, ka], by simp [told, kb], split_type w.2.2.2.1, split_type w.2.2.1⟩
      · exact i4 d e
    · intro d hd
      rcases List.mem_cons.mp hd with e | e
      · exact ⟨ch, by simp, by rw [e]; exact h1⟩
      · obtain ⟨x, hx, e2⟩ := i5 d e
        exact ⟨x, by simp [hx], e2⟩
    · intro rr hr
      rw [List.flatMap_cons, List.mem_append, ← htx] at hr
      rcases hr with hr | hr
      · obtain ⟨x, k1, k2⟩ := List.mem_flatMap.mp hr
        rw [(mem_split k2).1]
        have : x = a ∨ x = b ∨ x ∈ ch.rem ++ ch.add := by
          simp only [List.mem_cons, List.mem_append] at k1 ⊢
          grind
        rcases this with e | e | e
        · rw [e, ka]; exact isSuffixOf_refl _
        · rw [e, kb]; exact isSuffixOf_refl _
        · exact h5 x e
      · exact i6 rr hr
    · intro rr hr
      rw [hfl] at hr
      have : rr = a ∨ rr = b ∨ rr ∈ ch.rem ∨ rr ∈ ch.add ∨ rr ∈ flat chs := by
        simp only [List.mem_cons, List.mem_append] at hr ⊢
        grind
      rcases this with e | e | e | e | e
      · rw [e, ka]; exact soaKey_ok _
      · rw [e, kb]; exact soaKey_ok _
      · exact (w.2.1.2 rr e).1
      · exact (w.1.2 rr e).1
      · exact i7 rr e

theorem rrEqual_refl (a : RRset) : rrEqual a a = true := by simp [rrEqual]

theorem rrEqual_serial {serialOf : Bytes → Nat} {a b : RRset} (h : serial serialOf a ≠ serial serialOf b) :
    rrEqual a b = false := by
  cases e : rrEqual a b with
  | false => rfl
  | true =>
    simp only [rrEqual, decide_eq_true_eq] at e
    exact absurd (by unfold serial; rw [e.2.2.2]) h

/-- The records of an IXFR bring the zone after the changesets; with `byOne` the zone after the first. -/
theorem ixfr_brings {c : Conf} {byOne : Bool} {z y z' : Contents} {s : RRset} {chs more : List Ch}
    (h : History c.apex z chs z') (wz : Wf z) (hy : c.zone = some y) (wy : Wf y) (hyz : Same y z)
    (hzs : (lookup z (soaKey c.apex)).isSome)
    (hne : chs ≠ []) (hk : s.1 = soaKey c.apex) (hone : s.2.data.length = 1)
    (hser : ∀ ch ∈ chs, ∀ a, ch.soaFrom = some a → serial c.serialOf a ≠ serial c.serialOf s)
    (hm : if byOne then chs.length = 1 ∧ ∀ ch ∈ more, ∃ a, ch.soaFrom = some a ∧ a.1 = soaKey c.apex ∧ a.2.data.length = 1
          else more = [])
    {ms : List (List RRset)} (hms : ms.flatten = s :: (flat (chs ++ more) ++ [s]))
    (hsz : total c ((s :: (flat (chs ++ more) ++ [s])).flatMap split) / 2 ≤ c.maxSize)
    (hok : ∀ y, Same y z' → c.check y = true ∧ c.commit y = true) :
    ∃ y, Same y z' ∧ IxfrBrings c byOne (ms.map wire) y := by
  have hs1 : split s = [s] := split_one hone (soa_ne_rrsig hk)
  have hst : s.1.type = soa := by rw [hk]
  have hsin : inZone c s = true := by unfold inZone; rw [hk]; exact isSuffixOf_refl _
  obtain ⟨ds, d1, d2, d3, d4, d5, d6, d7⟩ := history_told h
  -- what ends it
  obtain ⟨e, post, he1, he2, he3, he4, he5⟩ : ∃ e post, (flat more ++ [s]).flatMap split = e :: post ∧ e.1.type = soa ∧
      inZone c e = true ∧ (rrEqual e s = true ∨ byOne = true) ∧ e.2.data.length = 1 := by
    cases more with
    | nil => exact ⟨s, [], by simp [flat, hs1], hst, hsin, .inl (rrEqual_refl s), hone⟩
    | cons ch t =>
      cases byOne with
      | false => simp at hm
      | true =>
        simp only [if_true] at hm
        obtain ⟨a, h1, h2, h3⟩ := hm.2 ch (by simp)
        have sa : split a = [a] := split_one h3 (soa_ne_rrsig h2)
        refine ⟨a, _, by simp [flat, h1, sa]; rfl, by rw [h2], by unfold inZone; rw [h2]; exact isSuffixOf_refl _, .inr rfl, h3⟩
  have hall : (s :: (flat (chs ++ more) ++ [s])).flatMap split = (s :: ds.flatMap Diff.text) ++ e :: post := by
    have : s :: (flat (chs ++ more) ++ [s]) = [s] ++ (flat chs ++ (flat more ++ [s])) := by simp [flat]
    rw [this, List.flatMap_append, List.flatMap_append, he1, d2]
    simp [hs1]
  obtain ⟨as, a, rest, post', e1, e2, e3, e4, e5, e6⟩ := wire_find (ms := ms) (by rw [hms]; exact hall)
  have hin : ∀ rr ∈ s :: ds.flatMap Diff.text, inZone c rr = true := by
    intro rr hr
    rcases List.mem_cons.mp hr with k | k
    · rw [k]; exact hsin
    · exact d6 rr k
  have hys : (lookup y (soaKey c.apex)).isSome := hyz.symm.isSome hzs
  obtain ⟨sr, hsr⟩ := Option.isSome_iff_exists.mp hys
  obtain ⟨u0, k0, k1, _, k2, k3, k4, _⟩ := init_ok (s := c.strict) wy hsr
  obtain ⟨u, q1, q2⟩ := apply_history h wz (u := u0) k1 (by rw [k2]; exact wy) k3 (by rw [k2]; exact k4) (by rw [k2]; exact hyz)
  refine ⟨u.zone, q2, as, a, rest, s :: ds.flatMap Diff.text, e, post', s, ds, e1, e2, e3, e4, e5, e6, ?_, ⟨hst, ?_, d4, ?_, ?_⟩, he3, he2, he4, ?_, ?_⟩
  · rw [List.filter_eq_self.mpr hin]
  · intro e
    rw [e] at d3
    exact hne (List.length_eq_zero_iff.mp d3.symm)
  · intro d hd
    obtain ⟨ch, hc, hf⟩ := d5 d (List.mem_of_mem_tail hd)
    exact rrEqual_serial (hser ch hc _ hf)
  · intro hb
    rw [hb] at hm
    simp only [if_true] at hm
    rw [hm.1] at d3
    obtain ⟨d, hd⟩ := List.length_eq_one_iff.mp d3
    rw [hd]; rfl
  · rw [List.filter_eq_self.mpr hin]
    rw [hall, total_append] at hsz
    refine Nat.le_trans (Nat.div_le_div_right ?_) hsz
    simp [total]
  · exact ⟨y, u0, u, hy, k0, by rw [d1]; exact q1, rfl, hok _ q2⟩

end Knot.Xfr
