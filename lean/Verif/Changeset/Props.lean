import Verif.Changeset.Lemmas5
import Verif.Rdataset.Props
/-!
# C14: changesets and sequential changes of a zone

`Effects apex z calls z'` (Spec) says that additions of new records with a TTL that suits their
RRset, removals of existing records with their TTL, and replacements of the SOA, carried out one
after another on sets of records, lead from `z` to `z'`. `Ch.Reorder` covers every order in which the
trees of a changeset may be walked.
-/
namespace Knot
open Changeset
open Knot.Dname (Name)

/-- C14. The records of an RRset are treated as sets, as the rdataset functions do (C09): the model's
union and difference are what knot_rdataset_merge() and knot_rdataset_subtract() compute. -/
theorem C14_rdataset {a b : Rdataset.RS} {l m : List Bytes} (ha : Rdataset.Holds a l)
    (hb : Rdataset.Holds b m) :
    (∀ rs, Rdataset.merge a b = .ok (rs, none) → Rdataset.Holds rs (merge l m)) ∧
    (∀ a' b', Rdataset.subtract a b false = .ok (a', b') → Rdataset.Holds a' (subtract l m)) := by
  constructor
  · intro rs h
    obtain ⟨rs', l', st, e, hh, hc⟩ := C09_merge ha hb
    rw [h] at e
    simp only [Res.ok.injEq, Prod.mk.injEq] at e
    obtain ⟨e1, e2⟩ := e
    subst e1
    rcases hc with ⟨_, hm⟩ | ⟨hs, _⟩
    · have : l' = merge l m := Rdataset.canon_ext hh.1 (canon_merge ha.1)
        (fun x => (hm x).trans mem_merge.symm)
      exact this ▸ hh
    · rw [hs] at e2; simp at e2
  · intro a' b' h
    obtain ⟨a2, b2, l', m', e, hh, _, hm, _⟩ := C09_subtract ha hb false (by simp)
    rw [h] at e
    simp only [Res.ok.injEq, Prod.mk.injEq] at e
    have : l' = subtract l m := Rdataset.canon_ext hh.1 (canon_subtract _ ha.1)
      (fun x => (hm x).trans mem_subtract.symm)
    rw [e.1, ← this]
    exact hh

/-- C14. Any sequence of fair changes: the update succeeds (strict or not), its zone is what the
changes lead to one by one, and the changeset it recorded, applied to the original zone in any order
by a strict or a lenient update, gives the same zone. Excluded (hence partial): adding records that
exist, removing records that do not, and TTLs that differ from those of the RRset; see
`C14_lost_removal`, `C14_lost_ttl`, `C14_skipped`, `C14_not_removed`. -/
theorem C14_record_partial {apex : Name} {z z' : Contents} {calls : List Call} (wz : Wf z)
    (hz : (lookup z (soaKey apex)).isSome) (h : Effects apex z calls z') (wz' : Wf z')
    (strict strict' : Bool) :
    ∃ u0 u, Update.init apex strict z = .ok u0 ∧ u0.run calls = .ok u ∧ Same u.zone z' ∧
      ∀ ch, u.change.Reorder ch →
        ∃ w0 w, Update.init apex strict' z = .ok w0 ∧ w0.applyChangeset ch = .ok w ∧
          Same w.zone z' := by
  obtain ⟨r, hr⟩ := Option.isSome_iff_exists.mp hz
  obtain ⟨u0, e0, ea, _, ez, ew, el, _⟩ := init_ok (s := strict) wz hr
  obtain ⟨hf, hs⟩ := fair_of_effects h z wz (Same.refl z)
  obtain ⟨u, eu, e2, ewf, ecw, _, elds, _⟩ := run_fair (u := u0) (z := z) (cs := calls)
    (by rw [ez]; exact wz) (by rw [ea]; exact ew) (by rw [ea, ez]; exact el) (by rw [ea, ez]; exact hf)
  rw [ez] at e2
  rw [ea] at ecw elds
  refine ⟨u0, u, e0, eu, by rw [e2]; exact hs, fun ch hp => ?_⟩
  obtain ⟨w0, w, i0, iw, is, _⟩ := replay_leads wz ewf (ecw.reorder hp) hz (elds.reorder ecw hp) strict'
  exact ⟨w0, w, i0, iw, is.trans (by rw [e2]; exact hs)⟩

/-- C14. Under the same conditions the recorded changeset applied in reverse to the new zone restores
the original one. -/
theorem C14_reverse_partial {apex : Name} {z z' : Contents} {calls : List Call} (wz : Wf z)
    (hz : (lookup z (soaKey apex)).isSome) (h : Effects apex z calls z') (strict strict' : Bool) :
    ∃ u0 u, Update.init apex strict z = .ok u0 ∧ u0.run calls = .ok u ∧
      ∀ ch, u.change.Reorder ch →
        ∃ w0 w, Update.init apex strict' u.zone = .ok w0 ∧ w0.applyReverse ch = .ok w ∧
          Same w.zone z := by
  obtain ⟨r, hr⟩ := Option.isSome_iff_exists.mp hz
  obtain ⟨u0, e0, ea, _, ez, ew, el, esf⟩ := init_ok (s := strict) wz hr
  obtain ⟨hf, hs⟩ := fair_of_effects h z wz (Same.refl z)
  obtain ⟨u, eu, e2, ewf, ecw, efr, elds, _⟩ := run_fair (u := u0) (z := z) (cs := calls)
    (by rw [ez]; exact wz) (by rw [ea]; exact ew) (by rw [ea, ez]; exact el) (by rw [ea, ez]; exact hf)
  rw [ea] at ecw elds
  rw [esf] at efr
  refine ⟨u0, u, e0, eu, fun ch hp => ?_⟩
  have hl := elds.reorder ecw hp
  have hsw := hl.swap hr (by rw [← hp.2.2.1]; exact efr)
  have hzu : (lookup u.zone (soaKey apex)).isSome := by
    have := elds.2
    cases hx : lookup u.zone (soaKey apex) with
    | some _ => rfl
    | none =>
      rw [hx] at this
      cases hto : u.change.soaTo with
      | none => rw [hto, hr] at this; exact absurd this (by simp [SameRRs])
      | some x => rw [hto] at this; exact absurd this (by simp [SameRRs])
  obtain ⟨w0, w, i0, iw, is, _⟩ := replay_leads ewf wz (ecw.reorder hp).swap hzu hsw strict'
  exact ⟨w0, w, i0, iw, is⟩

/-- C14. Merging: if a strict update accepts the first changeset on `z` and then the second one on the
result, and their TTLs suit the zones, the merged changeset is accepted on `z` in any order and
gives the same zone. A second changeset with an SOA to start from but none to end with is excluded:
merging it would drop the SOA of the first one (`C14_merge_soa`). -/
theorem C14_merge_partial {apex : Name} {z : Contents} {ch1 ch2 : Ch} (wz : Wf z)
    (w1 : ch1.Wf apex) (w2 : ch2.Wf apex) {u0 u1 v0 v1 : Update}
    (i1 : Update.init apex true z = .ok u0) (h1 : u0.applyChangeset ch1 = .ok u1) (t1 : ch1.TtlOk z)
    (i2 : Update.init apex true u1.zone = .ok v0) (h2 : v0.applyChangeset ch2 = .ok v1)
    (t2 : ch2.TtlOk u1.zone) (hs : ch2.soaTo = none → ch2.soaFrom = none) :
    (chMerge ch1 ch2).Wf apex ∧ (chMerge ch1 ch2).TtlOk z ∧
    ∀ m, (chMerge ch1 ch2).Reorder m → ∀ strict,
      ∃ w0 w, Update.init apex strict z = .ok w0 ∧ w0.applyChangeset m = .ok w ∧ Same w.zone v1.zone := by
  have f1 := fits_of_strict wz w1 t1 i1 h1
  have soaOf : ∀ {zz : Contents} {u : Update}, Update.init apex true zz = .ok u →
      (lookup zz (soaKey apex)).isSome := by
    intro zz u hi
    unfold Update.init at hi
    split at hi
    · simp at hi
    · rename_i s hs; rw [hs]; rfl
  have hz := soaOf i1
  obtain ⟨hf1, l1⟩ := replay_fits wz w1 hz f1
  obtain ⟨r, hr⟩ := Option.isSome_iff_exists.mp hz
  obtain ⟨u0', e0, ea, _, ez, ew, el, _⟩ := init_ok (s := true) wz hr
  rw [i1, Res.ok.injEq] at e0
  subst e0
  obtain ⟨u1', eu, e2, ewf, _⟩ := run_fair (u := u0) (z := z) (cs := ch1.walk)
    (by rw [ez]; exact wz) (by rw [ea]; exact ew) (by rw [ea, ez]; exact el) (by rw [ea, ez]; exact hf1)
  rw [show u0.run ch1.walk = .ok u1 from h1, Res.ok.injEq] at eu
  subst eu
  rw [ez] at e2
  have f2 := fits_of_strict ewf w2 t2 i2 h2
  have hz1 := soaOf i2
  obtain ⟨hf2, l2⟩ := replay_fits ewf w2 hz1 f2
  obtain ⟨r1, hr1⟩ := Option.isSome_iff_exists.mp hz1
  obtain ⟨v0', e0, va, _, vz, vw, vl, _⟩ := init_ok (s := true) ewf hr1
  rw [i2, Res.ok.injEq] at e0
  subst e0
  obtain ⟨v1', eu, v2, vwf, _⟩ := run_fair (u := v0) (z := u1.zone) (cs := ch2.walk)
    (by rw [vz]; exact ewf) (by rw [va]; exact vw) (by rw [va, vz]; exact vl) (by rw [va, vz]; exact hf2)
  rw [show v0.run ch2.walk = .ok v1 from h2, Res.ok.injEq] at eu
  subst eu
  rw [vz] at v2
  obtain ⟨lm, wm, _⟩ := leads_merge (by rw [e2]; exact l1) ewf w1 w2 f2 hs
  refine ⟨wm, lm.fits.ttlOk wm, fun m hp strict => ?_⟩
  rw [← v2] at lm
  obtain ⟨w0, w, j0, jw, js, _⟩ := replay_leads wz vwf (wm.reorder hp) hz (lm.reorder wm hp) strict
  exact ⟨w0, w, j0, jw, js⟩

/-! ## A zone for examples -/

namespace Changeset.Ex

def apex : Name := [[97]]
def soa1 : RRset := (soaKey apex, ⟨3600, [[1]]⟩)
def soa2 : RRset := (soaKey apex, ⟨3600, [[2]]⟩)
/-- `www.a` with records of type A. -/
def www : Key := ⟨false, [[119], [97]], 1⟩
def zone : Contents := [soa1, (www, ⟨300, [[10], [11]]⟩)]

theorem zone_wf : Wf zone := by decide +kernel

end Changeset.Ex
open Changeset.Ex

/-- The hypotheses of `C14_record_partial` are met: one of two addresses is removed, another one is
added, the serial is increased. -/
example : ∃ z', Effects apex zone [.remove (www, ⟨300, [[10]]⟩), .add (www, ⟨300, [[12]]⟩), .add soa2] z' ∧
    Wf z' ∧ lookup z' www = some ⟨300, [[11], [12]]⟩ ∧ lookup z' (soaKey apex) = some ⟨3600, [[2]]⟩ := by
  have good : ∀ b : UInt8, Good ⟨300, [[b]]⟩ := fun b => ⟨by simp, by simp [Rdataset.Canon]⟩
  have hw1 : Wf (zRem zone (www, ⟨300, [[10]]⟩)) := zone_wf.zRem _
  have hw2 : Wf (zAdd (zRem zone (www, ⟨300, [[10]]⟩)) (www, ⟨300, [[12]]⟩)) :=
    hw1.zAdd (rr := (www, ⟨300, [[12]]⟩)) (by decide) (good 12)
  have hw3 : Wf (zSoa (zAdd (zRem zone (www, ⟨300, [[10]]⟩)) (www, ⟨300, [[12]]⟩)) soa2) :=
    hw2.zSoa (rr := soa2) (soaKey_ok _) ⟨by simp [soa2], by simp [soa2, Rdataset.Canon]⟩
  refine ⟨_, .cons (.remove ⟨by decide, good 10, by decide, ⟨300, [[10], [11]]⟩, by decide, by decide, .inr rfl⟩ ?_) hw1
    (.cons (.add ⟨by decide, good 12, by decide, ?_⟩ ?_) hw2
      (.cons (.soa ⟨by simp, by simp [Rdataset.Canon]⟩ (by decide) ?_) hw3 .nil)), hw3, by decide, by decide⟩
  · constructor
    · intro k x
      rw [lookup_zRem zone_wf]
      by_cases e : k = www
      · rw [if_pos e, mem_recs_minus]; simp [e]
      · rw [if_neg e]; simp [e]
    · intro k a b ha hb
      rw [lookup_zRem zone_wf] at hb
      split at hb
      · obtain ⟨d, hd, e⟩ := minus_ttl hb
        rw [ha, Option.some.injEq] at hd
        exact .inr (by rw [e, hd])
      · rw [ha, Option.some.injEq] at hb
        exact .inr (by rw [hb])
  · intro d hd
    have : some d = some (⟨300, [[11]]⟩ : RRs) := hd.symm.trans (by decide)
    rw [Option.some.injEq] at this
    subst this
    exact ⟨by decide, .inr rfl⟩
  · refine ⟨?_, ?_, ?_⟩
    · intro k x
      rw [lookup_zAdd hw1]
      by_cases e : k = www
      · rw [if_pos e]
        show x ∈ (nodeAdd _ _ _).data ↔ _
        rw [mem_nodeAdd]; simp [e]
      · rw [if_neg e]; simp [e]
    · intro k a b hne ha hb
      rw [lookup_zAdd hw1, if_neg hne, ha, Option.some.injEq] at hb
      exact .inr (by rw [hb])
    · intro b hb
      rw [lookup_zAdd hw1, if_pos rfl, Option.some.injEq] at hb
      subst hb
      exact nodeAdd_ttl (hw1.goodO _) _
  · intro k
    rw [lookup_zSoa hw2]
    exact SameRRs.refl _ _

/-- The hypotheses of `C14_merge_partial` are met: the second changeset takes back half of what the
first one added and changes a TTL. -/
example :
    let ch1 : Ch := ⟨[(www, ⟨300, [[12], [13]]⟩)], [(www, ⟨300, [[10]]⟩)], some soa1, some soa2⟩
    let ch2 : Ch := ⟨[(www, ⟨60, [[11], [12]]⟩)], [(www, ⟨300, [[11], [12], [13]]⟩)], some soa2, some soa1⟩
    ((Update.init apex true zone).bind (·.applyChangeset ch1)).bind
        (fun u => (Update.init apex true u.zone).bind (fun v =>
          (v.applyChangeset ch2).bind (fun v => .ok (v.zone, (chMerge ch1 ch2).add, (chMerge ch1 ch2).rem)))) =
      .ok ([(www, ⟨60, [[11], [12]]⟩), soa1], [(www, ⟨60, [[11], [12]]⟩)], [(www, ⟨300, [[10], [11]]⟩)]) := by
  decide +kernel

/-! ## What is excluded -/

/-- C14, finding. Adding a record that exists and removing it in the same (not strict) update removes it
from the zone, but the recorded changeset is empty: applied to the original zone it changes nothing. -/
theorem C14_lost_removal :
    ∃ u, (Update.init apex false zone).bind
        (·.run [.add (www, ⟨300, [[10]]⟩), .remove (www, ⟨300, [[10]]⟩)]) = .ok u ∧
      lookup u.zone www = some ⟨300, [[11]]⟩ ∧ u.change.isEmpty = true ∧
      ∃ w, (Update.init apex false zone).bind (·.applyChangeset u.change) = .ok w ∧
        lookup w.zone www = some ⟨300, [[10], [11]]⟩ := by
  refine ⟨_, rfl, by decide +kernel, by decide +kernel, _, rfl, by decide +kernel⟩

/-- C14, finding. Adding a record with another TTL changes the TTL of the whole RRset; when that record is
removed again, the new TTL stays in the zone, but the recorded changeset is empty. -/
theorem C14_lost_ttl :
    ∃ u, (Update.init apex true zone).bind
        (·.run [.add (www, ⟨60, [[12]]⟩), .remove (www, ⟨60, [[12]]⟩)]) = .ok u ∧
      lookup u.zone www = some ⟨60, [[10], [11]]⟩ ∧ u.change.isEmpty = true ∧
      ∃ w, (Update.init apex true zone).bind (·.applyChangeset u.change) = .ok w ∧
        lookup w.zone www = some ⟨300, [[10], [11]]⟩ := by
  refine ⟨_, rfl, by decide +kernel, by decide +kernel, _, rfl, by decide +kernel⟩

/-- C14, finding. Adding two records one of which exists succeeds (not strict) without adding the other
one; the changeset says it was added. -/
theorem C14_skipped :
    ∃ u, (Update.init apex false zone).bind (·.run [.add (www, ⟨300, [[10], [12]]⟩)]) = .ok u ∧
      lookup u.zone www = some ⟨300, [[10], [11]]⟩ ∧
      lookup u.change.add www = some ⟨300, [[10], [12]]⟩ := by
  refine ⟨_, rfl, by decide +kernel, by decide +kernel⟩

/-- C14, finding. After an attempt to remove an existing record together with one that does not exist (it
succeeds without effect, not strict) the existing one is removed alone; the recorded changeset
does not remove it. -/
theorem C14_not_removed :
    ∃ u, (Update.init apex false zone).bind
        (·.run [.remove (www, ⟨300, [[10], [12]]⟩), .remove (www, ⟨300, [[10]]⟩)]) = .ok u ∧
      lookup u.zone www = some ⟨300, [[11]]⟩ ∧
      ∃ w, (Update.init apex false zone).bind (·.applyChangeset u.change) = .ok w ∧
        lookup w.zone www = some ⟨300, [[10], [11]]⟩ := by
  refine ⟨_, rfl, by decide +kernel, _, rfl, by decide +kernel⟩

/-- C14, finding. Merging a changeset without a new SOA that knows the old one (as every update does)
drops the new SOA of the first changeset. -/
theorem C14_merge_soa :
    (chMerge ⟨[], [], some soa1, some soa2⟩ ⟨[(www, ⟨300, [[12]]⟩)], [], some soa2, none⟩).soaTo = none := by
  decide +kernel

end Knot
