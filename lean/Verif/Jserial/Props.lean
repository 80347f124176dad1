import Verif.Jserial.Lemmas2
/-!
# C36: chunks of changesets in the journal
-/
namespace Knot
open Jserial

/-- C36, the chunks: whatever the threshold and whatever was in the memory, the RRsets given are written as
their parts one after another, header and records, cut only between parts, into chunks that are not empty,
not above the maximum and hold nothing else. -/
theorem C36_chunks {thresh max : Nat} {junk : Nat → Bytes} (hj : ∀ n, (junk n).length = n) (hm : Fits max)
    {src : List Rr} (hw : ∀ r ∈ src, Wf r) :
    ∃ g : List (List Bytes), write thresh max junk src = .ok (g.map List.flatten) ∧
      g.flatten = src.flatMap (fun r => (List.range (r.rrs.length + 1)).map (part r)) ∧
      ∀ c ∈ g.map List.flatten, c ≠ [] ∧ c.length ≤ max := by
  obtain ⟨g, e1, e2, e3⟩ := write_spec (thresh := thresh) hj hm hw
  refine ⟨g, e1, e2, ?_⟩
  intro c hc
  obtain ⟨x, hx, rfl⟩ := List.mem_map.mp hc
  refine ⟨?_, (e3 x hx).2⟩
  have hx1 := (e3 x hx).1
  intro he
  cases x with
  | nil => exact hx1 rfl
  | cons y x =>
    simp only [List.flatten_cons, List.append_eq_nil_iff] at he
    have : y ∈ allParts src := by rw [← e2]; exact List.mem_flatten.mpr ⟨_, hx, by simp⟩
    simp only [allParts, List.mem_flatMap, todo, List.mem_map] at this
    obtain ⟨r, _, n, _, rfl⟩ := this
    exact part_ne r n he.1

/-- C36, RRsets: what was written is read back, whatever the threshold. -/
theorem C36_roundtrip {thresh max : Nat} {junk : Nat → Bytes} (hj : ∀ n, (junk n).length = n) (hm : Fits max)
    {src : List Rr} (hw : ∀ r ∈ src, Wf r) :
    ∃ cs, write thresh max junk src = .ok cs ∧ ∀ fuel, src.length < fuel → readAll fuel ([], cs) = .ok src := by
  obtain ⟨g, e1, e2, e3⟩ := write_spec (thresh := thresh) hj hm hw
  exact ⟨_, e1, fun fuel hf => readAll_spec src fuel _ hw ⟨[], g, rfl, fun x hx => (e3 x hx).1, e2⟩ hf⟩

/-- C36, changesets: a changeset of the zone, with SOAs of its apex and no other apex SOA, is read back. One
without the original SOA has nothing to remove. -/
theorem C36_changeset {thresh max : Nat} {junk : Nat → Bytes} (hj : ∀ n, (junk n).length = n) (hm : Fits max)
    {apex : Bytes} {ch : Ch} (hw : ∀ r ∈ chStream ch, Wf r)
    (hto : ch.soaTo.type = 6 ∧ ch.soaTo.owner = apex)
    (hrem : ∀ r ∈ ch.rem, ¬ (r.type = 6 ∧ r.owner = apex)) (hadd : ∀ r ∈ ch.add, ¬ (r.type = 6 ∧ r.owner = apex))
    (hnone : ch.soaFrom = none → ch.rem = []) :
    ∃ cs, write thresh max junk (chStream ch) = .ok cs ∧
      ∀ fuel, (chStream ch).length < fuel → readChangeset apex fuel cs = .ok ch := by
  obtain ⟨cs, e1, e2⟩ := C36_roundtrip (thresh := thresh) hj hm hw
  refine ⟨cs, e1, fun fuel hf => ?_⟩
  rw [readChangeset, e2 fuel hf, Res.bind_ok]
  have hs : isApexSoa apex ch.soaTo = true := by simp [isApexSoa, hto]
  have hn : ∀ l : List Rr, (∀ r ∈ l, ¬ (r.type = 6 ∧ r.owner = apex)) → ∀ r ∈ l, isApexSoa apex r = false := by
    intro l h r hr
    have := h r hr
    simp only [isApexSoa, Bool.and_eq_false_iff, decide_eq_false_iff_not]
    by_cases h6 : r.type = 6
    · exact .inr (fun q => this ⟨h6, q⟩)
    · exact .inl h6
  cases hf : ch.soaFrom with
  | none =>
    simp only [chStream, hf]
    rw [splitLoop_tail apex _ _ _ _ (hn _ hadd)]
    have := hnone hf
    cases ch
    simp_all
  | some s =>
    simp only [chStream, hf]
    rw [splitLoop_two apex hs (hn _ hadd) _ _ _ (hn _ hrem)]
    cases ch
    simp_all

/-- C36, whole zones: the zone is read back as the SOA and the other RRsets in their order. -/
theorem C36_zone {thresh max : Nat} {junk : Nat → Bytes} (hj : ∀ n, (junk n).length = n) (hm : Fits max)
    {apex : Bytes} {soa : Rr} {nodes : List (Bool × List Rr)} (hsoa : Wf soa) (hw : ∀ n ∈ nodes, ∀ r ∈ n.2, Wf r)
    (hto : soa.type = 6 ∧ soa.owner = apex)
    (hap : ∀ n ∈ nodes, ∀ r ∈ n.2, (n.1 = true ↔ r.owner = apex)) :
    ∃ cs add, write thresh max junk (zoneStream soa nodes) = .ok cs ∧
      (∀ fuel, (zoneStream soa nodes).length < fuel → readChangeset apex fuel cs = .ok ⟨none, [], soa, add⟩) ∧
      add = (nodes.flatMap (·.2)).filter (fun r => ¬ (r.type = 6 ∧ r.owner = apex)) := by
  have hadd : nodes.flatMap (fun n => n.2.filter (fun r => !(n.1 && decide (r.type = 6)))) =
      (nodes.flatMap (·.2)).filter (fun r => ¬ (r.type = 6 ∧ r.owner = apex)) := by
    rw [List.filter_flatMap]
    clear hw
    induction nodes with
    | nil => rfl
    | cons n nodes ih =>
      rw [List.flatMap_cons, List.flatMap_cons, ih (fun m hm => hap m (by simp [hm]))]
      congr 1
      apply List.filter_congr
      intro r hr
      have := hap n (by simp) r hr
      cases hb : n.1 <;> simp_all
  have hst : zoneStream soa nodes = chStream ⟨none, [], soa, nodes.flatMap (fun n => n.2.filter (fun r => !(n.1 && decide (r.type = 6))))⟩ := rfl
  obtain ⟨cs, e1, e2⟩ := C36_changeset (thresh := thresh) (apex := apex) hj hm
    (ch := ⟨none, [], soa, nodes.flatMap (fun n => n.2.filter (fun r => !(n.1 && decide (r.type = 6))))⟩)
    (by
      intro r hr
      rw [← hst, zoneStream, List.mem_cons] at hr
      rcases hr with q | q
      · rw [q]; exact hsoa
      · obtain ⟨n, hn, q⟩ := List.mem_flatMap.mp q
        exact hw n hn r (List.mem_filter.mp q).1)
    hto (by simp)
    (by
      intro r hr
      simp only [hadd, List.mem_filter, decide_eq_true_eq] at hr
      exact hr.2)
    (fun _ => rfl)
  exact ⟨cs, _, e1, e2, hadd⟩

/-- C36, zone differences: at every node, for every type but the SOA at the apex, what is written as removed
are records of the old zone, with their TTL; what is written as added are records of the new one, with
their TTL, that the old one lacks or that were removed; and the old records without the removed ones and with
the added ones are the new ones. If anything stays, the TTL is the same. -/
theorem C36_diff (n : Node) (h : NodeOk n.rrs) (ho : NodeOk n.other) (t : Nat) (ht : ¬ (n.apex = true ∧ t = 6)) :
    (∀ x, x ∈ recs n.rrs t ↔ (x ∈ recs n.other t ∧ x ∉ recs (diffNode n.reverse) t) ∨ x ∈ recs (diffNode n) t) ∧
    (∀ x, x ∈ recs (diffNode n.reverse) t → x ∈ recs n.other t) ∧
    (∀ x, x ∈ recs (diffNode n) t → x ∈ recs n.other t → x ∈ recs (diffNode n.reverse) t) ∧
    (∀ v, ttl (diffNode n) t = some v → ttl n.rrs t = some v) ∧
    (∀ v, ttl (diffNode n.reverse) t = some v → ttl n.other t = some v) ∧
    (∀ x, x ∈ recs n.other t → x ∉ recs (diffNode n.reverse) t → ttl n.rrs t = ttl n.other t) ∧
    (∀ r ∈ diffNode n, r.rrs ≠ []) := by
  have e1 := diffNode_get h.1 t
  have e2 := diffNode_get (n := n.reverse) ho.1 t
  have ha : n.reverse.apex = n.apex := rfl
  have hr : n.reverse.rrs = n.other := rfl
  have hor : n.reverse.other = n.rrs := rfl
  have hne : ∀ r ∈ diffNode n, r.rrs ≠ [] := by
    intro r hr
    simp only [diffNode, List.mem_filterMap] at hr
    obtain ⟨r0, hr0, hd⟩ := hr
    have := h.2 r0 hr0
    split at hd
    · cases hd
    · split at hd
      · cases hd; exact this
      · split at hd
        · split at hd
          · cases hd
          · rename_i hns
            cases hd
            simp only [List.all_eq_true, decide_eq_true_eq, Classical.not_forall] at hns
            obtain ⟨x, hx, hnx⟩ := hns
            exact List.ne_nil_of_mem (Changeset.mem_subtract.mpr ⟨hx, hnx⟩)
        · cases hd; exact this
  have key : ∀ (a b : Option Rr), nodeGet n.rrs t = a → nodeGet n.other t = b →
      nodeGet (diffNode n) t = a.bind (diffOne n) ∧ nodeGet (diffNode n.reverse) t = b.bind (diffOne n.reverse) := by
    intro a b q1 q2
    rw [e1, e2, q1, hr, q2]
    exact ⟨rfl, rfl⟩
  refine ⟨?_, ?_, ?_, ?_, ?_, ?_, hne⟩ <;>
  · try unfold recs
    try unfold ttl
    cases q1 : nodeGet n.rrs t with
    | none =>
      cases q2 : nodeGet n.other t with
      | none =>
        obtain ⟨k1, k2⟩ := key _ _ q1 q2
        simp [k1, k2]
      | some o =>
        obtain ⟨k1, k2⟩ := key _ _ q1 q2
        have t2 := (nodeGet_mem q2).2
        have hd : diffOne n.reverse o = some o := by
          simp only [diffOne, ha, hor, t2, q1]
          rw [if_neg ht]
        simp only [Option.bind_none, Option.bind_some, hd] at k1 k2
        simp [k1, k2]
    | some r =>
      have t1 := (nodeGet_mem q1).2
      cases q2 : nodeGet n.other t with
      | none =>
        obtain ⟨k1, k2⟩ := key _ _ q1 q2
        have hd : diffOne n r = some r := by
          simp only [diffOne, t1, q2]
          rw [if_neg ht]
        simp only [Option.bind_none, Option.bind_some, hd] at k1 k2
        simp [k1, k2]
      | some o =>
        obtain ⟨k1, k2⟩ := key _ _ q1 q2
        have t2 := (nodeGet_mem q2).2
        have hd1 : diffOne n r = if o.ttl = r.ttl then if r.rrs.all (fun x => decide (x ∈ o.rrs)) then none
            else some { r with rrs := Changeset.subtract r.rrs o.rrs } else some r := by
          simp only [diffOne, t1, q2]
          rw [if_neg ht]
        have hd2 : diffOne n.reverse o = if r.ttl = o.ttl then if o.rrs.all (fun x => decide (x ∈ r.rrs)) then none
            else some { o with rrs := Changeset.subtract o.rrs r.rrs } else some o := by
          simp only [diffOne, ha, hor, t2, q1]
          rw [if_neg ht]
        simp only [Option.bind_some, hd1, hd2] at k1 k2
        try rw [k1]
        try rw [k2]
        simp only [Option.map_some, Option.getD_some]
        by_cases hv : o.ttl = r.ttl
        · try rw [if_pos hv]
          try rw [if_pos hv.symm]
          by_cases s1 : r.rrs.all (fun x => decide (x ∈ o.rrs)) = true <;>
          by_cases s2 : o.rrs.all (fun x => decide (x ∈ r.rrs)) = true <;>
          simp only [s1, s2, if_true, if_false, Bool.false_eq_true] <;>
          simp only [List.all_eq_true, decide_eq_true_eq] at s1 s2 <;>
          simp [Changeset.mem_subtract, hv] <;> grind
        · try rw [if_neg hv]
          try rw [if_neg (fun q => hv q.symm)]
          simp
          try grind

theorem Jserial.diffNode_wf {n : Node} (hw : ∀ r ∈ n.rrs, Wf r) {r : Rr} (hr : r ∈ diffNode n) :
    Wf r ∧ ∃ r0 ∈ n.rrs, r.owner = r0.owner ∧ r.type = r0.type ∧ ¬ (n.apex = true ∧ r.type = 6) := by
  simp only [diffNode, List.mem_filterMap] at hr
  obtain ⟨r0, hr0, hd⟩ := hr
  have h0 := hw r0 hr0
  split at hd
  · cases hd
  · rename_i hap
    split at hd
    · cases hd; exact ⟨h0, _, hr0, rfl, rfl, hap⟩
    · split at hd
      · split at hd
        · cases hd
        · rename_i hns
          cases hd
          refine ⟨?_, _, hr0, rfl, rfl, hap⟩
          obtain ⟨h1, h2, h3, h4, h5, h6, h7, h8⟩ := h0
          simp only [List.all_eq_true, decide_eq_true_eq, Classical.not_forall] at hns
          obtain ⟨x, hx, hnx⟩ := hns
          refine ⟨h1, h2, h3, h4, List.ne_nil_of_mem (Changeset.mem_subtract.mpr ⟨hx, hnx⟩), ?_, ?_,
            Changeset.canon_subtract _ h8⟩
          · exact Nat.lt_of_le_of_lt (List.length_filter_le _ _) h6
          · intro y hy
            exact h7 y (Changeset.mem_subtract.mp hy).1
      · cases hd; exact ⟨h0, _, hr0, rfl, rfl, hap⟩

/-- C36, zone differences: what is read back are the SOAs and, node by node, the removals and additions of
C36_diff. -/
theorem C36_difference {thresh max : Nat} {junk : Nat → Bytes} (hj : ∀ n, (junk n).length = n) (hm : Fits max)
    {apex : Bytes} {soaOld soaNew : Rr} {nodes : List Node} (hso : Wf soaOld) (hsn : Wf soaNew)
    (hw : ∀ n ∈ nodes, ∀ r ∈ n.rrs ++ n.other, Wf r ∧ (n.apex = true ↔ r.owner = apex))
    (hto : soaNew.type = 6 ∧ soaNew.owner = apex) :
    ∃ cs, write thresh max junk (diffStream soaOld soaNew nodes) = .ok cs ∧
      ∀ fuel, (diffStream soaOld soaNew nodes).length < fuel → readChangeset apex fuel cs =
        .ok ⟨some soaOld, nodes.flatMap (fun n => diffNode n.reverse), soaNew, nodes.flatMap diffNode⟩ := by
  have hst : diffStream soaOld soaNew nodes =
      chStream ⟨some soaOld, nodes.flatMap (fun n => diffNode n.reverse), soaNew, nodes.flatMap diffNode⟩ := by
    simp [diffStream, chStream, List.flatMap_map]
  have add : ∀ n ∈ nodes, ∀ r ∈ diffNode n, Wf r ∧ ¬ (r.type = 6 ∧ r.owner = apex) := by
    intro n hn r hr
    obtain ⟨h1, r0, h2, h3, h4, h5⟩ := diffNode_wf (fun q hq => (hw n hn q (by simp [hq])).1) hr
    refine ⟨h1, fun q => h5 ⟨?_, q.1⟩⟩
    rw [(hw n hn r0 (by simp [h2])).2, ← h3]; exact q.2
  have rem : ∀ n ∈ nodes, ∀ r ∈ diffNode n.reverse, Wf r ∧ ¬ (r.type = 6 ∧ r.owner = apex) := by
    intro n hn r hr
    have hw' : ∀ q ∈ n.reverse.rrs, Wf q := fun q hq => (hw n hn q (by simp [Node.reverse] at hq; simp [hq])).1
    obtain ⟨h1, r0, h2, h3, h4, h5⟩ := diffNode_wf hw' hr
    refine ⟨h1, fun q => h5 ⟨?_, q.1⟩⟩
    have : n.reverse.apex = n.apex := rfl
    rw [this, (hw n hn r0 (by simp [Node.reverse] at h2; simp [h2])).2, ← h3]; exact q.2
  rw [hst]
  refine C36_changeset hj hm ?_ hto ?_ ?_ (by simp)
  · intro r hr
    simp only [chStream, List.mem_cons, List.mem_append, List.mem_flatMap] at hr
    rcases hr with q | ⟨n, hn, q⟩ | q | ⟨n, hn, q⟩
    · rw [q]; exact hso
    · exact (rem n hn r q).1
    · rw [q]; exact hsn
    · exact (add n hn r q).1
  · intro r hr
    obtain ⟨n, hn, q⟩ := List.mem_flatMap.mp hr
    exact (rem n hn r q).2
  · intro r hr
    obtain ⟨n, hn, q⟩ := List.mem_flatMap.mp hr
    exact (add n hn r q).2

/-! ## Cases -/

namespace Jserial

/-- example. -/
abbrev dApex : Bytes := [7, 101, 120, 97, 109, 112, 108, 101, 0]
abbrev dWww : Bytes := [3, 119, 119, 119, 7, 101, 120, 97, 109, 112, 108, 101, 0]
abbrev dSoa (n : UInt8) : Rr := ⟨dApex, 6, 1, 3600, [[0, 0, 0, 0, 0, n]]⟩
abbrev dCh : Ch :=
  ⟨some (dSoa 1), [⟨dWww, 1, 1, 300, [[192, 0, 2, 1], [192, 0, 2, 2]]⟩], dSoa 2, [⟨dWww, 28, 1, 300, [[1], [1, 2], [2]]⟩]⟩

theorem dWf : ∀ r ∈ chStream dCh, Wf r := by
  have ha : ∃ n, Dname.Valid n ∧ dApex = Dname.wire n :=
    ⟨[[101, 120, 97, 109, 112, 108, 101]], by unfold Dname.Valid; decide, by decide⟩
  have hw : ∃ n, Dname.Valid n ∧ dWww = Dname.wire n :=
    ⟨[[119, 119, 119], [101, 120, 97, 109, 112, 108, 101]], by unfold Dname.Valid; decide, by decide⟩
  intro r hr
  simp only [chStream, List.mem_cons, List.cons_append, List.nil_append, List.not_mem_nil, or_false] at hr
  rcases hr with rfl | rfl | rfl | rfl
  · exact ⟨ha, by decide, by decide, by decide, by decide, by decide, by decide, by decide⟩
  · exact ⟨hw, by decide, by decide, by decide, by decide, by decide, by decide, by decide⟩
  · exact ⟨ha, by decide, by decide, by decide, by decide, by decide, by decide, by decide⟩
  · exact ⟨hw, by decide, by decide, by decide, by decide, by decide, by decide, by decide⟩

/-- The hypotheses of C36_chunks, C36_roundtrip and C36_changeset are met, with the real constants. -/
example : ∃ cs, write (15 * 1024 - 32) (70 * 1024 - 32) (fun n => List.replicate n 0xff) (chStream dCh) = .ok cs ∧
    ∀ fuel, (chStream dCh).length < fuel → readChangeset dApex fuel cs = .ok dCh :=
  C36_changeset (by simp) (by unfold Fits; decide) dWf (by decide) (by decide) (by decide) (by decide)

/-- Whether there are as many chunks and the changeset is read back. -/
def dCheck (k : Nat) : Res (List Bytes) → Bool
  | .ok cs => decide (cs.length = k) && decide (readChangeset dApex 6 cs = .ok dCh)
  | _ => false

/-- The same with a chunk for each 20 bytes: there are five. -/
example : dCheck 5 (write 20 (2 ^ 17) (fun n => List.replicate n 0xff) (chStream dCh)) = true := by decide +kernel

/-- One node in three ways: a type removed, one with other records, one with another TTL, one new. -/
abbrev dNode : Node :=
  ⟨false, [⟨dWww, 1, 1, 300, [[1], [2]]⟩, ⟨dWww, 28, 1, 60, [[1]]⟩, ⟨dWww, 16, 1, 5, [[7]]⟩],
   [⟨dWww, 1, 1, 300, [[2], [3]]⟩, ⟨dWww, 28, 1, 300, [[1]]⟩, ⟨dWww, 13, 1, 5, [[7]]⟩]⟩

example : NodeOk dNode.rrs ∧ NodeOk dNode.other ∧
    diffNode dNode = [⟨dWww, 1, 1, 300, [[1]]⟩, ⟨dWww, 28, 1, 60, [[1]]⟩, ⟨dWww, 16, 1, 5, [[7]]⟩] ∧
    diffNode dNode.reverse = [⟨dWww, 1, 1, 300, [[3]]⟩, ⟨dWww, 28, 1, 300, [[1]]⟩, ⟨dWww, 13, 1, 5, [[7]]⟩] := by
  decide +kernel

/-- The hypotheses of C36_difference are met for the node of the example. -/
example : ∀ r ∈ dNode.rrs ++ dNode.other, Wf r ∧ (dNode.apex = true ↔ r.owner = dApex) := by
  have hw : ∃ n, Dname.Valid n ∧ dWww = Dname.wire n :=
    ⟨[[119, 119, 119], [101, 120, 97, 109, 112, 108, 101]], by unfold Dname.Valid; decide, by decide⟩
  intro r hr
  simp only [dNode, List.mem_cons, List.cons_append, List.nil_append, List.not_mem_nil, or_false] at hr
  rcases hr with rfl | rfl | rfl | rfl | rfl | rfl <;>
  exact ⟨⟨hw, by decide, by decide, by decide, by decide, by decide, by decide, by decide⟩, by decide⟩

end Jserial

end Knot
