import Verif.Pktparse.Lemmas5
/-! # Acceptance and delivery of messages -/
namespace Knot.Pktparse
open Knot
open Knot.Dname (Name NameAt Valid wire nameLen lowerName)
open Knot.Rrwire (RR Rec AcceptAt HeadAt encAll slice num)

theorem slice_num_lt {mem : Bytes} {pos : Nat} (h : pos + 2 ≤ mem.length) : num (slice mem pos 2) < 65536 :=
  (be16_num _ (slice_len _ _ _ h)).2

/-- The end of a course that is accepted. -/
theorem finish_facts {keep canon : Bool} {mem : Bytes} {size : Nat} {q : Option Name} {an ns ar : List Rec} {p p' : PP}
    (hs : size ≤ mem.length) (hh : 12 ≤ size) (f : Facts keep canon mem size q an ns ar p) (hf : finish p = .ok p') :
    p' = p ∧ Message mem size q an ns ar ∧ Delivered keep canon mem size q an ns ar p := by
  unfold finish at hf
  split at hf
  · simp at hf
  rename_i c1
  split at hf
  · simp at hf
  rename_i c2
  have hp : p' = p := (Res.ok.inj hf).symm
  obtain ⟨pos, p2, stop, hq, hr, w2, z2, e2, hlo, t2, hst⟩ := f.before
  have room : Room p2 := ⟨by rw [w2]; omega, by rw [w2, z2]; exact hs⟩
  obtain ⟨mo, mt, me0, me⟩ := f.marks
  rw [f.records] at mo mt
  have fo := found_recs mo
  have ft := found_recs mt
  -- TSIG is last
  have last : ∀ pre r post, ar = pre ++ r :: post → r.type = 250 → post = [] := by
    intro pre r post e ht
    have h3 := f.counts.2.2
    have h4 := f.starts.2.2
    have hi : p.tsig = some ((an ++ ns).length + pre.length) := by
      apply (ft _).mpr
      exact ⟨r, by rw [e, List.getElem?_append_right (by omega)]; simp, ht⟩
    by_cases c : p.secCount 2 > 0 ∧ p.tsig ≠ some (p.secPos 2 + (p.secCount 2 - 1))
    · exact absurd ⟨by rw [hi]; simp, c⟩ c1
    · have hpos : p.secCount 2 > 0 := by rw [h3, e]; simp only [List.length_append, List.length_cons]; omega
      have : p.tsig = some (p.secPos 2 + (p.secCount 2 - 1)) := by
        apply Classical.byContradiction
        intro hne; exact c ⟨hpos, hne⟩
      rw [hi, h3, h4, e] at this
      simp only [List.length_append, List.length_cons, Option.some.injEq] at this
      exact List.length_eq_zero_iff.mp (by omega)
  have uniq : ∀ pre r post, ar = pre ++ r :: post → r.type = 41 → ∀ x ∈ pre ++ post, x.type ≠ 41 := by
    intro pre r post e ht x hx hxt
    have hi : p.opt = some ((an ++ ns).length + pre.length) := by
      apply (fo _).mpr
      exact ⟨r, by rw [e, List.getElem?_append_right (by omega)]; simp, ht⟩
    rcases List.mem_append.mp hx with h | h
    · obtain ⟨j, hj⟩ := List.mem_iff_getElem?.mp h
      have hlt := (List.getElem?_eq_some_iff.mp hj).1
      have hk : p.opt = some ((an ++ ns).length + j) := by
        apply (fo _).mpr
        refine ⟨x, ?_, hxt⟩
        rw [e, List.getElem?_append_right (by omega), Nat.add_sub_cancel_left, List.getElem?_append_left hlt]
        exact hj
      rw [hi] at hk
      simp only [Option.some.injEq] at hk
      omega
    · obtain ⟨j, hj⟩ := List.mem_iff_getElem?.mp h
      have hk : p.opt = some ((an ++ ns).length + (pre.length + 1 + j)) := by
        apply (fo _).mpr
        refine ⟨x, ?_, hxt⟩
        rw [e, List.getElem?_append_right (by omega), Nat.add_sub_cancel_left, List.getElem?_append_right (by omega)]
        have : pre.length + 1 + j - pre.length = j + 1 := by omega
        rw [this, List.getElem?_cons_succ]
        exact hj
      rw [hi] at hk
      simp only [Option.some.injEq] at hk
      omega
  -- the end of the message
  have fin : RecsAt mem size stop ar size ∧
      (keep = true ∨ (∀ r ∈ ar, r.type ≠ 250) → p.wire = mem ∧ p.size = size ∧ p.tsigWire = none) ∧
      (keep = false → ∀ t ∈ ar, t.type = 250 → RecsAt mem size p.size [t] size ∧
        p.wire = mem.take 10 ++ be16 (ar.length - 1) ++ mem.drop 12 ∧ p.tsigWire = some (p.size, size - p.size)) := by
    by_cases pl : keep = true ∨ (∀ r ∈ ar, r.type ≠ 250)
    · obtain ⟨g1, g2, g3, g4⟩ := steps_plain hst (fun r hr => by
        rcases pl with h | h
        · exact .inl h
        · exact .inr (h r hr))
      rw [w2] at g1 g3
      rw [z2] at g2 g3
      rw [e2] at g3
      have hle : stop ≤ size := by
        by_cases ce : ar = []
        · by_cases cn : an ++ ns = []
          · rw [cn] at hr; cases hr
            cases q with
            | none => have := hq.2; omega
            | some ls => obtain ⟨_, n, _, _, _, h⟩ := hq; exact h
          · exact (recsAt_lt hr).2 cn
        · have := (recsAt_lt g3).1; have := (recsAt_lt g3).2 ce; omega
      have heq : p.parsed = size := by
        rw [g2] at c2
        by_cases ce : ar = []
        · subst ce
          cases g3
          omega
        · have := (recsAt_lt g3).2 ce; omega
      rw [heq] at g3
      refine ⟨g3, fun _ => ⟨g1, g2, g4.trans t2⟩, ?_⟩
      intro hk t ht htt
      rcases pl with h | h
      · rw [hk] at h; cases h
      · exact absurd htt (h t ht)
    · have hk : keep = false := by
        cases keep
        · rfl
        · exact absurd (.inl rfl) pl
      have : ∃ t ∈ ar, t.type = 250 := by
        apply Classical.byContradiction
        intro hne
        exact pl (.inr (fun r hr ht => hne ⟨r, hr, ht⟩))
      obtain ⟨t, hm, htt⟩ := this
      obtain ⟨pre, post, har⟩ := List.append_of_mem hm
      have hpo := last pre t post har htt
      subst hpo
      have hno : ∀ x ∈ pre, x.type ≠ 250 := by
        intro x hx hxt
        obtain ⟨a, b, e⟩ := List.append_of_mem hx
        have := last a x (b ++ [t]) (by rw [har, e]; simp) hxt
        simp at this
      subst hk
      rw [har] at hst
      obtain ⟨p3, s1, s2⟩ := steps_append.mp hst
      obtain ⟨g1, g2, g3, g4⟩ := steps_plain s1 (fun r hr => .inr (hno r hr))
      rw [w2] at g1 g3
      rw [z2] at g2 g3
      rw [e2] at g3
      cases s2 with
      | @cons _ _ st _ _ ha hal hn =>
        have hlt := accept_lt ha
        rw [g1, g2] at ha
        rw [g2] at hlt
        have e3 : p = step false canon p3 t st := by cases hn; rfl
        have es : step false canon p3 t st = { added canon p3 t st with
            parsed := p3.parsed, size := p3.size - (st - p3.parsed), wire := decAr p3.wire,
            tsigWire := some (p3.parsed, st - p3.parsed), tsig := some p3.rrs.length } := by
          unfold step; rw [if_pos htt]; rfl
        rw [es] at e3
        have q1 : p.parsed = p3.parsed := by rw [e3]
        have q2 : p.size = size - (st - p3.parsed) := by rw [e3, ← g2]
        have q3 : p.wire = decAr mem := by rw [e3, ← g1]
        have q4 : p.tsigWire = some (p3.parsed, st - p3.parsed) := by rw [e3]
        have hst' : st = size := by omega
        subst hst'
        have q5 : p.size = p3.parsed := by omega
        refine ⟨?_, ?_, ?_⟩
        · rw [har]
          exact recsAt_append.mpr ⟨_, g3, .cons ha .nil⟩
        · intro h; exact absurd h pl
        · intro _ t' ht' htt'
          have : t' = t := by
            rw [har] at ht'
            rcases List.mem_append.mp ht' with h | h
            · exact absurd htt' (hno t' h)
            · simpa using h
          subst this
          rw [q5]
          refine ⟨.cons ha .nil, ?_, q4⟩
          rw [q3]
          unfold decAr
          have : (num (slice mem 10 2) + 65535) % 65536 = ar.length - 1 := by
            have hlt := slice_num_lt (mem := mem) (pos := 10) (by omega)
            rw [f.lens.2.2] at hlt ⊢
            have : 0 < ar.length := by rw [har]; simp
            omega
          rw [this]
  refine ⟨hp, ⟨hh, ⟨pos, hq, recsAt_append.mpr ⟨_, hr, fin.1⟩⟩, f.lens.1, f.lens.2.1, f.lens.2.2, f.special, ?_, ?_⟩, ?_⟩
  · intro pre r post e ht
    exact ⟨uniq pre r post e ht, (f.rdata r (by rw [e]; simp)).2 ht⟩
  · intro pre r post e ht
    exact ⟨last pre r post e ht, (f.rdata r (by rw [e]; simp)).1 ht⟩
  · refine ⟨f.records, f.counts, f.starts, ?_, fo, ?_, ft, fin.2.1, fin.2.2⟩
    · obtain ⟨st, a1, a2, a3⟩ := f.question
      cases q with
      | none => exact a1
      | some ls =>
        refine ⟨a1.trans (Dname.wire_length ls).symm, a2, ?_⟩
        rw [a3]
        obtain ⟨_, n, _, hv, _⟩ := hq
        show (nameLen ls != ((wire ls).takeWhile (· != 0)).length + 1) = true ↔ _
        rw [bne_iff_ne, ne_eq, null_iff hv.1]
        simp
    · intro i r h1 h2
      have := me i (deliver canon r) h1 (by rw [f.records, List.getElem?_map, h2]; rfl)
      rw [this]
      have ht : r.type = 41 := by
        obtain ⟨r', h3, h4⟩ := (fo i).mp h1
        rw [h2] at h3
        cases h3
        exact h4
      rw [deliver_special _ _ (.inr ht)]

/-- Every message has a course. -/
theorem message_course {keep canon : Bool} {mem : Bytes} {size : Nat} {q : Option Name} {an ns ar : List Rec}
    (hs : size ≤ mem.length) (h : Message mem size q an ns ar) :
    ∃ p, Course keep canon mem size q an ns ar p ∧ finish p = .ok p := by
  obtain ⟨hh, ⟨pos, hq, hr⟩, l1, l2, l3, hsp, ho, ht⟩ := h
  obtain ⟨m2, hr2, hr3⟩ := recsAt_append.mp hr
  obtain ⟨m1, hr0, hr1⟩ := recsAt_append.mp hr2
  obtain ⟨f1, f2, f3, f4, f5, f6, f7, f8, f9, f10, f11⟩ := @asked_fields mem size q pos
  have hsp1 : ∀ r ∈ an, r.type ≠ 41 ∧ r.type ≠ 250 := fun r h => hsp r (List.mem_append_left _ h)
  have hsp2 : ∀ r ∈ ns, r.type ≠ 41 ∧ r.type ≠ 250 := fun r h => hsp r (List.mem_append_right _ h)
  -- answer
  obtain ⟨p1, s1⟩ := steps_build (keep := keep) (canon := canon) (p := beginSection (asked mem size q pos) 0) (rs := an) (stop := m1)
    (by show RecsAt (asked mem size q pos).wire (asked mem size q pos).size (asked mem size q pos).parsed an m1
        rw [f1, f2, f3]; exact hr0)
    (fun r h => (hsp1 r h).2) (fun pre r post e h => absurd h (hsp1 r (by rw [e]; simp)).1)
  obtain ⟨w1, z1, a1, t1⟩ := steps_plain s1 (fun r hr => .inr (hsp1 r hr).2)
  have w1' : p1.wire = mem := w1.trans f1
  have z1' : p1.size = size := z1.trans f2
  have det : ∀ {rs : List Rec} {a b c : Nat}, RecsAt mem size a rs b → RecsAt mem size a rs c → b = c := by
    intro rs
    induction rs with
    | nil => intro a b c h1 h2; cases h1; cases h2; rfl
    | cons r rs ih =>
      intro a b c h1 h2
      cases h1 with
      | @cons _ _ mid _ _ g1 g2 =>
        cases h2 with
        | @cons _ _ mid' _ _ g1' g2' =>
          have : mid = mid' := by
            have lt := accept_lt g1
            have e1 := (fromWire_iff (canon := false) hs (by omega)).mpr ⟨r, g1, rfl⟩
            have e2 := (fromWire_iff (canon := false) hs (by omega)).mpr ⟨r, g1', rfl⟩
            rw [e1] at e2
            simpa using e2
          subst this
          exact ih g2 g2'
  have x1 : p1.parsed = m1 := by
    have e : (beginSection (asked mem size q pos) 0).wire = mem := f1
    have e' : (beginSection (asked mem size q pos) 0).size = size := f2
    have e'' : (beginSection (asked mem size q pos) 0).parsed = pos := f3
    rw [e, e', e''] at a1
    exact det a1 hr0
  -- authority
  obtain ⟨p2, s2⟩ := steps_build (keep := keep) (canon := canon) (p := beginSection p1 1) (rs := ns) (stop := m2)
    (by show RecsAt p1.wire p1.size p1.parsed ns m2
        rw [w1', z1', x1]; exact hr1)
    (fun r h => (hsp2 r h).2) (fun pre r post e h => absurd h (hsp2 r (by rw [e]; simp)).1)
  obtain ⟨w2, z2, a2, t2⟩ := steps_plain s2 (fun r hr => .inr (hsp2 r hr).2)
  have w2' : p2.wire = mem := w2.trans w1'
  have z2' : p2.size = size := z2.trans z1'
  have x2 : p2.parsed = m2 := by
    have e : (beginSection p1 1).wire = mem := w1'
    have e' : (beginSection p1 1).size = size := z1'
    have e'' : (beginSection p1 1).parsed = m1 := x1
    rw [e, e', e''] at a2
    exact det a2 hr1
  -- marks before the additional section
  have m0 : Marks (asked mem size q pos) := by
    unfold Marks
    rw [f4, f8, f9, f10]
    exact ⟨fun i => by simp, fun i => by simp, fun _ => rfl, fun i rr h => by cases h⟩
  have mk1 : Marks p1 := steps_marks s1 m0
  have mk2 : Marks p2 := steps_marks s2 mk1
  have rr2 : p2.rrs = (an ++ ns).map (deliver canon) := by
    have e : (beginSection (asked mem size q pos) 0).rrs = [] := f4
    have e' : (beginSection p1 1).rrs = p1.rrs := rfl
    rw [(steps_common s2).1, e', (steps_common s1).1, e, List.map_append]
    rfl
  have noOpt : p2.opt = none := by
    cases ho' : p2.opt with
    | none => rfl
    | some i =>
      obtain ⟨rr, h1, h2⟩ := (mk2.1 i).mp ho'
      rw [rr2, List.getElem?_map] at h1
      obtain ⟨r, h3, h4⟩ := Option.map_eq_some_iff.mp h1
      subst h4
      rw [deliver_type] at h2
      exact absurd h2 (hsp r (List.mem_of_getElem? h3)).1
  have noTsig : p2.tsig = none := by
    cases ho' : p2.tsig with
    | none => rfl
    | some i =>
      obtain ⟨rr, h1, h2⟩ := (mk2.2.1 i).mp ho'
      rw [rr2, List.getElem?_map] at h1
      obtain ⟨r, h3, h4⟩ := Option.map_eq_some_iff.mp h1
      subst h4
      rw [deliver_type] at h2
      exact absurd h2 (hsp r (List.mem_of_getElem? h3)).2
  have hcount : num (slice mem 6 2) + num (slice mem 8 2) + num (slice mem 10 2) ≤ size / 11 := by
    rw [l1, l2, l3]
    have := (recsAt_lt hr).1
    simp only [List.length_append] at this
    omega
  -- additional
  have build : ∀ rs stop, RecsAt mem size m2 rs stop → (∀ r ∈ rs, r.type ≠ 250) → (∃ post, ar = rs ++ post) →
      ∃ p', Steps keep canon (beginSection p2 2) rs p' := by
    intro rs stop h1 h2 h3
    obtain ⟨tl, h3⟩ := h3
    refine steps_build (stop := stop) (by show RecsAt p2.wire p2.size p2.parsed rs stop; rw [w2', z2', x2]; exact h1) h2 ?_
    intro pre r post e hr
    have := ho pre r (post ++ tl) (by rw [h3, e]; simp) hr
    exact ⟨rfl, noOpt, fun x hx => this.1 x (List.mem_append_left _ hx), this.2⟩
  have mkC : ∀ p3, Steps keep canon (beginSection p2 2) ar p3 → Course keep canon mem size q an ns ar p3 := by
    intro p3 s3
    exact ⟨hh, hcount, pos, p1, p2, hq, l1.symm, s1, by rw [w1']; exact l2.symm, s2, by rw [w2']; exact l3.symm, s3⟩
  by_cases hts : ∀ r ∈ ar, r.type ≠ 250
  · obtain ⟨p3, s3⟩ := build ar size hr3 hts ⟨[], by simp⟩
    refine ⟨p3, mkC p3 s3, ?_⟩
    have fa := course_facts (mkC p3 s3)
    have nt : p3.tsig = none := by
      cases ho' : p3.tsig with
      | none => rfl
      | some i =>
        obtain ⟨rr, h1, h2⟩ := (fa.marks.2.1 i).mp ho'
        rw [fa.records, List.getElem?_map] at h1
        obtain ⟨r, h3, h4⟩ := Option.map_eq_some_iff.mp h1
        subst h4
        rw [deliver_type] at h2
        rcases List.mem_append.mp (List.mem_of_getElem? h3) with h | h
        · exact absurd h2 (hsp r h).2
        · exact absurd h2 (hts r h)
    obtain ⟨g1, g2, g3, g4⟩ := steps_plain s3 (fun r hr => .inr (hts r hr))
    have g3' : RecsAt mem size m2 ar p3.parsed := by
      have e : (beginSection p2 2).wire = mem := w2'
      have e' : (beginSection p2 2).size = size := z2'
      have e'' : (beginSection p2 2).parsed = m2 := x2
      rwa [e, e', e''] at g3
    have e1 := det g3' hr3
    have e2 : p3.size = size := g2.trans z2'
    unfold finish
    rw [if_neg (by rw [nt]; simp), if_neg (by omega)]
  · have : ∃ t ∈ ar, t.type = 250 := by
      apply Classical.byContradiction
      intro hne
      exact hts (fun r hr ht => hne ⟨r, hr, ht⟩)
    obtain ⟨t, hm, htt⟩ := this
    obtain ⟨pre, post, har⟩ := List.append_of_mem hm
    obtain ⟨hpo, hrd⟩ := ht pre t post har htt
    subst hpo
    have hno : ∀ x ∈ pre, x.type ≠ 250 := by
      intro x hx hxt
      obtain ⟨a, b, e⟩ := List.append_of_mem hx
      have := (ht a x (b ++ [t]) (by rw [har, e]; simp) hxt).1
      simp at this
    have hr3' := hr3
    rw [har] at hr3'
    obtain ⟨m3, hra, hrb⟩ := recsAt_append.mp hr3'
    obtain ⟨p3, s3⟩ := build pre m3 hra hno ⟨[t], har⟩
    obtain ⟨g1, g2, g3, g4⟩ := steps_plain s3 (fun r hr => .inr (hno r hr))
    have g1' : p3.wire = mem := g1.trans w2'
    have g2' : p3.size = size := g2.trans z2'
    have g3' : RecsAt mem size m2 pre p3.parsed := by
      have e : (beginSection p2 2).wire = mem := w2'
      have e' : (beginSection p2 2).size = size := z2'
      have e'' : (beginSection p2 2).parsed = m2 := x2
      rwa [e, e', e''] at g3
    have x3 := det g3' hra
    have mk3 : Marks p3 := steps_marks s3 mk2
    have rr3 : p3.rrs = (an ++ ns ++ pre).map (deliver canon) := by
      have e : (beginSection p2 2).rrs = p2.rrs := rfl
      rw [(steps_common s3).1, e, rr2, ← List.map_append]
    have nt : p3.tsig = none := by
      cases ho' : p3.tsig with
      | none => rfl
      | some i =>
        obtain ⟨rr, h1, h2⟩ := (mk3.2.1 i).mp ho'
        rw [rr3, List.getElem?_map] at h1
        obtain ⟨r, h3, h4⟩ := Option.map_eq_some_iff.mp h1
        subst h4
        rw [deliver_type] at h2
        rcases List.mem_append.mp (List.mem_of_getElem? h3) with h | h
        · exact absurd h2 (hsp r h).2
        · exact absurd h2 (hno r h)
    have ha : AcceptAt mem size m3 t size := by
      cases hrb with
      | cons a b => cases b; exact a
    have hlt := accept_lt ha
    have hal : Allowed p3 t := by
      refine ⟨fun _ => ⟨?_, nt, hrd⟩, fun h => by omega⟩
      exact (steps_common s3).2.1
    have sall : Steps keep canon (beginSection p2 2) ar (step keep canon p3 t size) := by
      rw [har]
      exact steps_append.mpr ⟨p3, s3, .cons (by rw [g1', g2', x3]; exact ha) hal .nil⟩
    refine ⟨_, mkC _ sall, ?_⟩
    have fa := course_facts (mkC _ sall)
    have ftl : (step keep canon p3 t size).tsig = some p3.rrs.length := by
      unfold step
      rw [if_pos htt]
      cases keep <;> rfl
    have fps : ¬ (step keep canon p3 t size).parsed < (step keep canon p3 t size).size := by
      unfold step
      rw [if_pos htt]
      cases keep
      · show ¬ p3.parsed < p3.size - (size - p3.parsed)
        omega
      · show ¬ size < p3.size
        omega
    unfold finish
    rw [if_neg ?_, if_neg fps]
    rintro ⟨_, _, hne⟩
    apply hne
    rw [ftl, fa.starts.2.2, fa.counts.2.2, rr3, har]
    simp only [List.length_map, List.length_append, List.length_cons, List.length_nil, Option.some.injEq]
    omega

end Knot.Pktparse
