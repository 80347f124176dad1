import Verif.Answer.Lemmas
/-!
# Answers: one name
-/
namespace Knot.Answer
open Dname (Name)

theorem wildcard_iff {x : Name} : wildcard x = true ↔ Wild x := by
  unfold wildcard Wild
  cases x <;> simp

theorem wildcard_false {x : Name} : wildcard x = false ↔ ¬ Wild x := by
  rw [← wildcard_iff]; simp

theorem refer_iff {z : Zone} (wf : Wf z) {s : Name} (hs : s ∈ z.names) (t : Nat) :
    (((z.node s).deleg = true ∧ t ≠ 43) ∨ (z.node s).nonauth = true) ↔ ∃ d, Cut z d s ∧ ¬ (d = s ∧ t = 43) := by
  constructor
  · rintro (⟨h1, h2⟩ | h)
    · exact ⟨s, (deleg_iff_cut wf hs).mp h1, fun h => h2 h.2⟩
    · obtain ⟨d, a, b, c⟩ := (marks_spec wf hs).1.mp h
      obtain ⟨d', hd'⟩ := cut_exists s ⟨d, a, b⟩
      refine ⟨d', hd', fun h => c ?_⟩
      have := (hd'.2.2 d a b).length_le
      rw [h.1] at this
      exact b.eq_of_length (Nat.le_antisymm b.length_le this)
  · rintro ⟨d, h1, h2⟩
    rcases above wf hs h1 with ⟨a, b⟩ | ⟨a, _, _⟩
    · exact .inl ⟨a, fun e => h2 ⟨b, e⟩⟩
    · exact .inr a

theorem auth_iff {z : Zone} {s : Name} (t : Nat) :
    (¬ ∃ d, Cut z d s ∧ ¬ (d = s ∧ t = 43)) ↔ Auth z t s := by
  constructor
  · intro h d h1 h2
    obtain ⟨c, hc⟩ := cut_exists s ⟨d, h1, h2⟩
    have h3 : c = s ∧ t = 43 := by
      by_cases e : c = s ∧ t = 43
      · exact e
      · exact absurd ⟨c, hc, e⟩ h
    refine ⟨?_, h3.2⟩
    have := (hc.2.2 d h1 h2).length_le
    rw [h3.1] at this
    exact h2.eq_of_length (Nat.le_antisymm h2.length_le this)
  · rintro h ⟨d, h1, h2⟩
    exact h2 (h d h1.1 h1.2.1)

theorem auth_nonauth {z : Zone} (wf : Wf z) {s : Name} (hs : s ∈ z.names) {t : Nat} (h : Auth z t s) :
    (z.node s).nonauth = false := by
  rw [Bool.eq_false_iff]; intro hn
  obtain ⟨d, a, b, c⟩ := (marks_spec wf hs).1.mp hn
  exact c (h d a b).1

/-! ## Records of chains -/

theorem records_snoc (ls : List Link) (l : Link) : records (ls ++ [l]) = extend (records ls) l := by
  simp [records, List.foldl_append]

theorem mem_extend {acc : List Rec} {l : Link} {r : Rec} : r ∈ extend acc l ↔
    r ∈ acc ∨ (l.type = 39 ∧ (r = .rr l.source l.source 39 ∨ r = .synth l.owner l.next)) ∨
      (l.type ≠ 39 ∧ r = .rr l.owner l.source 5) := by
  unfold extend
  by_cases h : l.type = 39
  · simp only [h, if_true, true_and, not_true, false_and, or_false, ne_eq]
    by_cases hm : Rec.rr l.source l.source 39 ∈ acc
    · rw [if_pos hm]
      simp only [List.mem_append, List.mem_singleton]
      constructor
      · rintro (a | a)
        · exact .inl a
        · exact .inr (.inr a)
      · rintro (a | a | a)
        · exact .inl a
        · rw [a]; exact .inl hm
        · exact .inr a
    · rw [if_neg hm]
      simp [or_assoc]
  · simp [h]

theorem mem_records {r : Rec} : ∀ {ls : List Link}, r ∈ records ls ↔
    ∃ l ∈ ls, (l.type = 39 ∧ (r = .rr l.source l.source 39 ∨ r = .synth l.owner l.next)) ∨
      (l.type ≠ 39 ∧ r = .rr l.owner l.source 5) := by
  suffices H : ∀ (ls : List Link) (acc : List Rec), r ∈ ls.foldl extend acc ↔ r ∈ acc ∨
      ∃ l ∈ ls, (l.type = 39 ∧ (r = .rr l.source l.source 39 ∨ r = .synth l.owner l.next)) ∨
        (l.type ≠ 39 ∧ r = .rr l.owner l.source 5) by
    intro ls
    have := H ls []
    simpa [records] using this
  intro ls
  induction ls with
  | nil => intro acc; simp
  | cons a ls ih =>
    intro acc
    rw [List.foldl_cons, ih, mem_extend]
    simp only [List.mem_cons, exists_eq_or_imp, or_assoc]

theorem extend_length (acc : List Rec) (l : Link) : acc.length < (extend acc l).length := by
  unfold extend
  split
  · split <;> simp <;> omega
  · simp

/-! ## The state after a chain -/

/-- Links are CNAME or DNAME. -/
def Typed (ls : List Link) : Prop := ∀ l ∈ ls, l.type = 5 ∨ l.type = 39

structure Inv (ls : List Link) (m : Name) (st : St) : Prop where
  name : st.name = m
  chain : st.chain = ls.length
  answer : st.answer = records ls
  rcode : st.rcode = 0
  visited : ∀ x, visited st x = true ↔ Wild x ∧ ∃ l ∈ ls, l.source = x
  typed : Typed ls
  len : ls.length ≤ 5

theorem contains_cname {ls : List Link} {st : St} {x : Name} (ha : st.answer = records ls) (ht : Typed ls)
    (hw : ¬ Wild x) : contains st x 5 = true ↔ ∃ l ∈ ls, l.source = x ∧ l.type = 5 := by
  unfold contains
  rw [wildcard_false.mpr hw, ha]
  simp only [Bool.false_and, Bool.not_false, Bool.true_and, List.any_eq_true]
  constructor
  · rintro ⟨r, hr, h⟩
    cases r with
    | synth => simp at h
    | rr o y u =>
      simp at h
      obtain ⟨l, hl, h1 | h1⟩ := mem_records.mp hr
      · rcases h1.2 with e | e
        · simp at e; omega
        · cases e
      · obtain ⟨h2, h3⟩ := h1
        simp at h3
        refine ⟨l, hl, ?_, ?_⟩
        · rw [← h3.2.1]; exact h.1
        · rcases ht l hl with e | e
          · exact e
          · exact absurd e h2
  · rintro ⟨l, hl, h1, h2⟩
    exact ⟨.rr l.owner l.source 5, mem_records.mpr ⟨l, hl, .inr ⟨by omega, rfl⟩⟩, by simp [h1]⟩

theorem contains_dname {ls : List Link} {st : St} {x : Name} (ha : st.answer = records ls) :
    contains st x 39 = true ↔ .rr x x 39 ∈ records ls := by
  unfold contains
  rw [ha]
  simp only [bne_self_eq_false, Bool.and_false, Bool.not_false, Bool.true_and, List.any_eq_true]
  constructor
  · rintro ⟨r, hr, h⟩
    cases r with
    | synth => simp at h
    | rr o y u =>
      simp at h
      obtain ⟨l, hl, h1 | h1⟩ := mem_records.mp hr
      · rcases h1.2 with e | e
        · simp at e
          refine mem_records.mpr ⟨l, hl, .inl ⟨h1.1, .inl ?_⟩⟩
          rw [← h.1, e.2.1]
        · cases e
      · obtain ⟨h2, h3⟩ := h1
        simp at h3; omega
  · intro h
    exact ⟨_, h, by simp⟩

theorem visited_visit {z : Zone} {st : St} {x y : Name} (hx : (z.node x).nonauth = false) :
    visited (visit z st x) y = true ↔ visited st y = true ∨ x = y := by
  unfold visited visit
  rw [if_neg (by simp [hx])]
  simp

theorem cannotSynth_iff {c target n : Name} (h : c <:+ n) : cannotSynth c target n = true ↔ ¬ Fits (subst c target n) := by
  obtain ⟨p, rfl⟩ := h
  unfold cannotSynth Fits subst size
  simp only [List.length_append, List.map_append, List.sum_append, Nat.add_sub_cancel, List.take_left,
    Bool.or_eq_true, decide_eq_true_eq]
  omega

/-- A query with unlimited space. -/
def Unlimited (q : Req) : Prop := ∀ l, q.fits l = true

theorem put_unlimited {q : Req} (hu : Unlimited q) (st : St) (r : Rec) :
    put q st r = some { st with answer := st.answer ++ [r] } := by
  simp [put, hu _]

/-! ## Following -/

theorem step_wild {z : Zone} {t : Nat} {l : Link} (h : Step z t l) : l.type = 5 ∨ l.type = 39 := by
  cases h <;> simp

theorem follow_cname {z : Zone} (wf : Wf z) {q : Req} (hu : Unlimited q) {ls : List Link} {m s : Name} {st : St}
    (inv : Inv ls m st) (hl : Lookup z q.type m (.alias s)) :
    ∃ st' σ, followCname z q st s 5 = (st', σ) ∧
      ((σ = .follow ∧ ∃ l, Step z q.type l ∧ l.owner = m ∧ ¬ Again ls l ∧ ls.length < 5 ∧ q.type ≠ 5 ∧
          Inv (ls ++ [l]) l.next st' ∧ l.source = s) ∨
       (σ = .hit ∧ Ends z q.type ls m st'.answer .hit st'.rcode none)) := by
  have hl0 := hl
  cases hl with
  | alias hsrc hauth hown hdir =>
  have hsn := hsrc.1
  have hstep : Step z q.type ⟨m, s, 5, z.target s 5⟩ := .cname hl0
  have hq5 : q.type ≠ 5 := fun e => hdir (.inl e)
  have hna := auth_nonauth wf hsn hauth
  unfold followCname
  simp only [inv.chain]
  by_cases h5 : ls.length + 1 > 5
  · rw [if_pos h5]
    refine ⟨_, _, rfl, .inr ⟨rfl, ?_⟩⟩
    have := Ends.limit (z := z) (ls := ls) (m := m) (by have := inv.len; omega) hl0 ⟨s, .inl rfl⟩
    simpa [inv.answer, inv.rcode] using this
  · rw [if_neg h5]
    have hlt : ls.length < 5 := by omega
    by_cases hw : Wild s
    · have hc : contains { st with chain := ls.length + 1 } s 5 = false := by
        simp [contains, wildcard_iff.mpr hw]
      have hex : expand { st with chain := ls.length + 1 } s 5 = m := by
        simp [expand, wildcard_iff.mpr hw, inv.name]
      rw [hc, hex]
      simp only [Bool.false_eq_true, if_false, put_unlimited hu, show (5 : Nat) ≠ 39 by decide]
      unfold followEnd
      rw [if_neg (by simp), if_pos (wildcard_iff.mpr hw)]
      by_cases hv : visited st s = true
      · rw [if_pos (by simpa [visited] using hv)]
        refine ⟨_, _, rfl, .inr ⟨rfl, ?_⟩⟩
        obtain ⟨_, l', hl', hs'⟩ := (inv.visited s).mp hv
        have := Ends.wild (z := z) (ls := ls) hstep rfl ⟨l', hl', hs', .inl hw⟩ hw (.inl hq5) hlt
        simpa [visit, hna, inv.answer, inv.rcode, extend] using this
      · rw [if_neg (by simpa [visited] using hv)]
        refine ⟨_, _, rfl, .inl ⟨rfl, _, hstep, rfl, ?_, hlt, hq5, ?_, rfl⟩⟩
        · rintro ⟨l', hl', hs', _⟩
          exact hv ((inv.visited s).mpr ⟨hw, l', hl', hs'⟩)
        · constructor
          · rfl
          · simp [visit, hna]
          · rw [records_snoc]; simp [visit, hna, inv.answer, extend]
          · simp [visit, hna, inv.rcode]
          · intro x
            have h1 := inv.visited x
            have h2 := visited_visit (z := z) (st := st) (x := s) (y := x) hna
            simp only [visited, visit, hna] at h1 h2 ⊢
            simp only [Bool.false_eq_true, if_false] at h2 ⊢
            rw [h2, h1]
            simp only [List.mem_append, List.mem_singleton]
            constructor
            · rintro (⟨a, l', b, c⟩ | e)
              · exact ⟨a, l', .inl b, c⟩
              · exact ⟨e ▸ hw, _, .inr rfl, e⟩
            · rintro ⟨a, l', b | b, c⟩
              · exact .inl ⟨a, l', b, c⟩
              · right; rw [b] at c; exact c
          · intro l' h'
            rcases List.mem_append.mp h' with h' | h'
            · exact inv.typed _ h'
            · rw [List.mem_singleton.mp h']; simp
          · simp; omega
    · have hsm : s = m := by
        rcases hsrc.2 with e | ⟨_, c, _, e⟩
        · exact e
        · exact absurd ⟨c, e⟩ hw
      have hc := contains_cname (ls := ls) (st := { st with chain := ls.length + 1 }) inv.answer inv.typed hw
      have hex : expand { st with chain := ls.length + 1 } s 5 = m := by
        simp [expand, inv.name, hsm]
      by_cases hag : contains { st with chain := ls.length + 1 } s 5 = true
      · rw [hag]
        simp only [if_true, show (5 : Nat) ≠ 39 by decide, if_false]
        unfold followEnd
        rw [if_pos (Nat.le_refl _)]
        refine ⟨_, _, rfl, .inr ⟨rfl, ?_⟩⟩
        obtain ⟨l', hl', hs', ht'⟩ := hc.mp hag
        have := Ends.loop (z := z) (ls := ls) hstep rfl ⟨l', hl', hs', .inr ⟨rfl, ht'⟩⟩ hw hlt
        simpa [inv.answer, inv.rcode] using this
      · have hag' : contains { st with chain := ls.length + 1 } s 5 = false := by simpa using hag
        rw [hag', hex]
        simp only [Bool.false_eq_true, if_false, put_unlimited hu, show (5 : Nat) ≠ 39 by decide]
        unfold followEnd
        rw [if_neg (by simp), if_neg (by rw [wildcard_false.mpr hw]; simp)]
        refine ⟨_, _, rfl, .inl ⟨rfl, _, hstep, rfl, ?_, hlt, hq5, ?_, rfl⟩⟩
        · rintro ⟨l', hl', hs', h | ⟨_, h⟩⟩
          · exact hw h
          · exact hag (hc.mpr ⟨l', hl', hs', h⟩)
        · constructor
          · rfl
          · simp
          · rw [records_snoc]; simp [inv.answer, extend]
          · simp [inv.rcode]
          · intro x
            have h1 := inv.visited x
            simp only [visited] at h1 ⊢
            rw [h1]
            simp only [List.mem_append, List.mem_singleton]
            constructor
            · rintro ⟨a, l', b, c⟩
              exact ⟨a, l', .inl b, c⟩
            · rintro ⟨a, l', b | b, c⟩
              · exact ⟨a, l', b, c⟩
              · rw [b] at c; exact absurd (by rw [show s = x from c]; exact a) hw
          · intro l' h'
            rcases List.mem_append.mp h' with h' | h'
            · exact inv.typed _ h'
            · rw [List.mem_singleton.mp h']; simp
          · simp; omega

theorem follow_dname {z : Zone} (wf : Wf z) {q : Req} (hu : Unlimited q) {ls : List Link} {m c : Name} {st : St}
    (inv : Inv ls m st) (hl : Lookup z q.type m (.dname c)) (hfit : Fits (subst c (z.target c 39) m)) :
    ∃ st' σ, followCname z q st c 39 = (st', σ) ∧
      ((σ = .follow ∧ ∃ l, Step z q.type l ∧ l.owner = m ∧ ¬ Again ls l ∧ ls.length < 5 ∧ q.type ≠ 5 ∧
          Inv (ls ++ [l]) l.next st') ∨
       (σ = .hit ∧ Ends z q.type ls m st'.answer .hit st'.rcode none)) := by
  have hl0 := hl
  cases hl with
  | dname hns hnc henc hown =>
  have hstep : Step z q.type ⟨m, c, 39, subst c (z.target c 39) m⟩ := .dname hl0 hfit
  have hna : (z.node c).nonauth = false := by
    rw [Bool.eq_false_iff]; intro hn
    obtain ⟨d, a, b, _⟩ := (marks_spec wf henc.1).1.mp hn
    obtain ⟨d', hd'⟩ := cut_exists m ⟨d, a, b.trans henc.2.1⟩
    exact hnc d' hd'
  unfold followCname
  simp only [inv.chain]
  by_cases h5 : ls.length + 1 > 5
  · rw [if_pos h5]
    refine ⟨_, _, rfl, .inr ⟨rfl, ?_⟩⟩
    have := Ends.limit (z := z) (ls := ls) (m := m) (by have := inv.len; omega) hl0 ⟨c, .inr rfl⟩
    simpa [inv.answer, inv.rcode] using this
  · rw [if_neg h5]
    have hlt : ls.length < 5 := by omega
    have hc := contains_dname (ls := ls) (st := { st with chain := ls.length + 1 }) (x := c) inv.answer
    have hex : expand { st with chain := ls.length + 1 } c 39 = c := by simp [expand]
    have hput : (if contains { st with chain := ls.length + 1 } c 39 = true then
        some { st with chain := ls.length + 1 }
        else put q { st with chain := ls.length + 1 } (.rr (expand { st with chain := ls.length + 1 } c 39) c 39)) =
        some { st with chain := ls.length + 1, answer := (if .rr c c 39 ∈ records ls then records ls else (records ls ++ [.rr c c 39])) } := by
      by_cases h : contains { st with chain := ls.length + 1 } c 39 = true
      · rw [if_pos h, if_pos (hc.mp h), inv.answer]
      · rw [if_neg h, if_neg (fun h' => h (hc.mpr h')), hex, put_unlimited hu, inv.answer]
    rw [hput]
    have hcan : cannotSynth c (z.target c 39) m = false := by
      rw [Bool.eq_false_iff]; intro h
      exact (cannotSynth_iff henc.2.1).mp h hfit
    simp only [if_true, inv.name, hcan, Bool.false_eq_true, if_false, put_unlimited hu]
    have hans : (if .rr c c 39 ∈ records ls then records ls else records ls ++ [.rr c c 39]) ++
        [.synth m (synthName c (z.target c 39) m)] = extend (records ls) ⟨m, c, 39, subst c (z.target c 39) m⟩ := by
      simp [extend, synthName, subst]
    rw [hans]
    by_cases hq5 : q.type = 5
    · rw [if_pos hq5]
      refine ⟨_, _, rfl, .inr ⟨rfl, ?_⟩⟩
      have := Ends.made (z := z) (ls := ls) hq5 hstep rfl rfl hlt
      simpa [inv.rcode] using this
    · rw [if_neg hq5]
      unfold followEnd
      have hlen := extend_length (records ls) ⟨m, c, 39, subst c (z.target c 39) m⟩
      rw [if_neg (by simp only [inv.answer]; omega)]
      by_cases hw : Wild c
      · rw [if_pos (wildcard_iff.mpr hw)]
        by_cases hv : visited st c = true
        · rw [if_pos (by simpa [visited] using hv)]
          refine ⟨_, _, rfl, .inr ⟨rfl, ?_⟩⟩
          obtain ⟨_, l', hl', hs'⟩ := (inv.visited c).mp hv
          have := Ends.wild (z := z) (ls := ls) hstep rfl ⟨l', hl', hs', .inl hw⟩ hw (.inl hq5) hlt
          simpa [visit, hna, inv.rcode] using this
        · rw [if_neg (by simpa [visited] using hv)]
          refine ⟨_, _, rfl, .inl ⟨rfl, _, hstep, rfl, ?_, hlt, hq5, ?_⟩⟩
          · rintro ⟨l', hl', hs', _⟩
            exact hv ((inv.visited c).mpr ⟨hw, l', hl', hs'⟩)
          · constructor
            · rfl
            · simp [visit, hna]
            · rw [records_snoc]; simp [visit, hna]
            · simp [visit, hna, inv.rcode]
            · intro x
              have h1 := inv.visited x
              have h2 := visited_visit (z := z) (st := st) (x := c) (y := x) hna
              simp only [visited, visit, hna, inv.name] at h1 h2 ⊢
              simp only [Bool.false_eq_true, if_false] at h2 ⊢
              rw [h2, h1]
              simp only [List.mem_append, List.mem_singleton]
              constructor
              · rintro (⟨a, l', b, c⟩ | e)
                · exact ⟨a, l', .inl b, c⟩
                · exact ⟨e ▸ hw, _, .inr rfl, e⟩
              · rintro ⟨a, l', b | b, c⟩
                · exact .inl ⟨a, l', b, c⟩
                · right; rw [b] at c; exact c
            · intro l' h'
              rcases List.mem_append.mp h' with h' | h'
              · exact inv.typed _ h'
              · rw [List.mem_singleton.mp h']; simp
            · simp; omega
      · rw [if_neg (by rw [wildcard_false.mpr hw]; simp)]
        refine ⟨_, _, rfl, .inl ⟨rfl, _, hstep, rfl, ?_, hlt, hq5, ?_⟩⟩
        · rintro ⟨l', hl', hs', h | ⟨h, _⟩⟩
          · exact hw h
          · simp at h
        · constructor
          · rfl
          · simp
          · rw [records_snoc]
          · simp [inv.rcode]
          · intro x
            have h1 := inv.visited x
            simp only [visited] at h1 ⊢
            rw [h1]
            simp only [List.mem_append, List.mem_singleton]
            constructor
            · rintro ⟨a, l', b, c⟩
              exact ⟨a, l', .inl b, c⟩
            · rintro ⟨a, l', b | b, c'⟩
              · exact ⟨a, l', b, c'⟩
              · rw [b] at c'; exact absurd (by rw [show c = x from c']; exact a) hw
          · intro l' h'
            rcases List.mem_append.mp h' with h' | h'
            · exact inv.typed _ h'
            · rw [List.mem_singleton.mp h']; simp
          · simp; omega

end Knot.Answer
