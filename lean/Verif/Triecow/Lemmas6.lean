import Verif.Triecow.Lemmas5
/-! # Lemmas: changing the part that belongs to the new trie alone -/
namespace Knot.Cow
open Knot.Trie (Key)

variable {V : Type}

/-- What belongs to the new trie alone is replaced. -/
theorem replace {s s' : St V} {To : Option (AT V)} {t t' : AT V} {C : List (Frame V)}
    (h : Inv s To (some (plugA t C))) (hC : ∀ f ∈ C, s.mem.flag f.a = false)
    (hold : s'.old = s.old) (hroot : s'.new.root = rootOf t'.node C)
    (hw : s'.new.weight = (Trie.toList (erase (plugA t' C))).length) (hwf : Trie.WF (erase (plugA t' C)))
    (hflag : ∀ y, y < s.mem.next → y ∉ ex s.mem.flag t → s'.mem.flag y = s.mem.flag y)
    (hbody : ∀ y, y < s.mem.next → y ∉ ex s.mem.flag t → s'.mem.body y = setHole C t'.node s.mem.body y)
    (hrep : Rep s'.mem t') (hfr : List.Perm (fr s'.mem.flag t') (fr s.mem.flag t))
    (hnd : (ex s'.mem.flag t').Nodup) (hsub : ∀ y ∈ ex s'.mem.flag t', y ∈ ex s.mem.flag t ∨ s.mem.next ≤ y)
    (hdom : ∀ y, s'.mem.obj y ≠ none ↔ y ∈ ex s'.mem.flag t' ∨ (s.mem.obj y ≠ none ∧ y ∉ ex s.mem.flag t))
    (hnext : s.mem.next ≤ s'.mem.next) (hfresh : ∀ y ∈ ex s'.mem.flag t', y < s'.mem.next)
    (hlog : ∀ y ∈ s'.mem.log, y ∈ s.mem.log ∨ y ∈ ex s.mem.flag t ∨ ∃ f ∈ C, y = f.a) :
    Inv s' To (some (plugA t' C)) := by
  have hexN := ex_plug (M := s.mem.flag) t hC
  have hlt : ∀ y ∈ owned s.mem.flag To (some (plugA t C)), y < s.mem.next := fun y hy => h.fresh y ((h.dom y).2 hy)
  have hexOut : ∀ y ∈ ex s.mem.flag t, y ∉ addrsO To := fun y hy =>
    h.exNew (by simp only [exO]; exact hexN.mem_iff.2 (by simp [hy]))
  have hO : ∀ y ∈ addrsO To, s'.mem.flag y = s.mem.flag y := fun y hy =>
    hflag y (hlt y (Inv.ownedOld hy)) fun hx => hexOut y hx hy
  have hnew := h.nodupNew
  simp only [addrsO] at hnew
  rw [(addrs_plug t C).nodup_iff, List.nodup_append] at hnew
  obtain ⟨hnC, hnt, hdis⟩ := hnew
  have hmemC : ∀ y ∈ addrsC C, y ∈ addrsO (some (plugA t C)) := fun y hy => (addrs_plug t C).mem_iff.2 (by simp [hy])
  have hCout : ∀ y ∈ addrsC C, y ∉ ex s.mem.flag t := fun y hy hx => hdis y hy y (ex_sub hx) rfl
  have hCf : ∀ y ∈ addrsC C, s'.mem.flag y = s.mem.flag y := fun y hy =>
    hflag y (hlt y (h.ownedNew (hmemC y hy))) (hCout y hy)
  have hC' : ∀ f ∈ C, s'.mem.flag f.a = false := fun f hf => by rw [hCf _ (frame_mem hf), hC f hf]
  have hexN' : List.Perm (ex s'.mem.flag (plugA t' C)) (exC s.mem.flag C ++ ex s'.mem.flag t') := by
    refine (ex_plug t' hC').trans ?_
    rw [exC_congr hCf]
  have hfrN := fr_plug (M := s.mem.flag) t hC
  have hfrN' : List.Perm (fr s'.mem.flag (plugA t' C)) (fr s.mem.flag (plugA t C)) := by
    refine (fr_plug t' hC').trans ?_
    rw [frC_congr hCf]
    exact (hfr.append_left _).trans hfrN.symm
  have hfrO : frO s'.mem.flag To = frO s.mem.flag To := by
    cases To with
    | none => rfl
    | some To => exact fr_congr hO
  have hexO : exO s'.mem.flag To = exO s.mem.flag To := by
    cases To with
    | none => rfl
    | some To => exact ex_congr hO
  have p1 : List.Perm (owned s.mem.flag To (some (plugA t C)))
      ((exO s.mem.flag To ++ exC s.mem.flag C ++ (frO s.mem.flag To).flatMap addrs) ++ ex s.mem.flag t) := by
    unfold owned
    simp only [exO] at hexN ⊢
    refine ((hexN.append_left _).append_right _).trans ?_
    simp only [List.append_assoc]
    exact (List.perm_append_comm.append_left _).append_left _
  have p2 : List.Perm (owned s'.mem.flag To (some (plugA t' C)))
      ((exO s.mem.flag To ++ exC s.mem.flag C ++ (frO s.mem.flag To).flatMap addrs) ++ ex s'.mem.flag t') := by
    unfold owned
    rw [hfrO, hexO]
    refine ((hexN'.append_left _).append_right _).trans ?_
    simp only [List.append_assoc]
    exact (List.perm_append_comm.append_left _).append_left _
  have hn := h.nodup
  rw [p1.nodup_iff, List.nodup_append] at hn
  obtain ⟨hn1, _, hn3⟩ := hn
  refine ⟨?_, ?_, ?_, ?_, ?_, ?_, ?_, ?_⟩
  · have := h.old
    rw [hold]
    cases To with
    | none => exact this
    | some To =>
      simp only [Holds] at this ⊢
      refine ⟨this.1, this.2.1, this.2.2.1, this.2.2.2.congr ?_⟩
      intro y hy
      rw [hbody y (hlt y (Inv.ownedOld hy)) fun hx => hexOut y hx hy]
      cases C with
      | nil => rfl
      | cons f C =>
        simp only [setHole]
        rw [if_neg]
        rintro rfl
        exact h.exNew (by simp only [exO]; exact hexN.mem_iff.2 (List.mem_append.2 (.inl (exC_frame (by simp))))) hy
  · have hp := h.parts
    simp only [Holds]
    rw [node_plug, rep_plug]
    refine ⟨hroot, hw, hwf, ?_, hrep⟩
    exact hp.2.1.set _ hnC fun y hy => hbody y (hlt y (h.ownedNew (hmemC y hy))) (hCout y hy)
  · rw [hfrO]
    exact h.share.trans hfrN'.symm
  · rw [p2.nodup_iff, List.nodup_append]
    refine ⟨hn1, hnd, ?_⟩
    intro a ha b hb e
    subst e
    rcases hsub a hb with hb | hb
    · exact hn3 a ha a hb rfl
    · have := hlt a (p1.mem_iff.2 (List.mem_append.2 (.inl ha)))
      omega
  · intro f hf c hc y hy
    rw [hfrO] at hf
    have hyo : y ∈ addrsO To := by
      rw [(addrsO_split s.mem.flag To).mem_iff]
      refine List.mem_append.2 (.inr (List.mem_flatMap.2 ⟨f, hf, ?_⟩))
      rw [addrs_kids]
      exact List.mem_cons_of_mem _ (List.mem_flatMap.2 ⟨c, hc, hy⟩)
    rw [hO y hyo]
    exact h.clean f hf c hc y hy
  · intro y
    rw [p2.mem_iff, hdom, h.dom, p1.mem_iff, List.mem_append, List.mem_append (s := _ ++ _ ++ _)]
    constructor
    · rintro (h1 | ⟨h1 | h1, h2⟩)
      · exact .inr h1
      · exact .inl h1
      · exact absurd h1 h2
    · rintro (h1 | h1)
      · exact .inr ⟨.inl h1, fun hx => hn3 y h1 y hx rfl⟩
      · exact .inl h1
  · intro y hy
    rcases (hdom y).1 hy with hy | hy
    · exact hfresh y hy
    · have := h.fresh y hy.1
      omega
  · intro y hy
    rcases hlog y hy with hy | hy | ⟨f, hf, rfl⟩
    · exact h.log y hy
    · exact hexOut y hy
    · exact h.exNew (by simp only [exO]; exact hexN.mem_iff.2 (List.mem_append.2 (.inl (exC_frame hf))))

/-- The same, when the last step writes the node into the hole. -/
theorem finish {s s0 : St V} {To : Option (AT V)} {t t' : AT V} {C : List (Frame V)} {w : Nat}
    (h : Inv s To (some (plugA t C))) (hC : ∀ f ∈ C, s.mem.flag f.a = false)
    (hold : s0.old = s.old) (hr0 : s0.new.root = s.new.root)
    (hobj : ∀ y, y < s.mem.next → y ∉ ex s.mem.flag t → s0.mem.obj y = s.mem.obj y)
    (hrep : Rep s0.mem t') (hta : ∀ y ∈ addrs t', y ∈ addrs t ∨ s.mem.next ≤ y)
    (hfr : List.Perm (fr s0.mem.flag t') (fr s.mem.flag t))
    (hnd : (ex s0.mem.flag t').Nodup) (hsub : ∀ y ∈ ex s0.mem.flag t', y ∈ ex s.mem.flag t ∨ s.mem.next ≤ y)
    (hdom : ∀ y, s0.mem.obj y ≠ none ↔ y ∈ ex s0.mem.flag t' ∨ (s.mem.obj y ≠ none ∧ y ∉ ex s.mem.flag t))
    (hnext : s.mem.next ≤ s0.mem.next) (hfresh : ∀ y ∈ ex s0.mem.flag t', y < s0.mem.next)
    (hlog : ∀ y ∈ s0.mem.log, y ∈ s.mem.log ∨ y ∈ ex s.mem.flag t)
    (hw : w = (Trie.toList (erase (plugA t' C))).length) (hwf : Trie.WF (erase (plugA t' C))) :
    ∃ s', store s0 (hole C) t'.node = .ok s' ∧ s'.old = s.old ∧ s'.new.weight = s0.new.weight ∧
      Inv { s' with new := { s'.new with weight := w } } To (some (plugA t' C)) := by
  obtain ⟨p1, p2, p3⟩ := h.parts
  have hlt : ∀ y ∈ addrs (plugA t C), y < s.mem.next := fun y hy => h.fresh y ((h.dom y).2 (h.ownedNew (by simpa [addrsO] using hy)))
  have hnew := h.nodupNew
  simp only [addrsO] at hnew
  rw [(addrs_plug t C).nodup_iff, List.nodup_append] at hnew
  obtain ⟨hnC, hnt, hdis⟩ := hnew
  have hmemC : ∀ y ∈ addrsC C, y ∈ addrs (plugA t C) := fun y hy => (addrs_plug t C).mem_iff.2 (by simp [hy])
  have hCo : ∀ y ∈ addrsC C, s0.mem.obj y = s.mem.obj y := fun y hy =>
    hobj y (hlt y (hmemC y hy)) fun hx => hdis y hy y (ex_sub hx) rfl
  have hRC : RepC s0.mem C t.node := p2.congr fun y hy => by unfold Mem.body; rw [hCo y hy]
  obtain ⟨s1, e1, o1, w1, r1, f1, b1, n1, l1⟩ := store_ok (s := s0) (n := t.node) (D := C) (by rw [hr0]; exact p1) hRC
    (by intro f hf; have := hC f hf; unfold Mem.flag at this ⊢; rw [hCo _ (frame_mem hf)]; exact this) t'.node
  have hfe : s1.mem.flag = s0.mem.flag := funext f1
  refine ⟨s1, e1, by rw [o1, hold], w1, ?_⟩
  refine replace h hC (by simp only; rw [o1, hold]) r1 hw hwf ?_ ?_ ?_ ?_ ?_ ?_ ?_ ?_ ?_ ?_
  · intro y h1 h2
    simp only
    rw [f1]
    unfold Mem.flag
    rw [hobj y h1 h2]
  · intro y h1 h2
    simp only
    rw [b1]
    cases C with
    | nil => simp only [setHole]; unfold Mem.body; rw [hobj y h1 h2]
    | cons f C =>
      simp only [setHole]
      split
      · rfl
      · unfold Mem.body; rw [hobj y h1 h2]
  · refine hrep.congr ?_
    intro y hy
    simp only
    rw [b1]
    cases C with
    | nil => rfl
    | cons f C =>
      simp only [setHole]
      rw [if_neg]
      rintro rfl
      have hfC : f.a ∈ addrsC (f :: C) := frame_mem (by simp)
      rcases hta _ hy with hy | hy
      · exact hdis _ hfC _ hy rfl
      · have := hlt _ (hmemC _ hfC)
        omega
  · simp only [hfe]; exact hfr
  · simp only [hfe]; exact hnd
  · simp only [hfe]; exact hsub
  · simp only [hfe]
    intro y
    rw [← hdom, obj_ne_none, b1, obj_ne_none]
    cases C with
    | nil => rfl
    | cons f C =>
      simp only [setHole]
      split
      · rename_i e
        subst e
        simp only [ne_eq, reduceCtorEq, not_false_iff, true_iff]
        rw [hRC.1]
        simp
      · rfl
  · simp only; rw [n1]; exact hnext
  · simp only [hfe]; rw [n1]; exact hfresh
  · intro y hy
    rcases l1 y hy with hy | hy
    · rcases hlog y hy with hy | hy
      · exact .inl hy
      · exact .inr (.inl hy)
    · exact .inr (.inr hy)

end Knot.Cow
