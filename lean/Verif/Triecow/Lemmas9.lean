import Verif.Triecow.Lemmas8
/-! # Lemmas: deletion from the new trie -/
namespace Knot.Cow
open Knot.Trie (Key)

variable {V : Type}

/-- A search that ends at a difference finds no key. -/
theorem diff_absent {root : Trie.Node V} (hw : Trie.WF root) (key : Key) {s : Trie.Stk V} {a b c : Nat}
    (h : Trie.findBranch root key = .ok (.diff s a b c)) : ∀ e ∈ Trie.toList root, e.1 ≠ key := by
  rcases Trie.findBranch_spec hw key with ⟨s, v, e1, _⟩ | ⟨s, idx, tbit, e0, e1, hp, hm0, htb, hne, hag, hup, htop, hleaf⟩
  · rw [e1] at h; cases h
  · intro e he hk
    have hside := hp.sides hw key ⟨e0, hm0, fun i bmp tw ci hm => (hag e0 hm0).mono (by have := hup i bmp tw ci hm; omega)⟩
    rw [hp.toList] at he
    rcases List.mem_append.1 he with he | he
    · rcases List.mem_append.1 he with he | he
      · have := hside.1 e he
        rw [hk] at this
        exact Trie.KLt_irrefl _ this
      · cases ht : s.top with
        | leaf k v =>
          have h1 := hleaf k v ht
          rw [ht] at he
          simp only [Trie.toList, List.mem_singleton] at he
          rw [h1, ← he, hk] at htb
          exact hne htb.symm
        | branch j bmp tw =>
          obtain ⟨g1, g2, g3⟩ := htop j bmp tw ht
          by_cases hj : idx < j
          · have := g3 hj e he
            rw [hk] at this
            exact hne this
          · have hj : j = idx := by omega
            have hb := g2 hj
            have hwt := hp.wf hw
            rw [ht] at hwt he
            cases hwt with
            | branch _ _ _ _ hbits =>
              simp only [Trie.toList] at he
              obtain ⟨ch, hch, hec⟩ := (Trie.mem_toListL e tw).1 he
              obtain ⟨n, hn⟩ := List.mem_iff_getElem?.1 hch
              have := hbits n ch hn e hec
              have := (Trie.twigoff_of_bits _ _ _ this).2.1
              rw [hk, hj, hb] at this
              cases this
    · have := hside.2 e he
      rw [hk] at this
      exact Trie.KLt_irrefl _ this

/-- The last leaf is removed. -/
theorem delLast_ok {s : St V} {To : Option (AT V)} {k : Nat} {key : Key} {v : V} {m : Mem V}
    (h : Inv s To (some (.leaf k key v))) (hk : s.mem.flag k = false)
    (hob : ∀ y, m.obj y = if y = k then none else s.mem.obj y) (hn : m.next = s.mem.next) (hl : m.log = k :: s.mem.log) :
    Inv { s with mem := m, new := ⟨emptyRoot, 0⟩ } To none := by
  have hex : ex s.mem.flag (.leaf k key v) = [k] := by simp [ex, hk]
  have hfrk : fr s.mem.flag (.leaf k key v) = [] := by simp [fr, hk]
  have hnil : frO s.mem.flag To = [] := by
    have := h.share.length_eq
    simp only [frO] at this
    rw [hfrk] at this
    exact List.eq_nil_of_length_eq_zero this
  have hko : k ∉ addrsO To := h.exNew (by simp only [exO]; rw [hex]; simp)
  have hobO : ∀ y ∈ addrsO To, m.obj y = s.mem.obj y := by
    intro y hy
    rw [hob, if_neg]
    rintro rfl; exact hko hy
  have hfrO : frO m.flag To = [] := by
    rw [← hnil]
    cases To with
    | none => rfl
    | some To => exact fr_congr fun y hy => flag_congr (hobO y hy)
  have hexO : exO m.flag To = exO s.mem.flag To := by
    cases To with
    | none => rfl
    | some To => exact ex_congr fun y hy => flag_congr (hobO y hy)
  have hown : owned s.mem.flag To (some (.leaf k key v)) = exO s.mem.flag To ++ [k] := by
    simp only [owned, hnil, exO, hex, List.flatMap_nil, List.append_nil]
  have hown' : owned m.flag To none = exO s.mem.flag To := by
    unfold owned
    rw [hfrO, hexO]
    simp [exO]
  have hnd := h.nodup
  rw [hown, List.nodup_append] at hnd
  refine ⟨?_, rfl, ?_, ?_, ?_, ?_, ?_, ?_⟩
  · have := h.old
    cases To with
    | none => exact this
    | some To =>
      simp only [Holds] at this ⊢
      exact ⟨this.1, this.2.1, this.2.2.1, this.2.2.2.congr fun y hy => body_congr (hobO y hy)⟩
  · show List.Perm (frO m.flag To) []
    rw [hfrO]
  · show (owned m.flag To none).Nodup
    rw [hown']
    exact hnd.1
  · show ∀ f ∈ frO m.flag To, _
    rw [hfrO]; simp
  · intro y
    show m.obj y ≠ none ↔ y ∈ owned m.flag To none
    rw [hown', hob]
    have := h.dom y
    rw [hown] at this
    by_cases e : y = k
    · subst e
      simp only [if_true, ne_eq, not_true, false_iff]
      intro hy
      exact hnd.2.2 y hy y (by simp) rfl
    · rw [if_neg e, this]
      simp [e]
  · intro y hy
    show y < m.next
    have hy : m.obj y ≠ none := hy
    rw [hob] at hy
    by_cases e : y = k
    · rw [if_pos e] at hy; exact absurd rfl hy
    · rw [if_neg e] at hy
      rw [hn]
      exact h.fresh y hy
  · intro y hy
    have hy : y ∈ m.log := hy
    rw [hl] at hy
    rcases List.mem_cons.1 hy with hy | hy
    · subst hy; exact hko
    · exact h.log y hy

/-- A leaf is removed from its parent. -/
theorem delTwig_ok {s s1 : St V} {To : Option (AT V)} {k : Nat} {key : Key} {v : V} {f : Frame V} {C : List (Frame V)}
    {w : Nat} {tbl : Trie.Trie V}
    (h : Inv s To (some (plugA (f.wrap (.leaf k key v)) C))) (hC : ∀ g ∈ C, s.mem.flag g.a = false)
    (hf : s.mem.flag f.a = false) (hk : s.mem.flag k = false)
    (hob : ∀ y, s1.mem.obj y = if y = k then none else s.mem.obj y) (hn : s1.mem.next = s.mem.next)
    (hl : s1.mem.log = k :: s.mem.log) (hold : s1.old = s.old) (hroot : s1.new.root = s.new.root)
    (hw1 : s1.new.weight = w - 1)
    (hd : Trie.delFound w key v (pathOf (.leaf k key v) (f :: C)) = .ok (tbl, v)) (htbl : Trie.Inv tbl)
    (hwt : tbl.weight ≠ 0) :
    ∃ s' t', delTwig s1 (hole C) key f.l.length = .ok s' ∧ s'.old = s.old ∧ Inv s' To (some (plugA t' C)) ∧
      erase (plugA t' C) = tbl.root := by
  obtain ⟨p1, p2, p3⟩ := h.parts
  have hwf0 : Trie.WF (erase (f.wrap (.leaf k key v))) := by
    have := h.new
    simp only [Holds] at this
    exact wf_plug this.2.2.1
  have hr3 := rep_wrap.1 p3
  have hlt : ∀ y ∈ addrs (f.wrap (.leaf k key v)), y < s.mem.next := fun y hy => h.fresh y (p3.alloc y hy)
  have hall := h.nodupNew
  simp only [addrsO] at hall
  rw [(addrs_plug _ C).nodup_iff, List.nodup_append] at hall
  obtain ⟨hnC, hnt, hdis⟩ := hall
  have hnt2 := hnt
  rw [(addrs_wrap f (.leaf k key v)).nodup_iff] at hnt2
  simp only [addrs, List.cons_append, List.nodup_cons, List.append_assoc] at hnt2
  rw [← List.append_assoc, List.nodup_append] at hnt2
  obtain ⟨hna, hnlr, _, hnk⟩ := hnt2
  have hmw : ∀ y, y ∈ addrs (f.wrap (.leaf k key v)) ↔ y = f.a ∨ y ∈ f.l.flatMap addrs ∨ y ∈ f.r.flatMap addrs ∨ y = k := by
    intro y
    rw [(addrs_wrap f (.leaf k key v)).mem_iff]
    simp only [addrs, List.mem_append, List.mem_cons, List.not_mem_nil, or_false, or_assoc]
  have hak : f.a ≠ k := by
    intro e
    exact hna (by simp [e])
  have hkC : k ∉ addrsC C := fun hy => hdis k hy k ((hmw k).2 (.inr (.inr (.inr rfl)))) rfl
  have haC : f.a ∉ addrsC C := fun hy => hdis f.a hy f.a ((hmw f.a).2 (.inl rfl)) rfl
  have hkN : k < s.mem.next := hlt k ((hmw k).2 (.inr (.inr (.inr rfl))))
  have haN : f.a < s.mem.next := hlt f.a ((hmw f.a).2 (.inl rfl))
  have hkid : ∀ c, (c ∈ f.l ∨ c ∈ f.r) → ∀ y ∈ addrs c, y ≠ k ∧ y ≠ f.a ∧ y < s.mem.next ∧ y ∉ addrsC C := by
    intro c hc y hy
    have hy2 : y ∈ f.l.flatMap addrs ++ f.r.flatMap addrs := by
      rw [List.mem_append]
      rcases hc with hc | hc
      · exact .inl (List.mem_flatMap.2 ⟨c, hc, hy⟩)
      · exact .inr (List.mem_flatMap.2 ⟨c, hc, hy⟩)
    have hy3 : y ∈ addrs (f.wrap (.leaf k key v)) := by
      rw [hmw]
      rcases List.mem_append.1 hy2 with h | h
      · exact .inr (.inl h)
      · exact .inr (.inr (.inl h))
    refine ⟨fun e => hnk y hy2 k (by simp) e, ?_, hlt y hy3, fun hc => hdis y hc y hy3 rfl⟩
    rintro rfl
    refine hna ?_
    simp only [List.mem_append] at hy2 ⊢
    exact .inl hy2
  have hext : List.Perm (ex s.mem.flag (f.wrap (.leaf k key v)))
      (f.a :: k :: (f.l.flatMap (ex s.mem.flag) ++ f.r.flatMap (ex s.mem.flag))) := by
    refine (ex_wrap _ hf).trans ?_
    rw [show ex s.mem.flag (.leaf k key v) = [k] by simp [ex, hk]]
    rw [List.cons_append]
    exact List.Perm.cons _ List.perm_append_comm
  have hfrt : List.Perm (fr s.mem.flag (f.wrap (.leaf k key v))) (f.l.flatMap (fr s.mem.flag) ++ f.r.flatMap (fr s.mem.flag)) := by
    refine (fr_wrap _ hf).trans ?_
    rw [show fr s.mem.flag (.leaf k key v) = [] by simp [fr, hk], List.append_nil]
  have hexlr : ∀ y ∈ f.l.flatMap (ex s.mem.flag) ++ f.r.flatMap (ex s.mem.flag),
      y ≠ k ∧ y ≠ f.a ∧ y < s.mem.next ∧ s.mem.obj y ≠ none := by
    intro y hy
    have : ∃ c, (c ∈ f.l ∨ c ∈ f.r) ∧ y ∈ addrs c ∧ Rep s.mem c := by
      rcases List.mem_append.1 hy with hy | hy
      · obtain ⟨c, hc, hy⟩ := List.mem_flatMap.1 hy
        exact ⟨c, .inl hc, ex_sub hy, hr3.2.1 c hc⟩
      · obtain ⟨c, hc, hy⟩ := List.mem_flatMap.1 hy
        exact ⟨c, .inr hc, ex_sub hy, hr3.2.2.1 c hc⟩
    obtain ⟨c, hc, hy, hrc⟩ := this
    obtain ⟨q1, q2, q3, _⟩ := hkid c hc y hy
    exact ⟨q1, q2, q3, hrc.alloc y hy⟩
  have hexnd : (f.l.flatMap (ex s.mem.flag) ++ f.r.flatMap (ex s.mem.flag)).Nodup := by
    have hd := (addrs_split s.mem.flag (f.wrap (.leaf k key v))).nodup_iff.1 hnt
    have := (List.nodup_append.1 hd).1
    rw [hext.nodup_iff] at this
    exact (List.nodup_cons.1 (List.nodup_cons.1 this).2).2
  -- the state after the key was freed
  have hb1 : ∀ y, y ≠ k → s1.mem.body y = s.mem.body y := fun y hy => body_congr (by rw [hob, if_neg hy])
  have hf1 : ∀ y, y ≠ k → s1.mem.flag y = s.mem.flag y := fun y hy => flag_congr (by rw [hob, if_neg hy])
  have hRC : RepC s1.mem C (f.wrap (.leaf k key v)).node := p2.congr fun y hy => hb1 y (by rintro rfl; exact hkC hy)
  have hload : load s1 (hole C) = .ok (f.wrap (.leaf k key v)).node := load_ok (by rw [hroot]; exact p1) hRC
  have hbody : s1.mem.body f.a = some (.twigs ((f.l ++ AT.leaf k key v :: f.r).map AT.node)) := by
    rw [hb1 _ hak]; exact hr3.1
  have hC1 : ∀ g ∈ C, s1.mem.flag g.a = false := fun g hg => by
    rw [hf1 _ (by rintro e; exact hkC (e ▸ frame_mem hg))]; exact hC g hg
  unfold delTwig
  rw [hload]
  simp only [Res.bind_ok, Frame.wrap, AT.node]
  rw [twigs_of hbody]
  simp only [Res.bind_ok]
  simp only [pathOf, Frame.wrap, erase, Trie.delFound, eraseL_eq] at hd
  by_cases hw2 : Trie.branchWeight f.bmp = 2
  · rw [if_pos hw2] at hd ⊢
    -- the other child
    have hc : ∃ c, (f.l = [c] ∧ f.r = []) ∨ (f.l = [] ∧ f.r = [c]) := by
      simp only [Frame.wrap, erase, eraseL_eq] at hwf0
      cases hwf0 with
      | branch hl2 _ _ _ _ =>
        rw [hw2] at hl2
        simp only [List.length_map, List.length_append, List.length_cons] at hl2
        cases e1 : f.l with
        | nil =>
          cases e2 : f.r with
          | nil => rw [e1, e2] at hl2; simp at hl2
          | cons c r' =>
            rw [e1, e2] at hl2
            simp only [List.length_nil, List.length_cons] at hl2
            have : r' = [] := List.eq_nil_of_length_eq_zero (by omega)
            subst this
            exact ⟨c, .inr ⟨rfl, rfl⟩⟩
        | cons c l' =>
          rw [e1] at hl2
          simp only [List.length_cons] at hl2
          have h1 : l' = [] := List.eq_nil_of_length_eq_zero (by omega)
          have h2 : f.r = [] := List.eq_nil_of_length_eq_zero (by omega)
          subst h1
          exact ⟨c, .inl ⟨rfl, h2⟩⟩
    obtain ⟨c, hc⟩ := hc
    have hrd : Res.rd ((f.l ++ AT.leaf k key v :: f.r).map AT.node) (1 - f.l.length) = .ok c.node := by
      rcases hc with ⟨e1, e2⟩ | ⟨e1, e2⟩ <;> rw [e1, e2] <;> simp [Res.rd]
    have hrd2 : Res.rd ((f.l ++ AT.leaf k key v :: f.r).map erase) (1 - f.l.length) = .ok (erase c) := by
      rcases hc with ⟨e1, e2⟩ | ⟨e1, e2⟩ <;> rw [e1, e2] <;> simp [Res.rd]
    rw [hrd2] at hd
    simp only [Res.bind_ok] at hd
    injection hd with hd
    simp only [Prod.mk.injEq, and_true] at hd
    rw [hrd]
    simp only [Res.bind_ok]
    have hcm : c ∈ f.l ∨ c ∈ f.r := by rcases hc with ⟨e1, e2⟩ | ⟨e1, e2⟩ <;> rw [e1, e2] <;> simp
    have hexc : f.l.flatMap (ex s.mem.flag) ++ f.r.flatMap (ex s.mem.flag) = ex s.mem.flag c := by
      rcases hc with ⟨e1, e2⟩ | ⟨e1, e2⟩ <;> rw [e1, e2] <;> simp
    have hfrc : f.l.flatMap (fr s.mem.flag) ++ f.r.flatMap (fr s.mem.flag) = fr s.mem.flag c := by
      rcases hc with ⟨e1, e2⟩ | ⟨e1, e2⟩ <;> rw [e1, e2] <;> simp
    have hrc : Rep s.mem c := by
      rcases hcm with hcm | hcm
      · exact hr3.2.1 c hcm
      · exact hr3.2.2.1 c hcm
    rw [hexc] at hext hexlr hexnd
    rw [hfrc] at hfrt
    obtain ⟨s2, e2, o2, w2, r2, f2, b2, n2, l2⟩ := store_ok (s := s1) (n := (f.wrap (.leaf k key v)).node) (D := C)
      (by rw [hroot]; exact p1) hRC hC1 c.node
    rw [e2]
    simp only [Res.bind_ok]
    have hb2 : ∀ y, y ∉ addrsC C → s2.mem.body y = s1.mem.body y := by
      intro y hy
      rw [b2]
      cases C with
      | nil => rfl
      | cons g C =>
        simp only [setHole]
        rw [if_neg (by rintro rfl; exact hy (frame_mem (by simp)))]
    obtain ⟨m3, e3, ob3, n3, l3⟩ := free_ok (m := s2.mem) (a := f.a) (by rw [obj_ne_none, hb2 _ haC, hbody]; simp)
    rw [e3]
    simp only [Res.bind_ok]
    have hf3 : ∀ y, y ≠ f.a → y ≠ k → m3.flag y = s.mem.flag y := by
      intro y h1 h2
      rw [show m3.flag y = s2.mem.flag y from flag_congr (by rw [ob3, if_neg h1]), f2, hf1 y h2]
    have hb3 : ∀ y, y ≠ f.a → m3.body y = s2.mem.body y := fun y h1 => body_congr (by rw [ob3, if_neg h1])
    have hcf : ∀ y ∈ addrs c, m3.flag y = s.mem.flag y := fun y hy => by
      obtain ⟨q1, q2, _⟩ := hkid c hcm y hy
      exact hf3 y q2 q1
    have hpl : erase (plugA c C) = tbl.root := by
      rw [← hd]
      simp only
      rw [← plug_path c (f.wrap (.leaf k key v)) C]
      simp [Frame.wrap]
    have hti := tr_inv (r := tbl.root) (w := tbl.weight) htbl hwt
    have htw : tbl.weight = w - 1 := by rw [← hd]
    refine ⟨_, c, rfl, by simp only; rw [o2, hold], ?_, hpl⟩
    refine replace h hC (by simp only; rw [o2, hold]) (by simp only; rw [r2]) ?_ (by rw [hpl]; exact hti.1) ?_ ?_ ?_ ?_ ?_ ?_ ?_ ?_ ?_ ?_
    · simp only
      rw [w2, hw1, hpl, ← hti.2.1, htw]
    · intro y h1 h2
      rw [hext.mem_iff] at h2
      simp only [List.mem_cons, not_or] at h2
      exact hf3 y h2.1 h2.2.1
    · intro y h1 h2
      rw [hext.mem_iff] at h2
      simp only [List.mem_cons, not_or] at h2
      simp only
      rw [hb3 y h2.1, b2]
      cases C with
      | nil => simp only [setHole]; exact hb1 y h2.2.1
      | cons g C =>
        simp only [setHole]
        split
        · rfl
        · exact hb1 y h2.2.1
    · refine hrc.congr fun y hy => ?_
      obtain ⟨q1, q2, _, q4⟩ := hkid c hcm y hy
      simp only
      rw [hb3 y q2, hb2 y q4, hb1 y q1]
    · simp only
      rw [fr_congr hcf]
      exact hfrt.symm
    · simp only
      rw [ex_congr hcf]
      exact hexnd
    · simp only
      rw [ex_congr hcf]
      intro y hy
      left
      rw [hext.mem_iff]
      simp [hy]
    · simp only
      rw [ex_congr hcf]
      intro y
      rw [hext.mem_iff, ob3]
      simp only [List.mem_cons, not_or]
      by_cases c1 : y = f.a
      · subst c1
        have : f.a ∉ ex s.mem.flag c := fun hy => (hexlr _ hy).2.1 rfl
        simp [this]
      · rw [if_neg c1, obj_ne_none, b2]
        have hset : setHole C c.node s1.mem.body y ≠ none ↔ s1.mem.obj y ≠ none := by
          rw [obj_ne_none]
          cases C with
          | nil => rfl
          | cons g C =>
            simp only [setHole]
            split
            · rename_i e
              subst e
              rw [hRC.1]
              simp
            · rfl
        rw [hset, hob]
        by_cases c2 : y = k
        · subst c2
          have : y ∉ ex s.mem.flag c := fun hy => (hexlr _ hy).1 rfl
          simp [this]
        · rw [if_neg c2]
          constructor
          · intro hy
            by_cases c4 : y ∈ ex s.mem.flag c
            · exact .inl c4
            · exact .inr ⟨hy, c1, c2, c4⟩
          · rintro (hy | hy)
            · exact (hexlr y hy).2.2.2
            · exact hy.1
    · simp only
      rw [n3, n2, hn]
      exact Nat.le_refl _
    · simp only
      rw [ex_congr hcf, n3, n2, hn]
      intro y hy
      exact (hexlr y hy).2.2.1
    · intro y hy
      simp only [l3] at hy
      rcases List.mem_cons.1 hy with hy | hy
      · right; left; rw [hext.mem_iff]; simp [hy]
      · rcases l2 y hy with hy | hy
        · rw [hl] at hy
          rcases List.mem_cons.1 hy with hy | hy
          · right; left; rw [hext.mem_iff]; simp [hy]
          · exact .inl hy
        · exact .inr (.inr hy)
  · rw [if_neg hw2] at hd ⊢
    injection hd with hd
    simp only [Prod.mk.injEq, and_true] at hd
    let bmp' := f.bmp ^^^ (f.bmp &&& 2 ^ Trie.keybit f.i key)
    let t' : AT V := .branch s.mem.next f.i bmp' (f.l ++ f.r)
    have hei : ((f.l ++ AT.leaf k key v :: f.r).map AT.node).eraseIdx f.l.length = (f.l ++ f.r).map AT.node := by
      rw [List.map_append, List.map_cons, List.eraseIdx_append_of_length_le (by simp)]
      simp
    have hei2 : ((f.l ++ AT.leaf k key v :: f.r).map erase).eraseIdx f.l.length = (f.l ++ f.r).map erase := by
      rw [List.map_append, List.map_cons, List.eraseIdx_append_of_length_le (by simp)]
      simp
    have hpl : erase (plugA t' C) = tbl.root := by
      rw [← hd]
      simp only
      rw [← plug_path t' (f.wrap (.leaf k key v)) C, hei2]
      simp [t', bmp', Frame.wrap, erase, eraseL_eq]
    have hti := tr_inv (r := tbl.root) (w := tbl.weight) htbl hwt
    have htw : tbl.weight = w - 1 := by rw [← hd]
    have hoa : s1.mem.obj f.a = some ⟨false, .twigs ((f.l ++ AT.leaf k key v :: f.r).map AT.node)⟩ := by
      rw [obj_of hbody, hf1 _ hak, hf]
    obtain ⟨m2, e2, ob2, n2, l2⟩ := free_ok (m := s1.mem) (a := f.a) (by rw [hoa]; simp)
    let m3 := (m2.alloc (.twigs ((f.l ++ f.r).map AT.node))).1
    have hn2 : m2.next = s.mem.next := by rw [n2, hn]
    have hob3 : ∀ y, m3.obj y = if y = s.mem.next then some ⟨false, .twigs ((f.l ++ f.r).map AT.node)⟩ else if y = f.a then none
        else if y = k then none else s.mem.obj y := by
      intro y
      simp only [m3]
      rw [alloc_obj, hn2, ob2, hob]
    have hkeep : ∀ y, y ≠ f.a → y ≠ k → y < s.mem.next → m3.obj y = s.mem.obj y := by
      intro y h1 h2 h3
      rw [hob3, if_neg (by omega), if_neg h1, if_neg h2]
    have hkk : ∀ c ∈ f.l ++ f.r, ∀ y ∈ addrs c, m3.obj y = s.mem.obj y := by
      intro c hc y hy
      obtain ⟨q1, q2, q3, _⟩ := hkid c (List.mem_append.1 hc) y hy
      exact hkeep y q2 q1 q3
    have hf3 : m3.flag s.mem.next = false := by unfold Mem.flag; rw [hob3, if_pos rfl]; rfl
    have hfrt' : fr m3.flag t' = f.l.flatMap (fr s.mem.flag) ++ f.r.flatMap (fr s.mem.flag) := by
      rw [fr_eq]
      simp only [t', AT.top, AT.kids, hf3, Bool.false_eq_true, if_false]
      rw [← List.flatMap_append]
      exact flatMap_congr' fun c hc => fr_congr fun y hy => flag_congr (hkk c hc y hy)
    have hext' : ex m3.flag t' = s.mem.next :: (f.l.flatMap (ex s.mem.flag) ++ f.r.flatMap (ex s.mem.flag)) := by
      rw [ex_eq]
      simp only [t', AT.top, AT.kids, hf3, Bool.false_eq_true, if_false]
      rw [← List.flatMap_append]
      congr 1
      exact flatMap_congr' fun c hc => ex_congr fun y hy => flag_congr (hkk c hc y hy)
    obtain ⟨s', g1, o1, w1, i1⟩ := finish (s := s) (s0 := { s1 with mem := m3 }) (t' := t') (w := w - 1) h hC hold hroot (by
        intro y h1 h2
        rw [hext.mem_iff] at h2
        simp only [List.mem_cons, not_or] at h2
        exact hkeep y h2.1 h2.2.1 h1) (by
        rw [rep_iff]
        constructor
        · simp only [t', AT.top, AT.body]
          unfold Mem.body
          rw [hob3, if_pos rfl]
          rfl
        · intro c hc
          have hc : c ∈ f.l ++ f.r := hc
          have : Rep s.mem c := by
            rcases List.mem_append.1 hc with hc | hc
            · exact hr3.2.1 c hc
            · exact hr3.2.2.1 c hc
          exact this.congr fun y hy => body_congr (hkk c hc y hy)) (by
        intro y hy
        rw [addrs_kids] at hy
        simp only [t', AT.top, AT.kids, List.flatMap_append, List.mem_cons, List.mem_append] at hy
        rcases hy with hy | hy | hy
        · exact .inr (by omega)
        · exact .inl ((hmw y).2 (.inr (.inl hy)))
        · exact .inl ((hmw y).2 (.inr (.inr (.inl hy))))) (by
        simp only
        rw [hfrt']
        exact hfrt.symm) (by
        simp only
        rw [hext', List.nodup_cons]
        refine ⟨fun hy => ?_, hexnd⟩
        have := (hexlr _ hy).2.2.1
        omega) (by
        intro y hy
        simp only at hy
        rw [hext', List.mem_cons] at hy
        rw [hext.mem_iff]
        rcases hy with hy | hy
        · exact .inr (by omega)
        · exact .inl (by simp only [List.mem_cons]; exact .inr (.inr hy))) (by
        intro y
        simp only
        rw [hext', hext.mem_iff, hob3]
        simp only [List.mem_cons, not_or]
        by_cases c1 : y = s.mem.next
        · simp [c1]
        · rw [if_neg c1]
          by_cases c2 : y = f.a
          · subst c2
            have h3 : f.a ∉ f.l.flatMap (ex s.mem.flag) ++ f.r.flatMap (ex s.mem.flag) := fun hy => (hexlr _ hy).2.1 rfl
            simp only [if_true, ne_eq, not_true, false_iff, not_or]
            exact ⟨⟨c1, h3⟩, by simp⟩
          · rw [if_neg c2]
            by_cases c3 : y = k
            · subst c3
              have h3 : y ∉ f.l.flatMap (ex s.mem.flag) ++ f.r.flatMap (ex s.mem.flag) := fun hy => (hexlr _ hy).1 rfl
              simp only [if_true, ne_eq, not_true, false_iff, not_or]
              exact ⟨⟨c1, h3⟩, by simp⟩
            · rw [if_neg c3]
              constructor
              · intro hy
                by_cases c4 : y ∈ f.l.flatMap (ex s.mem.flag) ++ f.r.flatMap (ex s.mem.flag)
                · exact .inl (.inr c4)
                · exact .inr ⟨hy, c2, c3, c4⟩
              · rintro ((hy | hy) | hy)
                · exact absurd hy c1
                · exact (hexlr y hy).2.2.2
                · exact hy.1) (by
        simp only [m3, Mem.alloc]; omega) (by
        intro y hy
        simp only at hy
        rw [hext', List.mem_cons] at hy
        have : m3.next = s.mem.next + 1 := by simp only [m3, Mem.alloc]; omega
        simp only [this]
        rcases hy with hy | hy
        · omega
        · have := (hexlr _ hy).2.2.1; omega) (by
        intro y hy
        simp only [m3, Mem.alloc, Mem.upd, l2, hl] at hy
        rw [hext.mem_iff]
        simp only [List.mem_cons] at hy ⊢
        rcases hy with hy | hy | hy
        · exact .inr (.inl hy)
        · exact .inr (.inr (.inl hy))
        · exact .inl hy) (by rw [hpl, ← hti.2.1, htw]) (by rw [hpl]; exact hti.1)
    refine ⟨s', t', ?_, o1, ?_, hpl⟩
    · unfold Mem.realloc
      rw [hoa]
      simp only
      rw [e2]
      simp only [Res.bind_ok]
      rw [← g1, hei]
      simp only [t', AT.node, m3, bmp']
      congr 2
    · have : s'.new.weight = w - 1 := by rw [w1]; exact hw1
      rwa [St.eta_weight this] at i1

theorem delCow_ok {s : St V} {To Tn : Option (AT V)} (h : Inv s To Tn) (key : Key) :
    ∃ s' Tn', delCow s key = .ok (s', OrdMap.lookup (entriesO Tn) key) ∧ s'.old = s.old ∧ Inv s' To Tn' ∧
      entriesO Tn' = OrdMap.erase key (entriesO Tn) := by
  cases Tn with
  | none =>
    have h0 : s.new.weight = 0 := h.new
    unfold delCow
    rw [if_pos h0]
    exact ⟨s, none, rfl, rfl, h, rfl⟩
  | some T =>
    obtain ⟨fi, hne, fe⟩ := Holds.inv h.new
    have hwf : Trie.WF (erase T) := h.new.2.2.1
    have hwl : s.new.weight = (Trie.toList (erase T)).length := h.new.2.1
    unfold delCow
    rw [if_neg hne]
    simp only [entriesO]
    rcases Trie.findBranch_spec hwf key with ⟨sk, v, e1, e2⟩ | ⟨sk, idx, tbit, e0, e1, _⟩
    · obtain ⟨t, C, d, p1, p2, p3, p4⟩ := findBranch_sim h.sees h.fuelNew key e1
      cases d with
      | some d => obtain ⟨a, b, c⟩ := d; simp only at p3; cases p3
      | none =>
        simp only at p3
        injection p3 with p3
        subst p1
        obtain ⟨k, v', e⟩ := p4 rfl
        subst e
        rw [p3] at e2
        have hv : v' = v := by
          have := e2.1
          simp only [erase] at this
          injection this
        subst hv
        rw [p2]
        simp only [Res.bind_ok]
        obtain ⟨s1, C1, x, q1, i1, c1, x1, st1, o1, w1⟩ := pushdown_path h
        rw [q1]
        simp only [Res.bind_ok, List.reverse_reverse]
        have hpath : pathOf ((AT.leaf k key v').retop x) C1 = pathOf (AT.leaf k key v') C := path_strip st1 (erase_retop _ x)
        obtain ⟨tbl', d1, d2, d3, d4⟩ := Trie.delFound_spec hwf _ key v' e2
        simp only at d1 d3
        have hsorted := hwf.sorted
        rw [e2.toList] at hsorted
        have hs := Trie.sorted_sides hsorted
        have hlook : OrdMap.lookup (Trie.toList (erase (plugA (.leaf k key v') C))) key = some v' := by
          rw [e2.toList]
          rw [Trie.lookup_present key v' _ _ (fun e he h => by have := hs.1 e he; rw [h] at this; exact Trie.KLt_irrefl _ this)]
        have herase : OrdMap.erase key (Trie.toList (erase (plugA (.leaf k key v') C))) = Trie.entries tbl' := by
          rw [d3, e2.toList, Trie.erase_present key v' _ _ hs.1 hs.2]
        rw [hlook, herase]
        have i1' : Inv s1 To (some (plugA (.leaf x key v') C1)) := i1
        obtain ⟨r1, r2, r3⟩ := i1'.parts
        have hkx : s1.mem.obj x ≠ none := r3.alloc x (by simp [addrs])
        obtain ⟨m2, f1, f2, f3, f4⟩ := free_ok (m := s1.mem) (a := x) hkx
        simp only [delFound, stackOf]
        rw [load_ok r1 r2]
        simp only [Res.bind_ok, AT.node]
        rw [getFlag_of hkx, x1]
        simp only [Res.bind_ok, Bool.false_eq_true, if_false]
        rw [f1]
        simp only [Res.bind_ok]
        cases C1 with
        | nil =>
          cases C with
          | cons g C => simp at st1
          | nil =>
            simp only [pathOf, Trie.delFound] at d1
            simp only [upOf]
            split at d1
            · rename_i hz
              injection d1 with d1
              simp only [Prod.mk.injEq, and_true] at d1
              rw [if_pos (by rw [w1, hwl]; exact hz)]
              simp only [Res.bind_ok]
              refine ⟨_, none, rfl, o1, delLast_ok i1' x1 f2 f3 f4, ?_⟩
              rw [← d1]
              rfl
            · cases d1
        | cons g C1 =>
          cases C with
          | nil => simp at st1
          | cons g0 C =>
          simp only [upOf, hole]
          have hwt : tbl'.weight ≠ 0 := by
            rw [d4]
            -- a branch has at least two entries
            have hwf1 := i1'.new
            simp only [Holds] at hwf1
            rw [← hwl, ← w1, hwf1.2.1]
            have hb := wf_plug (t := g.wrap (.leaf x key v')) hwf1.2.2.1
            intro hz
            obtain ⟨e1, r, he⟩ : ∃ a r, Trie.toList (erase (plugA (g.wrap (.leaf x key v')) C1)) = a :: r ∧ r = [] := by
              have h1 : 0 < (Trie.toList (erase (plugA (g.wrap (.leaf x key v')) C1))).length := by
                obtain ⟨e, he⟩ := hwf1.2.2.1.nonempty
                exact List.length_pos_of_mem he
              cases he : Trie.toList (erase (plugA (g.wrap (.leaf x key v')) C1)) with
              | nil => rw [he] at h1; simp at h1
              | cons a r =>
                refine ⟨a, r, rfl, ?_⟩
                have hz : (Trie.toList (erase (plugA (g.wrap (.leaf x key v')) C1))).length - 1 = 0 := hz
                rw [he] at hz
                exact List.eq_nil_of_length_eq_zero (by simpa using hz)
            have hle : (Trie.toList (erase (g.wrap (.leaf x key v')))).length ≤
                (Trie.toList (erase (plugA (g.wrap (.leaf x key v')) C1))).length := by
              have : ∀ (C : List (Frame V)) (t : AT V), (Trie.toList (erase t)).length ≤ (Trie.toList (erase (plugA t C))).length := by
                intro C
                induction C with
                | nil => intro t; exact Nat.le_refl _
                | cons f C ih =>
                  intro t
                  refine Nat.le_trans ?_ (ih (f.wrap t))
                  simp only [Frame.wrap, erase, eraseL_eq, List.map_append, List.map_cons, Trie.toList,
                    Trie.toListL_append, Trie.toListL, List.length_append]
                  omega
              exact this C1 _
            have h2 : 2 ≤ (Trie.toList (erase (g.wrap (.leaf x key v')))).length := by
              simp only [Frame.wrap, erase, eraseL_eq] at hb ⊢
              cases hb with
              | branch _ hb2 hbc _ _ =>
                have : ∀ l : List (Trie.Node V), (∀ c ∈ l, Trie.WF c) → l.length ≤ (Trie.toListL l).length := by
                  intro l
                  induction l with
                  | nil => intro _; simp
                  | cons c l ih =>
                    intro hl
                    obtain ⟨e, he⟩ := (hl c (by simp)).nonempty
                    have := List.length_pos_of_mem he
                    have := ih fun d hd => hl d (by simp [hd])
                    simp only [Trie.toListL, List.length_append, List.length_cons]
                    omega
                simp only [Trie.toList]
                exact Nat.le_trans hb2 (this _ hbc)
            have h3 : (Trie.toList (erase (plugA (g.wrap (.leaf x key v')) C1))).length = 1 := by
              rw [he.1, he.2]; rfl
            omega
          obtain ⟨s', t', g1, g2, g3, g4⟩ := delTwig_ok (s := s1)
            (s1 := { s1 with mem := m2, new := { s1.new with weight := s1.new.weight - 1 } }) (k := x) (v := v') (f := g) (C := C1)
            (w := s.new.weight) (tbl := tbl') i1' (fun f hf => c1 f (by simp [hf])) (c1 g (by simp)) x1 f2 f3 f4 rfl rfl
            (by simp only; rw [w1]) (by
              have := hpath
              simp only [AT.retop] at this
              rw [this, hwl]
              exact d1) d2 hwt
          have g1' : delTwig { mem := m2, old := s1.old, new := { root := s1.new.root, weight := s1.new.weight - 1 } } (hole C1) key g.l.length = .ok s' := g1
          cases C1 <;>
          · simp only [hole] at g1' ⊢
            rw [g1']
            simp only [Res.bind_ok]
            refine ⟨s', _, rfl, by rw [g2, o1], g3, ?_⟩
            simp only [entriesO]
            rw [g4]
            unfold Trie.entries
            rw [if_neg hwt]
    · obtain ⟨t, C, d, p1, p2, p3, p4⟩ := findBranch_sim h.sees h.fuelNew key e1
      cases d with
      | none => simp only at p3; cases p3
      | some d =>
        rw [p2]
        simp only [Res.bind_ok]
        have hab := diff_absent hwf key e1
        rw [Trie.lookup_absent key _ hab, Trie.erase_absent key _ hab]
        exact ⟨s, some T, rfl, rfl, h, rfl⟩

end Knot.Cow
