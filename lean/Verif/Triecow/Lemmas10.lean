import Verif.Triecow.Lemmas9
/-! # Lemmas: reading, and the beginning and the end of a transaction -/
namespace Knot.Cow
open Knot.Trie (Key)

variable {V : Type}

/-! ### Reading -/

theorem fuel_kid {t c : AT V} {fuel : Nat} (h : (addrs t).length ≤ fuel + 1) (hc : c ∈ t.kids) :
    (addrs c).length ≤ fuel := by
  rw [addrs_kids] at h
  simp only [List.length_cons] at h
  have : (addrs c).length ≤ (t.kids.flatMap addrs).length := by
    obtain ⟨l, r, e⟩ := List.append_of_mem hc
    rw [e]
    simp only [List.flatMap_append, List.flatMap_cons, List.length_append]
    omega
  omega

theorem fuel_pos {t : AT V} {fuel : Nat} (h : (addrs t).length ≤ fuel) : ∃ n, fuel = n + 1 := by
  rw [addrs_kids] at h
  simp only [List.length_cons] at h
  exact ⟨fuel - 1, by omega⟩

theorem getTryNode_sim {m : Mem V} (key : Key) (t : AT V) : ∀ (fuel : Nat), Rep m t → Trie.WF (erase t) →
    (addrs t).length ≤ fuel → getTryNode m fuel t.node key = Trie.getTryNode (erase t) key := by
  induction t using AT.ind with
  | h t ih =>
    intro fuel hr hw hf
    obtain ⟨fuel, rfl⟩ := fuel_pos hf
    have hr' := (rep_iff _ _).1 hr
    cases t with
    | leaf k lkey v =>
      have hb := hr'.1
      simp only [AT.top, AT.body] at hb
      simp only [AT.node, getTryNode, erase]
      rw [key_of hb, Trie.getTryNode]
      rfl
    | branch a i bmp tw =>
      have hb := hr'.1
      simp only [AT.top, AT.body] at hb
      simp only [AT.node, getTryNode, erase]
      have hR : Trie.getTryNode (.branch i bmp (eraseL tw)) key = if bmp.testBit (Trie.keybit i key) then
          (match Trie.twig bmp (eraseL tw) (Trie.twigoff bmp (Trie.keybit i key)) with
            | .ok c => Trie.getTryNode c key
            | _ => .ub) else .ok none := by
        rw [Trie.getTryNode]
        split
        · split
          · rename_i h; rw [h]
          · rename_i h
            split
            · rename_i c hc; exact absurd hc (h c)
            · rfl
        · rfl
      rw [hR]
      split
      · simp only [Mem.twig]
        rw [twigs_of hb]
        simp only [Res.bind_ok, Trie.twig, Res.rd, eraseL_eq, List.getElem?_map]
        split
        · cases hd : tw[Trie.twigoff bmp (Trie.keybit i key)]? with
          | none => rfl
          | some d =>
            have hdm : d ∈ tw := List.mem_of_getElem? hd
            simp only [Option.map_some, Res.bind_ok]
            refine ih d hdm fuel (hr'.2 d hdm) ?_ (fuel_kid hf hdm)
            simp only [erase, eraseL_eq] at hw
            cases hw with
            | branch _ _ hch _ _ => exact hch _ (List.mem_map_of_mem hdm)
        · rfl
      · rfl

theorem mapM'_ok {α β : Type} {f : α → Res β} {g : α → β} {l : List α} (h : ∀ a ∈ l, f a = .ok (g a)) :
    mapM' f l = .ok (l.map g) := by
  induction l with
  | nil => rfl
  | cons a l ih =>
    unfold mapM'
    rw [h a (by simp), ih fun b hb => h b (by simp [hb])]
    rfl

theorem mapM'_map {α β γ : Type} {f : β → Res γ} {n : α → β} (l : List α) : mapM' f (l.map n) = mapM' (fun a => f (n a)) l := by
  induction l with
  | nil => rfl
  | cons a l ih => simp only [List.map_cons, mapM', ih]

theorem toListL_flat (l : List (AT V)) : Trie.toListL (eraseL l) = (l.map fun t => Trie.toList (erase t)).flatten := by
  induction l with
  | nil => rfl
  | cons t l ih => simp [eraseL, Trie.toListL, ih]

theorem collect_ok {m : Mem V} (t : AT V) : ∀ (fuel : Nat), Rep m t → (addrs t).length ≤ fuel →
    collect m fuel t.node = .ok (Trie.toList (erase t)) := by
  induction t using AT.ind with
  | h t ih =>
    intro fuel hr hf
    obtain ⟨fuel, rfl⟩ := fuel_pos hf
    have hr' := (rep_iff _ _).1 hr
    cases t with
    | leaf k lkey v =>
      have hb := hr'.1
      simp only [AT.top, AT.body] at hb
      simp only [AT.node, collect, erase]
      rw [key_of hb]
      rfl
    | branch a i bmp tw =>
      have hb := hr'.1
      simp only [AT.top, AT.body] at hb
      simp only [AT.node, collect, erase]
      rw [twigs_of hb]
      simp only [Res.bind_ok]
      rw [mapM'_map, mapM'_ok (l := tw) (g := fun t => Trie.toList (erase t)) fun c hc => ih c hc fuel (hr'.2 c hc) (fuel_kid hf hc)]
      simp only [Res.bind_ok, Trie.toList]
      rw [toListL_flat]

theorem Holds.contents {m : Mem V} {tb : Trie V} {T : Option (AT V)} (h : Holds m tb T)
    (hf : (addrsO T).length ≤ m.next) : contents m tb = .ok (entriesO T) := by
  unfold Cow.contents
  cases T with
  | none => rw [if_pos (show tb.weight = 0 from h)]; rfl
  | some T =>
    rw [if_neg h.inv.2.1, h.1]
    exact collect_ok T _ h.2.2.2 hf

theorem Holds.getTry {m : Mem V} {tb : Trie V} {T : Option (AT V)} (h : Holds m tb T)
    (hf : (addrsO T).length ≤ m.next) (key : Key) : getTry m tb key = .ok (OrdMap.lookup (entriesO T) key) := by
  unfold Cow.getTry
  cases T with
  | none => rw [if_pos (show tb.weight = 0 from h)]; rfl
  | some T =>
    rw [if_neg h.inv.2.1, h.1, getTryNode_sim key T _ h.2.2.2 h.2.2.1 hf, Trie.getTryNode_spec h.2.2.1]
    rfl

theorem Holds.weight {m : Mem V} {tb : Trie V} {T : Option (AT V)} (h : Holds m tb T) :
    tb.weight = (entriesO T).length := by
  cases T with
  | none => exact h
  | some T => exact h.2.1

/-! ### Between transactions -/

/-- A trie without a transaction. -/
structure Idle (m : Mem V) (tb : Trie V) (T : Option (AT V)) : Prop where
  holds : Holds m tb T
  nodup : (addrsO T).Nodup
  clean : ∀ y, m.flag y = false
  dom : ∀ y, m.obj y ≠ none ↔ y ∈ addrsO T
  fresh : ∀ y, m.obj y ≠ none → y < m.next

theorem Idle.fuel {m : Mem V} {tb : Trie V} {T : Option (AT V)} (h : Idle m tb T) : (addrsO T).length ≤ m.next :=
  nodup_le h.nodup fun y hy => h.fresh y ((h.dom y).2 hy)

theorem Holds.congr {m m' : Mem V} {tb : Trie V} {T : Option (AT V)} (h : Holds m tb T)
    (hb : ∀ y ∈ addrsO T, m'.body y = m.body y) : Holds m' tb T := by
  cases T with
  | none => exact h
  | some T => exact ⟨h.1, h.2.1, h.2.2.1, h.2.2.2.congr hb⟩

theorem cow_ok {m : Mem V} {tb : Trie V} {T : Option (AT V)} (h : Idle m tb T) :
    ∃ s, cow m tb = .ok s ∧ s.old = tb ∧ s.new = tb ∧ Inv s T T := by
  cases T with
  | none =>
    have h0 : tb.weight = 0 := h.holds
    unfold cow
    rw [if_pos h0]
    refine ⟨_, rfl, rfl, rfl, ?_⟩
    refine ⟨h0, h0, .refl _, by simp [owned, exO, frO], by simp [frO], fun y => ?_, h.fresh, by simp⟩
    have := h.dom y
    simpa [owned, exO, frO, addrsO] using this
  | some T =>
    have hd := h.dom
    simp only [addrsO] at hd
    have hnd := h.nodup
    simp only [addrsO] at hnd
    obtain ⟨m', e1, f1, b1, n1, l1⟩ := setFlag_ok (m := { m with log := [] }) (a := T.top)
      ((hd T.top).2 (top_mem T)) true
    unfold cow
    rw [if_neg h.holds.inv.2.1, markCow_eq, h.holds.1, node_addr, e1]
    simp only [Res.bind_ok]
    have ho : ∀ y, m'.obj y ≠ none ↔ m.obj y ≠ none := by
      intro y
      rw [obj_ne_none, b1, obj_ne_none]
      rfl
    have hfr : fr m'.flag T = [T] := by rw [fr_eq, f1, if_pos rfl]; rfl
    have hex : ex m'.flag T = [] := by rw [ex_eq, f1, if_pos rfl]; rfl
    have hh : Holds m' tb (some T) := h.holds.congr fun y _ => b1 y
    refine ⟨_, rfl, rfl, rfl, ?_⟩
    refine ⟨hh, hh, .refl _, ?_, ?_, ?_, ?_, ?_⟩
    · simpa [owned, exO, frO, hfr, hex] using hnd
    · simp only [frO, hfr, List.mem_singleton]
      rintro f rfl c hc y hy
      rw [f1, if_neg]
      · exact h.clean y
      · rintro rfl
        rw [addrs_kids] at hnd
        exact (List.nodup_cons.1 hnd).1 (List.mem_flatMap.2 ⟨c, hc, hy⟩)
    · intro y
      simp only [owned, exO, frO, hfr, hex]
      simpa [ho] using hd y
    · intro y hy
      rw [n1]
      exact h.fresh y ((ho y).1 hy)
    · intro y hy
      rw [l1] at hy
      simp at hy

/-! ### Cleaning up -/

/-- The object without its mark. -/
def unmark (o : Option (Obj V)) : Option (Obj V) := o.map fun o => ⟨false, o.body⟩

/-- The objects `E` were freed and the marks of `F` cleared. -/
structure Eff (m m' : Mem V) (E F : List Nat) : Prop where
  obj : ∀ y, m'.obj y = if y ∈ E then none else if y ∈ F then unmark (m.obj y) else m.obj y
  next : m'.next = m.next
  log : ∀ y ∈ m'.log, y ∈ m.log ∨ y ∈ E

theorem Eff.keep {m m' : Mem V} {E F : List Nat} (h : Eff m m' E F) {y : Nat} (h1 : y ∉ E) (h2 : y ∉ F) :
    m'.obj y = m.obj y := by rw [h.obj, if_neg h1, if_neg h2]

theorem unmark_body (o : Option (Obj V)) : (unmark o).map (·.body) = o.map (·.body) := by cases o <;> rfl

theorem Eff.body {m m' : Mem V} {E F : List Nat} (h : Eff m m' E F) {y : Nat} (h1 : y ∉ E) : m'.body y = m.body y := by
  unfold Mem.body
  rw [h.obj, if_neg h1]
  split
  · exact unmark_body _
  · rfl

def tops (M : Nat → Bool) (t : AT V) : List Nat := (fr M t).map AT.top

theorem tops_sub {M : Nat → Bool} {t : AT V} {y : Nat} (h : y ∈ tops M t) : y ∈ addrs t := by
  obtain ⟨f, hf, rfl⟩ := List.mem_map.1 h
  exact fr_sub hf (top_mem f)

theorem tops_congr {M M' : Nat → Bool} {t : AT V} (h : ∀ x ∈ addrs t, M' x = M x) : tops M' t = tops M t := by
  unfold tops; rw [fr_congr h]

theorem forAll_eff {g : Mem V → Node V → Res (Mem V)} (l : List (AT V)) : ∀ (m : Mem V),
    (∀ t ∈ l, ∀ m : Mem V, Rep m t → ∃ m', g m t.node = .ok m' ∧ Eff m m' (ex m.flag t) (tops m.flag t)) →
    (∀ t ∈ l, Rep m t) → (l.flatMap addrs).Nodup →
    ∃ m', forAll g m (l.map AT.node) = .ok m' ∧ Eff m m' (l.flatMap (ex m.flag)) (l.flatMap (tops m.flag)) := by
  induction l with
  | nil => intro m _ _ _; exact ⟨m, rfl, ⟨by simp, rfl, fun y hy => .inl hy⟩⟩
  | cons t l ih =>
    intro m hg hr hn
    simp only [List.flatMap_cons] at hn
    rw [List.nodup_append] at hn
    obtain ⟨hn1, hn2, hn3⟩ := hn
    obtain ⟨m1, e1, f1⟩ := hg t (by simp) m (hr t (by simp))
    have hkeep : ∀ y ∈ l.flatMap addrs, m1.obj y = m.obj y := fun y hy =>
      f1.keep (fun hc => hn3 y (ex_sub hc) y hy rfl) (fun hc => hn3 y (tops_sub hc) y hy rfl)
    have hk : ∀ c ∈ l, ∀ y ∈ addrs c, m1.obj y = m.obj y := fun c hc y hy =>
      hkeep y (List.mem_flatMap.2 ⟨c, hc, hy⟩)
    have hex : l.flatMap (ex m1.flag) = l.flatMap (ex m.flag) :=
      flatMap_congr' fun c hc => ex_congr fun y hy => by unfold Mem.flag; rw [hk c hc y hy]
    have htp : l.flatMap (tops m1.flag) = l.flatMap (tops m.flag) :=
      flatMap_congr' fun c hc => tops_congr fun y hy => by unfold Mem.flag; rw [hk c hc y hy]
    obtain ⟨m2, e2, f2⟩ := ih m1 (fun t ht => hg t (by simp [ht]))
      (fun c hc => (hr c (by simp [hc])).congr fun y hy => by unfold Mem.body; rw [hk c hc y hy]) hn2
    rw [hex, htp] at f2
    refine ⟨m2, ?_, ?_, by rw [f2.next, f1.next], ?_⟩
    · simp only [List.map_cons, forAll]
      rw [e1]
      exact e2
    · intro y
      rw [f2.obj]
      simp only [List.flatMap_cons, List.mem_append]
      have hd1 : y ∈ l.flatMap (ex m.flag) ∨ y ∈ l.flatMap (tops m.flag) → y ∈ l.flatMap addrs := by
        rintro (hy | hy)
        · obtain ⟨c, hc, hy⟩ := List.mem_flatMap.1 hy
          exact List.mem_flatMap.2 ⟨c, hc, ex_sub hy⟩
        · obtain ⟨c, hc, hy⟩ := List.mem_flatMap.1 hy
          exact List.mem_flatMap.2 ⟨c, hc, tops_sub hy⟩
      by_cases h1 : y ∈ l.flatMap (ex m.flag)
      · simp [h1]
      · by_cases h2 : y ∈ l.flatMap (tops m.flag)
        · have hy := hd1 (.inr h2)
          have h3 : y ∉ ex m.flag t := fun hc => hn3 y (ex_sub hc) y hy rfl
          simp only [h1, h2, h3, if_true, if_false, or_true, or_false]
          rw [hkeep y hy]
        · simp only [h1, h2, if_false, or_false]
          exact f1.obj y
    · intro y hy
      simp only [List.flatMap_cons, List.mem_append]
      rcases f2.log y hy with hy | hy
      · rcases f1.log y hy with hy | hy
        · exact .inl hy
        · exact .inr (.inl hy)
      · exact .inr (.inr hy)

theorem tops_eq (M : Nat → Bool) (t : AT V) : tops M t = if M t.top then [t.top] else t.kids.flatMap (tops M) := by
  unfold tops
  rw [fr_eq]
  split
  · rfl
  · rw [List.map_flatMap]

theorem setFlag_eff {m : Mem V} {a : Nat} (h : m.obj a ≠ none) : ∃ m', m.setFlag a false = .ok m' ∧ Eff m m' [] [a] := by
  unfold Mem.setFlag
  cases e : m.obj a with
  | none => exact absurd e h
  | some o =>
    refine ⟨_, rfl, ⟨fun y => ?_, rfl, fun y hy => .inl hy⟩⟩
    simp only [Mem.upd, List.not_mem_nil, if_false, List.mem_singleton]
    split
    · rename_i hy; subst hy; rw [e]; rfl
    · rfl

theorem free_eff {m m0 : Mem V} {a : Nat} {E F : List Nat} (h : m.obj a ≠ none) (h0 : Eff m0 m E F) :
    ∃ m', m.free a = .ok m' ∧ Eff m0 m' (a :: E) F := by
  obtain ⟨m', e1, o1, n1, l1⟩ := free_ok h
  refine ⟨m', e1, ⟨fun y => ?_, by rw [n1, h0.next], fun y hy => ?_⟩⟩
  · rw [o1, h0.obj]
    simp only [List.mem_cons]
    by_cases hy : y = a <;> simp [hy]
  · rw [l1] at hy
    simp only [List.mem_cons] at hy ⊢
    rcases hy with hy | hy
    · exact .inr (.inl hy)
    · rcases h0.log y hy with hy | hy
      · exact .inl hy
      · exact .inr (.inr hy)

theorem Eff.rfl' (m : Mem V) : Eff m m [] [] := ⟨by simp, rfl, fun y hy => .inl hy⟩

theorem cleanup_eff (t : AT V) : ∀ (fuel : Nat) (m : Mem V), Rep m t → (addrs t).Nodup → (addrs t).length ≤ fuel →
    ∃ m', cleanup fuel m t.node = .ok m' ∧ Eff m m' (ex m.flag t) (tops m.flag t) := by
  induction t using AT.ind with
  | h t ih =>
    intro fuel m hr hn hf
    obtain ⟨fuel, rfl⟩ := fuel_pos hf
    have hr' := (rep_iff _ _).1 hr
    have hobj := hr.alloc t.top (top_mem t)
    rw [ex_eq, tops_eq]
    cases t with
    | leaf k lkey v =>
      simp only [AT.node, cleanup, AT.top, AT.kids] at hobj ⊢
      rw [getFlag_of hobj]
      simp only [Res.bind_ok]
      by_cases hm : m.flag k = true
      · simpa [hm] using setFlag_eff hobj
      · simpa [hm] using free_eff hobj (Eff.rfl' m)
    | branch a i bmp tw =>
      have hb := hr'.1
      simp only [AT.node, cleanup, AT.top, AT.kids, AT.body] at hobj hb ⊢
      rw [getFlag_of hobj]
      simp only [Res.bind_ok]
      by_cases hm : m.flag a = true
      · simpa [hm] using setFlag_eff hobj
      · simp only [hm, Bool.false_eq_true, if_false]
        rw [twigs_of hb]
        simp only [Res.bind_ok]
        rw [addrs_kids] at hn
        have hn' := List.nodup_cons.1 hn
        simp only [AT.kids, AT.top] at hn'
        obtain ⟨m1, e1, f1⟩ := forAll_eff tw m (fun c hc m' hr2 => ih c hc fuel m' hr2 (by
            obtain ⟨l, r, e⟩ := List.append_of_mem hc
            have := hn'.2
            rw [e] at this
            simp only [List.flatMap_append, List.flatMap_cons] at this
            rw [List.nodup_append, List.nodup_append] at this
            exact this.2.1.1) (fuel_kid hf hc)) hr'.2 hn'.2
        rw [e1]
        simp only [Res.bind_ok]
        refine free_eff ?_ f1
        have h1 : a ∉ tw.flatMap (ex m.flag) := by
          intro hc
          obtain ⟨c, hc, hy⟩ := List.mem_flatMap.1 hc
          exact hn'.1 (List.mem_flatMap.2 ⟨c, hc, ex_sub hy⟩)
        rw [obj_ne_none, f1.body h1, ← obj_ne_none]
        exact hobj

def topsO (M : Nat → Bool) (T : Option (AT V)) : List Nat := (frO M T).map AT.top

/-- After the objects of one trie alone are freed and the marks cleared, the other is left. -/
theorem idle_after {m m' : Mem V} {tb : Trie V} {A B : Option (AT V)} (hB : Holds m tb B)
    (hnd : (exO m.flag A ++ addrsO B).Nodup) (hdom : ∀ y, m.obj y ≠ none ↔ y ∈ exO m.flag A ++ addrsO B)
    (hfresh : ∀ y, m.obj y ≠ none → y < m.next)
    (hcl : ∀ y ∈ addrsO B, m.flag y = true → y ∈ topsO m.flag A)
    (he : Eff m m' (exO m.flag A) (topsO m.flag A)) : Idle m' tb B := by
  rw [List.nodup_append] at hnd
  have hdis : ∀ y ∈ addrsO B, y ∉ exO m.flag A := fun y hy hc => hnd.2.2 y hc y hy rfl
  have hdom' : ∀ y, m'.obj y ≠ none ↔ y ∈ addrsO B := by
    intro y
    by_cases h1 : y ∈ exO m.flag A
    · rw [he.obj, if_pos h1]
      exact ⟨fun h => absurd rfl h, fun h => absurd h1 (hdis y h)⟩
    · rw [obj_ne_none, he.body h1, ← obj_ne_none, hdom y]
      simp [h1]
  refine ⟨hB.congr fun y hy => he.body (hdis y hy), hnd.2.1, fun y => ?_, hdom', fun y hy => ?_⟩
  · by_cases h0 : m'.obj y = none
    · simp [Mem.flag, h0]
    · have hy := (hdom' y).1 h0
      have h1 := hdis y hy
      unfold Mem.flag
      rw [he.obj, if_neg h1]
      split
      · cases m.obj y <;> rfl
      · rename_i h2
        have := mt (hcl y hy) h2
        simpa [Mem.flag] using this
  · rw [he.next]
    exact hfresh y ((hdom y).2 (List.mem_append.2 (.inr ((hdom' y).1 hy))))

/-- A mark is where the shared part begins. -/
theorem Inv.markOld {s : St V} {To Tn : Option (AT V)} (h : Inv s To Tn) {y : Nat} (hy : y ∈ addrsO To)
    (hm : s.mem.flag y = true) : y ∈ topsO s.mem.flag To := by
  rw [(addrsO_split s.mem.flag To).mem_iff] at hy
  rcases List.mem_append.1 hy with hy | hy
  · exfalso
    cases To with
    | none => simp [exO] at hy
    | some T =>
      have := ex_flag (by simpa [exO] using hy)
      rw [hm] at this
      cases this
  · obtain ⟨f, hf, hy⟩ := List.mem_flatMap.1 hy
    rw [addrs_kids] at hy
    rcases List.mem_cons.1 hy with hy | hy
    · subst hy; exact List.mem_map_of_mem hf
    · obtain ⟨c, hc, hy⟩ := List.mem_flatMap.1 hy
      rw [h.clean f hf c hc y hy] at hm
      cases hm

theorem Inv.topsEq {s : St V} {To Tn : Option (AT V)} (h : Inv s To Tn) (y : Nat) :
    y ∈ topsO s.mem.flag To ↔ y ∈ topsO s.mem.flag Tn := by
  unfold topsO
  exact (h.share.map AT.top).mem_iff

theorem Inv.markNew {s : St V} {To Tn : Option (AT V)} (h : Inv s To Tn) {y : Nat} (hy : y ∈ addrsO Tn)
    (hm : s.mem.flag y = true) : y ∈ topsO s.mem.flag To := by
  rw [(addrsO_split s.mem.flag Tn).mem_iff] at hy
  rcases List.mem_append.1 hy with hy | hy
  · exfalso
    cases Tn with
    | none => simp [exO] at hy
    | some T =>
      have := ex_flag (by simpa [exO] using hy)
      rw [hm] at this
      cases this
  · obtain ⟨f, hf, hy⟩ := List.mem_flatMap.1 hy
    refine h.markOld ?_ hm
    rw [(addrsO_split s.mem.flag To).mem_iff]
    exact List.mem_append.2 (.inr (List.mem_flatMap.2 ⟨f, h.share.mem_iff.2 hf, hy⟩))

theorem Inv.permNew {s : St V} {To Tn : Option (AT V)} (h : Inv s To Tn) :
    List.Perm (owned s.mem.flag To Tn) (exO s.mem.flag To ++ addrsO Tn) := by
  unfold owned
  rw [List.append_assoc]
  refine List.Perm.append_left _ ?_
  refine List.Perm.trans ?_ (addrsO_split s.mem.flag Tn).symm
  exact List.Perm.append_left _ (h.share.flatMap_right addrs)

theorem Inv.permOld {s : St V} {To Tn : Option (AT V)} (_h : Inv s To Tn) :
    List.Perm (owned s.mem.flag To Tn) (exO s.mem.flag Tn ++ addrsO To) := by
  unfold owned
  refine List.Perm.trans ?_ (List.Perm.append_left _ (addrsO_split s.mem.flag To).symm)
  rw [← List.append_assoc]
  exact List.Perm.append_right _ List.perm_append_comm

theorem commit_ok {s : St V} {To Tn : Option (AT V)} (h : Inv s To Tn) :
    ∃ m, commit s = .ok (m, s.new) ∧ Idle m s.new Tn ∧ ∀ y ∈ m.log, y ∈ s.mem.log ∨ y ∉ addrsO Tn := by
  have hnd : (exO s.mem.flag To ++ addrsO Tn).Nodup := h.permNew.nodup_iff.1 h.nodup
  have hdom : ∀ y, s.mem.obj y ≠ none ↔ y ∈ exO s.mem.flag To ++ addrsO Tn := fun y => by
    rw [h.dom, h.permNew.mem_iff]
  have hdis := (List.nodup_append.1 hnd).2.2
  unfold commit
  cases To with
  | none =>
    rw [if_pos (show s.old.weight = 0 from h.old)]
    exact ⟨_, rfl, idle_after h.new hnd hdom h.fresh (fun y hy hm => h.markNew hy hm) (by
      simpa [exO, topsO, frO] using Eff.rfl' s.mem), fun y hy => .inl hy⟩
  | some T =>
    have ho := h.old
    rw [if_neg ho.inv.2.1, ho.1]
    obtain ⟨m, e1, f1⟩ := cleanup_eff T s.mem.next s.mem ho.2.2.2 h.nodupOld h.fuelOld
    rw [e1]
    refine ⟨m, rfl, idle_after h.new hnd hdom h.fresh (fun y hy hm => h.markNew hy hm) f1, fun y hy => ?_⟩
    rcases f1.log y hy with hy | hy
    · exact .inl hy
    · exact .inr fun hc => hdis y hy y hc rfl

theorem rollback_ok {s : St V} {To Tn : Option (AT V)} (h : Inv s To Tn) :
    ∃ m, rollback s = .ok (m, s.old) ∧ Idle m s.old To ∧ ∀ y ∈ m.log, y ∉ addrsO To := by
  have hnd : (exO s.mem.flag Tn ++ addrsO To).Nodup := h.permOld.nodup_iff.1 h.nodup
  have hdom : ∀ y, s.mem.obj y ≠ none ↔ y ∈ exO s.mem.flag Tn ++ addrsO To := fun y => by
    rw [h.dom, h.permOld.mem_iff]
  have hdis := (List.nodup_append.1 hnd).2.2
  have hcl : ∀ y ∈ addrsO To, s.mem.flag y = true → y ∈ topsO s.mem.flag Tn := fun y hy hm =>
    (h.topsEq y).1 (h.markOld hy hm)
  unfold rollback
  cases Tn with
  | none =>
    rw [if_pos (show s.new.weight = 0 from h.new)]
    exact ⟨_, rfl, idle_after h.old hnd hdom h.fresh hcl (by
      simpa [exO, topsO, frO] using Eff.rfl' s.mem), h.log⟩
  | some T =>
    have ho := h.new
    rw [if_neg ho.inv.2.1, ho.1]
    obtain ⟨m, e1, f1⟩ := cleanup_eff T s.mem.next s.mem ho.2.2.2 h.nodupNew h.fuelNew
    rw [e1]
    refine ⟨m, rfl, idle_after h.old hnd hdom h.fresh hcl f1, fun y hy => ?_⟩
    rcases f1.log y hy with hy | hy
    · exact h.log y hy
    · exact fun hc => hdis y hy y hc rfl

/-! ### Freeing -/

theorem forAll_free {g : Mem V → Node V → Res (Mem V)} (l : List (AT V)) : ∀ (m : Mem V),
    (∀ t ∈ l, ∀ m : Mem V, Rep m t → ∃ m', g m t.node = .ok m' ∧ Eff m m' (addrs t) []) →
    (∀ t ∈ l, Rep m t) → (l.flatMap addrs).Nodup →
    ∃ m', forAll g m (l.map AT.node) = .ok m' ∧ Eff m m' (l.flatMap addrs) [] := by
  induction l with
  | nil => intro m _ _ _; exact ⟨m, rfl, ⟨by simp, rfl, fun y hy => .inl hy⟩⟩
  | cons t l ih =>
    intro m hg hr hn
    simp only [List.flatMap_cons] at hn
    rw [List.nodup_append] at hn
    obtain ⟨hn1, hn2, hn3⟩ := hn
    obtain ⟨m1, e1, f1⟩ := hg t (by simp) m (hr t (by simp))
    have hk : ∀ c ∈ l, ∀ y ∈ addrs c, m1.obj y = m.obj y := fun c hc y hy =>
      f1.keep (fun hc' => hn3 y hc' y (List.mem_flatMap.2 ⟨c, hc, hy⟩) rfl) (by simp)
    obtain ⟨m2, e2, f2⟩ := ih m1 (fun t ht => hg t (by simp [ht]))
      (fun c hc => (hr c (by simp [hc])).congr fun y hy => by unfold Mem.body; rw [hk c hc y hy]) hn2
    refine ⟨m2, ?_, ?_, by rw [f2.next, f1.next], ?_⟩
    · simp only [List.map_cons, forAll]
      rw [e1]
      exact e2
    · intro y
      rw [f2.obj, f1.obj]
      simp only [List.flatMap_cons, List.mem_append]
      by_cases h1 : y ∈ l.flatMap addrs <;> by_cases h2 : y ∈ addrs t <;> simp [h1, h2]
    · intro y hy
      simp only [List.flatMap_cons, List.mem_append]
      rcases f2.log y hy with hy | hy
      · rcases f1.log y hy with hy | hy
        · exact .inl hy
        · exact .inr (.inl hy)
      · exact .inr (.inr hy)

theorem clearTrie_eff (t : AT V) : ∀ (fuel : Nat) (m : Mem V), Rep m t → (addrs t).Nodup → (addrs t).length ≤ fuel →
    ∃ m', clearTrie fuel m t.node = .ok m' ∧ Eff m m' (addrs t) [] := by
  induction t using AT.ind with
  | h t ih =>
    intro fuel m hr hn hf
    obtain ⟨fuel, rfl⟩ := fuel_pos hf
    have hr' := (rep_iff _ _).1 hr
    have hobj := hr.alloc t.top (top_mem t)
    rw [addrs_kids]
    cases t with
    | leaf k lkey v =>
      simp only [AT.node, clearTrie, AT.top, AT.kids] at hobj ⊢
      simpa using free_eff hobj (Eff.rfl' m)
    | branch a i bmp tw =>
      have hb := hr'.1
      simp only [AT.node, clearTrie, AT.top, AT.kids, AT.body] at hobj hb ⊢
      rw [twigs_of hb]
      simp only [Res.bind_ok]
      rw [addrs_kids] at hn
      have hn' := List.nodup_cons.1 hn
      simp only [AT.kids, AT.top] at hn'
      obtain ⟨m1, e1, f1⟩ := forAll_free tw m (fun c hc m' hr2 => ih c hc fuel m' hr2 (by
          obtain ⟨l, r, e⟩ := List.append_of_mem hc
          have := hn'.2
          rw [e] at this
          simp only [List.flatMap_append, List.flatMap_cons] at this
          rw [List.nodup_append, List.nodup_append] at this
          exact this.2.1.1) (fuel_kid hf hc)) hr'.2 hn'.2
      rw [e1]
      simp only [Res.bind_ok]
      refine free_eff ?_ f1
      rw [obj_ne_none, f1.body hn'.1, ← obj_ne_none]
      exact hobj

theorem free_all {m : Mem V} {tb : Trie V} {T : Option (AT V)} (h : Idle m tb T) :
    ∃ m', free m tb = .ok m' ∧ ∀ y, m'.obj y = none := by
  unfold free
  cases T with
  | none =>
    rw [if_pos (show tb.weight = 0 from h.holds)]
    refine ⟨m, rfl, fun y => ?_⟩
    have := h.dom y
    simp only [addrsO, List.not_mem_nil, iff_false, Classical.not_not] at this
    exact this
  | some T =>
    rw [if_neg h.holds.inv.2.1, h.holds.1]
    obtain ⟨m', e1, f1⟩ := clearTrie_eff T m.next m h.holds.2.2.2 h.nodup h.fuel
    refine ⟨m', e1, fun y => ?_⟩
    rw [f1.obj]
    split
    · rfl
    · rename_i hy
      have := mt (h.dom y).1 hy
      simpa using this

end Knot.Cow
