import Verif.Confdb.Lemmas2
namespace Knot.Confdb

/-! The functions of the database -/

section
variable {S : Schema} {d : Db} {σ : Bytes → Option UInt8} {τ : Bytes → Bytes → Option UInt8} {a : Store}

/-- The database holds the configuration. -/
def Is (S : Schema) (d : Db) (a : Store) : Prop := ∃ σ τ, Rep S d σ τ a

theorem find_nodup {α : Type} (f : α → Bytes) : ∀ {l : List α}, (l.map f).Nodup → ∀ {x}, x ∈ l →
    l.find? (fun y => f y == f x) = some x
  | [], _, _, hx => by cases hx
  | y :: l, hn, x, hx => by
    rw [List.map_cons, List.nodup_cons] at hn
    rw [List.find?_cons]
    rcases List.mem_cons.1 hx with rfl | hx
    · simp
    · have : f y ≠ f x := fun e => hn.1 (e ▸ List.mem_map_of_mem hx)
      rw [show (f y == f x) = false from beq_eq_false_iff_ne.2 this]
      exact find_nodup f hn.2 hx

theorem Proper.group (P : Proper S) {g : Group} (hg : g ∈ S) : group S g.name = some g := find_nodup _ P.names hg
theorem Proper.item (P : Proper S) {g : Group} (hg : g ∈ S) {x : Item} (hx : x ∈ g.items) : g.item x.name = some x :=
  find_nodup _ (P.items g hg) hx
theorem Proper.uniq (P : Proper S) : ∀ g ∈ S, ∀ g' ∈ S, g.name = g'.name → g = g' := by
  intro g hg g' hg' e
  have h1 := P.group hg
  rw [e, P.group hg'] at h1
  exact (Option.some.inj h1).symm
theorem Proper.multi (P : Proper S) {g : Group} (hg : g ∈ S) {x : Item} (hx : x ∈ g.items) :
    isMulti S g.name x.name = x.multi := by
  unfold isMulti
  rw [P.group hg]
  simp [P.item hg hx]

theorem group_mem {s : Bytes} {g : Group} (h : group S s = some g) : g ∈ S ∧ g.name = s := by
  unfold group at h
  exact ⟨List.mem_of_find?_eq_some h, by simpa using List.find?_some h⟩
theorem item_mem {g : Group} {i : Bytes} {x : Item} (h : g.item i = some x) : x ∈ g.items ∧ x.name = i := by
  unfold Group.item at h
  exact ⟨List.mem_of_find?_eq_some h, by simpa using List.find?_some h⟩

/-! Codes -/

theorem setSec (P : Proper S) (h : Rep S d σ τ a) {g : Group} (hg : g ∈ S) :
    ∃ d' σ' c, setCode d 0 g.name = .ok (d', c) ∧ Rep S d' σ' τ a ∧ σ' g.name = some c := by
  unfold setCode
  rw [h.getSec]
  cases hs : σ g.name with
  | some c => exact ⟨d, σ, c, rfl, h, hs⟩
  | none =>
    obtain ⟨c, hc, h1, h2, h3⟩ := newCode_spec (names := S.map (·.name)) h.uniq (sec := 0) (s := g.name)
      (by
        intro r hr
        rw [h.secs] at hr
        cases hx : σ r with
        | none => rw [hx] at hr; cases hr
        | some c =>
          obtain ⟨_, _, g', hg', he⟩ := h.secR r c hx
          exact List.mem_map.2 ⟨g', hg', he⟩)
      (List.mem_map_of_mem hg) (by rw [h.secs, hs]; rfl) (by rw [List.length_map]; exact P.sections)
    rw [hc]
    exact ⟨_, _, c, rfl, rep_newSec h hs ⟨g, hg, rfl⟩ ⟨h1, h2⟩ h3, by simp⟩

theorem setIt (P : Proper S) (h : Rep S d σ τ a) {g : Group} (hg : g ∈ S) {x : Item} (hx : x ∈ g.items) {c : UInt8}
    (hs : σ g.name = some c) :
    ∃ d' τ' e, setCode d c x.name = .ok (d', e) ∧ Rep S d' σ τ' a ∧ τ' g.name x.name = some e := by
  unfold setCode
  rw [h.getIt hs]
  cases hi : τ g.name x.name with
  | some e => exact ⟨d, τ, e, rfl, h, hi⟩
  | none =>
    obtain ⟨e, he, h1, h2, h3⟩ := newCode_spec (names := g.items.map (·.name)) h.uniq (sec := c) (s := x.name)
      (by
        intro r hr
        rw [h.items g.name c r hs] at hr
        cases hy : τ g.name r with
        | none => rw [hy] at hr; cases hr
        | some c =>
          obtain ⟨_, _, _, g', hg', hn, y, hy, he⟩ := h.itemR g.name r c hy
          rw [P.uniq g' hg' g hg hn] at hy
          exact List.mem_map.2 ⟨y, hy, he⟩)
      (List.mem_map_of_mem hx) (by rw [h.items g.name c _ hs, hi]; rfl) (by rw [List.length_map]; exact P.sizes g hg)
    rw [he]
    exact ⟨_, _, e, rfl, rep_newItem h hs hi ⟨g, hg, rfl, x, hx, rfl⟩ ⟨h1, h2⟩ h3, by simp⟩

/-! Identifiers -/

theorem Rep.findId (h : Rep S d σ τ a) {s : Bytes} {c : UInt8} (hs : σ s = some c) (id : Bytes) :
    (find d (c :: 1 :: id)).isSome = a.has s id := by
  rw [h.idents s c id hs]
  cases a.has s id <;> rfl

theorem Rep.hasNil (h : Rep S d σ τ a) (s : Bytes) : a.has s [] = false := by
  cases hh : a.has s [] with
  | false => rfl
  | true => exact absurd rfl (h.hasR s [] hh).2.1

theorem Rep.idOk (h : Rep S d σ τ a) {s : Bytes} {c : UInt8} (hs : σ s = some c) (id : Bytes) :
    idOk d c id = (id == [] || a.has s id) := by
  unfold Confdb.idOk
  rw [h.findId hs]
  cases hh : a.has s id with
  | false => simp
  | true =>
    have := (h.hasR s id hh).2.2.1
    simp [maxId, this]

theorem setId_spec (P : Proper S) (h : Rep S d σ τ a) {g : Group} (hg : g ∈ S) (hm : g.multi = true) {id : Bytes} (hi : id ≠ []) :
    (id.length ≤ 255 ∧ a.has g.name id = false → ∃ d', setId d g id = .ok d' ∧ Is S d' (a.mark g.name id true)) ∧
    (∀ d', setId d g id = .ok d' → id.length ≤ 255 ∧ a.has g.name id = false) := by
  obtain ⟨d1, σ1, c, h1, h2, h3⟩ := setSec P h hg
  unfold setId
  rw [h1]
  dsimp only
  by_cases hl : id.length > maxId
  · rw [if_pos hl]
    have hl' : ¬ id.length ≤ 255 := by unfold maxId at hl; omega
    exact ⟨fun hh => absurd hh.1 hl', fun _ hh => by cases hh⟩
  · rw [if_neg hl, h2.findId h3]
    have hl' : id.length ≤ 255 := by unfold maxId at hl; omega
    cases hh : a.has g.name id with
    | true =>
      rw [if_pos rfl]
      exact ⟨fun hx => absurd hx.2 (by simp), fun _ hx => by cases hx⟩
    | false =>
      rw [if_neg (by simp)]
      refine ⟨fun _ => ⟨insert d1 (c :: 1 :: id) [], ?_, ?_⟩, fun _ _ => ⟨hl', rfl⟩⟩
      · unfold dbSet; simp [maxData]
      · exact ⟨_, _, rep_newId h2 h3 hi hl' ⟨g, hg, rfl, hm⟩ hh P.uniq⟩

/-! Values -/

theorem good_add {m : Bool} {l : List Bytes} (hl : Good m l) {v : Bytes} :
    Good m (addVal m l v) ↔ (if m then v.length ≤ 65535 ∧ (v ∈ l ∨ space true l + 2 + v.length ≤ 65536) else v.length ≤ 65536) := by
  unfold Good addVal
  cases m with
  | false => simp [space]
  | true =>
    obtain ⟨h1, _, h3⟩ := hl
    have h1 := h1 rfl
    simp only [if_true]
    by_cases hv : v ∈ l
    · rw [if_pos hv]
      simp [hv, h1 v hv, h3, h1]
    · rw [if_neg hv]
      have hs : space true (l ++ [v]) = space true l + 2 + v.length := by
        simp [space]; omega
      rw [hs]
      simp only [hv, false_or]
      constructor
      · rintro ⟨h4, _, h5⟩
        exact ⟨h4 trivial v (by simp), h5⟩
      · rintro ⟨h4, h5⟩
        refine ⟨fun _ w hw => ?_, fun e => (by cases e), h5⟩
        rcases List.mem_append.1 hw with hw | hw
        · exact h1 w hw
        · rw [List.mem_singleton.1 hw]; exact h4

theorem addVal_ne (m : Bool) (l : List Bytes) (v : Bytes) : addVal m l v ≠ [] := by
  unfold addVal
  cases m
  · simp
  · simp only [if_true]
    split
    · rename_i hv; intro e; rw [e] at hv; cases hv
    · simp

/-- What is stored under the key of values. -/
theorem Rep.findVal (h : Rep S d σ τ a) {s i : Bytes} {c e : UInt8} (hs : σ s = some c) (hi : τ s i = some e) (id : Bytes) :
    ((find d (c :: e :: id)).getD [] = encI (isMulti S s i) (a.val s i id)) ∧
    ((find d (c :: e :: id)).isSome = true ↔ a.val s i id ≠ []) := by
  rw [h.vals s c i e id hs hi]
  by_cases hv : a.val s i id = []
  · rw [if_pos hv, hv]
    refine ⟨?_, by simp⟩
    unfold encI
    cases isMulti S s i <;> rfl
  · rw [if_neg hv]
    exact ⟨rfl, by simp [hv]⟩

theorem dbSet_spec (h : Rep S d σ τ a) {s i id v : Bytes} {c e : UInt8} (hs : σ s = some c) (hi : τ s i = some e)
    (hp : ∃ g ∈ S, g.name = s ∧ a.present g id = true) :
    (Good (isMulti S s i) (addVal (isMulti S s i) (a.val s i id) v) →
      ∃ d', dbSet d (c :: e :: id) v (isMulti S s i) = .ok d' ∧
        Rep S d' σ τ (a.put s i id (addVal (isMulti S s i) (a.val s i id) v))) ∧
    (∀ d', dbSet d (c :: e :: id) v (isMulti S s i) = .ok d' →
      Good (isMulti S s i) (addVal (isMulti S s i) (a.val s i id) v)) := by
  have hg := h.good s i id
  obtain ⟨f1, f2⟩ := h.findVal hs hi id
  have hput := fun hgood => rep_put (l := addVal (isMulti S s i) (a.val s i id) v) h hs hi hgood (addVal_ne _ _ _) hp
  rw [good_add hg] at hput
  rw [good_add hg]
  unfold dbSet
  cases hm : isMulti S s i with
  | false =>
    rw [hm] at hput
    rw [if_pos rfl]
    simp only [Bool.false_eq_true, if_false] at hput ⊢
    by_cases hl : v.length > maxData
    · rw [if_pos hl]
      have hl' : ¬ v.length ≤ 65536 := by unfold maxData at hl; omega
      exact ⟨fun hh => absurd hh hl', fun _ hh => by cases hh⟩
    · rw [if_neg hl]
      have hl' : v.length ≤ 65536 := by unfold maxData at hl; omega
      exact ⟨fun _ => ⟨_, rfl, hput hl'⟩, fun _ _ => hl'⟩
  | true =>
    rw [hm] at hput hg f1
    rw [if_neg (show ¬ true = false by simp)]
    simp only [if_true] at hput ⊢
    by_cases hl : v.length > 65535
    · rw [if_pos hl]
      exact ⟨fun hh => absurd hh.1 (by omega), fun _ hh => by cases hh⟩
    · rw [if_neg hl]
      have hl' : v.length ≤ 65535 := by omega
      have hmem : ((find d (c :: e :: id)).bind (findData v 0)).isSome = decide (v ∈ a.val s i id) := by
        by_cases hv : a.val s i id = []
        · rw [hv] at f2
          have : find d (c :: e :: id) = none := by
            cases hf : find d (c :: e :: id) with
            | none => rfl
            | some w => rw [hf] at f2; exact absurd rfl (f2.1 rfl)
          rw [this, hv]; rfl
        · cases hf : find d (c :: e :: id) with
          | none => rw [hf] at f2; exact absurd (f2.2 hv) (by simp)
          | some w =>
            rw [hf] at f1
            have f1 : w = enc (a.val s i id) := f1
            rw [Option.bind_some, f1, findData_enc (hg.1 rfl)]
            by_cases hv : v ∈ a.val s i id <;> simp [hv]
      rw [hmem]
      by_cases hv : v ∈ a.val s i id
      · rw [if_pos (by simpa using hv)]
        refine ⟨fun _ => ⟨d, rfl, ?_⟩, fun _ _ => ⟨hl', .inl hv⟩⟩
        have : a.put s i id (addVal true (a.val s i id) v) = a := by
          unfold Store.put addVal
          cases a
          dsimp only at hv ⊢
          congr 1
          funext x y z
          split
          · rename_i hh; obtain ⟨rfl, rfl, rfl⟩ := hh; simp [hv]
          · rfl
        rw [this]; exact h
      · rw [if_neg (by simpa using hv), f1]
        have henc : encI true (a.val s i id) = enc (a.val s i id) := rfl
        rw [henc, enc_length]
        by_cases hsp : space true (a.val s i id) + 2 + v.length > maxData
        · rw [if_pos hsp]
          have hsp' : ¬ space true (a.val s i id) + 2 + v.length ≤ 65536 := by unfold maxData at hsp; omega
          exact ⟨fun hh => absurd (hh.2.resolve_left hv) hsp', fun _ hh => by cases hh⟩
        · rw [if_neg hsp]
          have hsp' : space true (a.val s i id) + 2 + v.length ≤ 65536 := by unfold maxData at hsp; omega
          refine ⟨fun hh => ⟨_, rfl, ?_⟩, fun _ _ => ⟨hl', .inr hsp'⟩⟩
          have := hput hh
          have he : encI true (addVal true (a.val s i id) v) = enc (a.val s i id) ++ len16 v.length ++ v := by
            unfold encI addVal
            simp [hv, enc_append, enc]
          rw [he] at this
          exact this

theorem present_eq {g : Group} {id : Bytes} (hid : (g.multi = true → id ≠ []) ∧ (g.multi = false → id = [])) :
    a.present g id = (id == [] || a.has g.name id) ∨ g.multi = false := by
  unfold Store.present
  cases hm : g.multi with
  | false => exact .inr rfl
  | true => left; simp [hid.1 hm]

theorem Rep.pres (h : Rep S d σ τ a) {g : Group} {c : UInt8} (hs : σ g.name = some c) {id : Bytes}
    (hid : (g.multi = true → id ≠ []) ∧ (g.multi = false → id = [])) : Confdb.idOk d c id = a.present g id := by
  rw [h.idOk hs]
  unfold Store.present
  cases hm : g.multi with
  | false => simp [hid.2 hm]
  | true => simp [hid.1 hm]

theorem setItem_spec (P : Proper S) (h : Rep S d σ τ a) {g : Group} (hg : g ∈ S) {x : Item} (hx : x ∈ g.items) {id v : Bytes}
    (hid : (g.multi = true → id ≠ []) ∧ (g.multi = false → id = [])) :
    (a.present g id = true ∧ Good x.multi (addVal x.multi (a.val g.name x.name id) v) →
      ∃ d', setItem d g x id v = .ok d' ∧ Is S d' (a.put g.name x.name id (addVal x.multi (a.val g.name x.name id) v))) ∧
    (∀ d', setItem d g x id v = .ok d' →
      a.present g id = true ∧ Good x.multi (addVal x.multi (a.val g.name x.name id) v)) := by
  obtain ⟨d1, σ1, c, h1, h2, h3⟩ := setSec P h hg
  unfold setItem
  rw [h1]
  dsimp only
  rw [h2.pres h3 hid]
  cases hp : a.present g id with
  | false =>
    rw [if_pos rfl]
    exact ⟨fun hh => (by cases hh.1), fun _ hh => by cases hh⟩
  | true =>
    rw [if_neg (by simp)]
    obtain ⟨d2, τ2, e, h4, h5, h6⟩ := setIt P h2 hg hx h3
    rw [h4]
    dsimp only
    have hds := dbSet_spec (v := v) (id := id) h5 h3 h6 ⟨g, hg, rfl, hp⟩
    rw [P.multi hg hx] at hds
    refine ⟨fun hh => ?_, fun d' hh => ⟨rfl, hds.2 d' hh⟩⟩
    obtain ⟨d', hd, hr⟩ := hds.1 hh.2
    exact ⟨d', hd, _, _, hr⟩

theorem good_drop {m : Bool} {l l' : List Bytes} (hl : Good m l) {v : Bytes} (hd : dropVal l v = some l') : Good m l' := by
  unfold dropVal at hd
  split at hd
  · split at hd
    · cases hd
    · injection hd with hd; rw [← hd]; exact good_nil m
  · split at hd
    · rename_i hv
      injection hd with hd
      rw [← hd]
      obtain ⟨h1, h2, h3⟩ := hl
      refine ⟨fun hm w hw => h1 hm w (List.mem_of_mem_erase hw), fun hm => ?_, ?_⟩
      · exact Nat.le_trans (List.Sublist.length_le List.erase_sublist) (h2 hm)
      · cases m with
        | true => have := space_erase hv; omega
        | false =>
          have h4 := h2 rfl
          match l, h4, hv, h3 with
          | [w], _, hv, h3 =>
            rw [List.mem_singleton.1 hv]; simp [space]
    · cases hd

theorem dbUnset_spec (h : Rep S d σ τ a) {s i id v : Bytes} {c e : UInt8} (hs : σ s = some c) (hi : τ s i = some e)
    (hp : ∃ g ∈ S, g.name = s ∧ a.present g id = true) :
    match dropVal (a.val s i id) v with
    | none => dbUnset d (c :: e :: id) v (isMulti S s i) = .error .noent
    | some l => ∃ d', dbUnset d (c :: e :: id) v (isMulti S s i) = .ok d' ∧ Rep S d' σ τ (a.put s i id l) := by
  have hg := h.good s i id
  have hf := h.vals s c i e id hs hi
  have hdrop := rep_drop h hs hi hp
  have hput := fun l hgood hn => rep_put (l := l) h hs hi hgood hn hp
  unfold dbUnset dropVal del
  by_cases hv : v = []
  · rw [if_pos hv, if_pos hv, hf]
    by_cases hl : a.val s i id = []
    · rw [if_pos hl, if_pos hl]; rfl
    · rw [if_neg hl, if_neg hl]
      exact ⟨_, rfl, hdrop⟩
  · rw [if_neg hv, if_neg hv]
    by_cases hl : a.val s i id = []
    · rw [hl] at hf ⊢
      rw [if_pos rfl] at hf
      rw [hf]
      simp
    · rw [if_neg hl] at hf
      rw [hf]
      dsimp only
      cases hm : isMulti S s i with
      | false =>
        rw [hm] at hg
        rw [if_pos rfl]
        have h1 := hg.2.1 rfl
        match hval : a.val s i id, h1, hl with
        | [w], _, _ =>
          have he : encI false [w] = w := rfl
          rw [he]
          by_cases hw : w = v
          · subst hw
            simp only [List.mem_singleton, if_true, List.erase_cons_head, Option.isSome_some]
            exact ⟨_, rfl, hdrop⟩
          · have : ¬ v = w := fun e => hw e.symm
            simp [hw, this]
      | true =>
        rw [hm] at hg hput
        rw [if_neg (show ¬ true = false by simp)]
        have he : encI true (a.val s i id) = enc (a.val s i id) := rfl
        rw [he, findData_enc (hg.1 rfl)]
        by_cases hmem : v ∈ a.val s i id
        · rw [if_pos hmem, if_pos hmem]
          dsimp only
          have hlen := space_erase hmem
          rw [enc_length, Nat.zero_add]
          have hz : (space true (a.val s i id) - 2 - v.length = 0) ↔ (a.val s i id).erase v = [] := by
            constructor
            · intro h0
              have : space true ((a.val s i id).erase v) = 0 := by omega
              rw [← enc_length] at this
              exact enc_eq_nil.1 (List.length_eq_zero_iff.1 this)
            · intro h0
              rw [h0] at hlen
              have : space true [] = 0 := rfl
              omega
          by_cases h0 : (a.val s i id).erase v = []
          · rw [if_pos (hz.2 h0), h0]
            exact ⟨_, rfl, hdrop⟩
          · rw [if_neg (fun hh => h0 (hz.1 hh)), cut_enc hmem]
            refine ⟨_, rfl, hput _ ?_ h0⟩
            exact good_drop hg (v := v) (by unfold dropVal; rw [if_neg hv, if_pos hmem])
        · rw [if_neg hmem, if_neg hmem]

theorem unsetItem_spec (P : Proper S) (h : Rep S d σ τ a) {g : Group} (hg : g ∈ S) {x : Item} (hx : x ∈ g.items) {id v : Bytes}
    (hid : (g.multi = true → id ≠ []) ∧ (g.multi = false → id = [])) :
    if a.present g id = true then
      match dropVal (a.val g.name x.name id) v with
      | none => unsetItem d g x id v = .error .noent
      | some l => ∃ d', unsetItem d g x id v = .ok d' ∧ Rep S d' σ τ (a.put g.name x.name id l)
    else unsetItem d g x id v = .error .id ∨ (unsetItem d g x id v = .error .noent ∧ σ g.name = none) := by
  unfold unsetItem
  rw [h.getSec]
  cases hs : σ g.name with
  | none =>
    have hval : a.val g.name x.name id = [] := by
      apply Decidable.byContradiction
      intro hv
      have h1 := (h.valR _ _ _ hv).1
      cases ht : τ g.name x.name with
      | none => rw [ht] at h1; cases h1
      | some e => have := (h.itemR _ _ _ ht).2.2.1; rw [hs] at this; cases this
    rw [hval]
    dsimp only
    split
    · have : dropVal [] v = none := by unfold dropVal; split <;> simp
      rw [this]
    · exact .inr ⟨rfl, rfl⟩
  | some c =>
    dsimp only
    rw [h.pres hs hid]
    cases hp : a.present g id with
    | false => simp
    | true =>
      rw [if_pos rfl, if_neg (by simp), h.getIt hs]
      cases hi : τ g.name x.name with
      | none =>
        have hval : a.val g.name x.name id = [] := by
          apply Decidable.byContradiction
          intro hv
          have h1 := (h.valR _ _ _ hv).1
          rw [hi] at h1; cases h1
        rw [hval]
        have : dropVal [] v = none := by unfold dropVal; split <;> simp
        rw [this]
      | some e =>
        have := dbUnset_spec (v := v) (id := id) h hs hi ⟨g, hg, rfl, hp⟩
        rw [P.multi hg hx] at this
        exact this

end

end Knot.Confdb
