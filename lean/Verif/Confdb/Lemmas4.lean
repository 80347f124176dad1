import Verif.Confdb.Lemmas3
namespace Knot.Confdb

/-! The commands -/

section
variable {S : Schema} {d : Db} {σ : Bytes → Option UInt8} {τ : Bytes → Bytes → Option UInt8} {a : Store}

theorem each_ok {α : Type} (f : Db → α → Except Err Db) (Q : Db → List α → Prop)
    (step : ∀ d x l, Q d (x :: l) → ∃ d', f d x = .ok d' ∧ Q d' l) :
    ∀ (l : List α) (d : Db), Q d l → ∃ d', each f d l = .ok d' ∧ Q d' []
  | [], d, h => ⟨d, rfl, h⟩
  | x :: l, d, h => by
    obtain ⟨d', h1, h2⟩ := step d x l h
    rw [each, h1]
    exact each_ok f Q step l d' h2

/-! Reading -/

theorem ids_spec (h : Rep S d σ τ a) (g : Group) :
    (ids d g).Nodup ∧ ∀ id, id ∈ ids d g ↔ a.has g.name id = true := by
  unfold ids
  rw [h.getSec]
  cases hs : σ g.name with
  | none =>
    refine ⟨List.nodup_nil, fun id => ⟨fun hh => (by cases hh), fun hh => ?_⟩⟩
    have := (h.hasR _ _ hh).1
    rw [hs] at this; cases this
  | some c =>
    dsimp only
    constructor
    · have h1 : ((d.filter (fun p => p.1.take 2 == [c, 1])).map (·.1)).Nodup :=
        List.Nodup.sublist (List.Sublist.map _ List.filter_sublist) h.uniq
      have h2 : (d.filter (fun p => p.1.take 2 == [c, 1])).map (fun p => p.1.drop 2)
          = ((d.filter (fun p => p.1.take 2 == [c, 1])).map (·.1)).map (fun k => k.drop 2) := by
        rw [List.map_map]; rfl
      rw [h2]
      refine List.pairwise_map.2 ?_
      refine List.Pairwise.imp_of_mem ?_ h1
      intro k k' hk hk' hne he
      have aux : ∀ {k}, k ∈ (d.filter (fun p => p.1.take 2 == [c, 1])).map (·.1) → ∃ r, k = c :: 1 :: r := by
        intro k hk
        obtain ⟨p, hp, rfl⟩ := List.mem_map.1 hk
        exact take2.1 (by simpa using (List.mem_filter.1 hp).2)
      obtain ⟨r, rfl⟩ := aux hk
      obtain ⟨r', rfl⟩ := aux hk'
      have he : r = r' := he
      exact hne (by rw [he])
    · intro id
      rw [← h.findId hs]
      constructor
      · intro hm
        obtain ⟨p, hp, rfl⟩ := List.mem_map.1 hm
        obtain ⟨hp1, hp2⟩ := List.mem_filter.1 hp
        obtain ⟨r, hr⟩ := take2.1 (by simpa using hp2)
        have := find_of_mem h.uniq hp1
        rw [hr] at this ⊢
        show (find d (c :: 1 :: r)).isSome = true
        rw [this]; rfl
      · intro hf
        cases hx : find d (c :: 1 :: id) with
        | none => rw [hx] at hf; cases hf
        | some v =>
          exact List.mem_map.2 ⟨(c :: 1 :: id, v), List.mem_filter.2 ⟨mem_of_find hx, by simp⟩, rfl⟩

theorem shows_of (P : Proper S) (h : Rep S d σ τ a) : Shows S d a := by
  refine ⟨?_, fun g _ => (ids_spec h g).2, fun g _ => (ids_spec h g).1, ?_⟩
  · intro g _ id
    unfold hasId
    rw [h.getSec]
    cases hs : σ g.name with
    | none =>
      cases hh : a.has g.name id with
      | false => rfl
      | true => have := (h.hasR _ _ hh).1; rw [hs] at this; cases this
    | some c =>
      dsimp only
      rw [h.idOk hs]
      by_cases hi : id = []
      · rw [hi, h.hasNil]; rfl
      · rw [show (id != []) = true from bne_iff_ne.2 hi, show (id == []) = false from beq_eq_false_iff_ne.2 hi]
        simp
  · intro g hg x hx id
    unfold read getItem
    rw [h.getSec]
    have hnil : ∀ (hh : a.val g.name x.name id ≠ [] → False), [] = a.val g.name x.name id := by
      intro hh
      exact (Decidable.byContradiction hh).symm
    cases hs : σ g.name with
    | none =>
      apply hnil
      intro hv
      have h1 := (h.valR _ _ _ hv).1
      cases ht : τ g.name x.name with
      | none => rw [ht] at h1; cases h1
      | some e => have := (h.itemR _ _ _ ht).2.2.1; rw [hs] at this; cases this
    | some c =>
      dsimp only
      rw [h.idOk hs]
      by_cases hok : (id == [] || a.has g.name id) = false
      · rw [if_pos hok]
        apply hnil
        intro hv
        obtain ⟨_, g', hg', hn, hp⟩ := h.valR _ _ _ hv
        unfold Store.present at hp
        rw [hn] at hp
        simp only [Bool.or_eq_false_iff] at hok
        split at hp
        · rw [hok.2] at hp; cases hp
        · rw [hok.1] at hp; cases hp
      · rw [if_neg hok, h.getIt hs]
        cases hi : τ g.name x.name with
        | none =>
          apply hnil
          intro hv
          have h1 := (h.valR _ _ _ hv).1
          rw [hi] at h1; cases h1
        | some e =>
          dsimp only
          rw [h.vals _ _ _ _ id hs hi, P.multi hg hx]
          have hgood := h.good g.name x.name id
          rw [P.multi hg hx] at hgood
          by_cases hv : a.val g.name x.name id = []
          · rw [if_pos hv, hv]
          · rw [if_neg hv]
            dsimp only
            cases hm : x.multi with
            | true =>
              rw [hm] at hgood
              rw [if_pos rfl]
              exact values_enc (hgood.1 rfl)
            | false =>
              rw [hm] at hgood
              have h1 := hgood.2.1 rfl
              match hval : a.val g.name x.name id, h1, hv with
              | [w], _, _ => rfl

theorem Rep.nameMulti (P : Proper S) (h : Rep S d σ τ a) {g : Group} (hg : g ∈ S) {id : Bytes} (hh : a.has g.name id = true) :
    g.multi = true := by
  obtain ⟨_, _, _, g', hg', hn, hm⟩ := h.hasR _ _ hh
  rw [← P.uniq g' hg' g hg hn]; exact hm

theorem Rep.valPres (P : Proper S) (h : Rep S d σ τ a) {g : Group} (hg : g ∈ S) {i id : Bytes} (hv : a.val g.name i id ≠ []) :
    a.present g id = true := by
  obtain ⟨_, g', hg', hn, hp⟩ := h.valR _ _ _ hv
  rw [← P.uniq g' hg' g hg hn]; exact hp

/-! Every identifier -/

/-- The values of an item for some identifiers. -/
def Store.putL (a : Store) (s i : Bytes) (L : List Bytes) (f : List Bytes → List Bytes) : Store :=
  { a with val := fun s' i' id' => if s' = s ∧ i' = i ∧ id' ∈ L then f (a.val s' i' id') else a.val s' i' id' }

theorem store_ext {a b : Store} (h1 : ∀ s id, a.has s id = b.has s id) (h2 : ∀ s i id, a.val s i id = b.val s i id) : a = b := by
  cases a; cases b
  congr
  · funext s id; exact h1 s id
  · funext s i id; exact h2 s i id

theorem putL_cons (a : Store) (s i id : Bytes) (L : List Bytes) (f : List Bytes → List Bytes) (hn : id ∉ L) :
    (a.put s i id (f (a.val s i id))).putL s i L f = a.putL s i (id :: L) f := by
  apply store_ext
  · intro _ _; rfl
  · intro x y z
    unfold Store.putL Store.put
    dsimp only
    by_cases h1 : x = s ∧ y = i
    · obtain ⟨rfl, rfl⟩ := h1
      by_cases h2 : z = id
      · subst h2; simp [hn]
      · simp [h2]
    · have h2 : ∀ Q : Prop, ¬ (x = s ∧ y = i ∧ Q) := fun Q hh => h1 ⟨hh.1, hh.2.1⟩
      simp [h2]

/-- One step for each of some identifiers. -/
theorem each_put (g : Group) (i : Bytes) (m : Bool) (F : Db → Bytes → Except Err Db) (f : List Bytes → List Bytes)
    (hF : ∀ d a id, Is S d a → a.has g.name id = true →
      (Good m (f (a.val g.name i id)) → ∃ d', F d id = .ok d' ∧ Is S d' (a.put g.name i id (f (a.val g.name i id)))) ∧
      (∀ d', F d id = .ok d' → Good m (f (a.val g.name i id)))) :
    ∀ (L : List Bytes) (d : Db) (a : Store), Is S d a → L.Nodup → (∀ id ∈ L, a.has g.name id = true) →
      ((∀ id ∈ L, Good m (f (a.val g.name i id))) → ∃ d', each F d L = .ok d' ∧ Is S d' (a.putL g.name i L f)) ∧
      (∀ d', each F d L = .ok d' → ∀ id ∈ L, Good m (f (a.val g.name i id)))
  | [], d, a, h, _, _ => by
    refine ⟨fun _ => ⟨d, rfl, ?_⟩, fun _ _ id hid => (by cases hid)⟩
    have : a.putL g.name i [] f = a := store_ext (fun _ _ => rfl) (fun _ _ _ => by unfold Store.putL; simp)
    rw [this]; exact h
  | id :: L, d, a, h, hn, hh => by
    rw [List.nodup_cons] at hn
    obtain ⟨h1, h2⟩ := hF d a id h (hh id (.head _))
    have hsame : ∀ id' ∈ L, (a.put g.name i id (f (a.val g.name i id))).val g.name i id' = a.val g.name i id' := by
      intro id' hm
      have : id' ≠ id := fun e => hn.1 (e ▸ hm)
      rw [put_val]; simp [this]
    constructor
    · intro hg
      obtain ⟨d', hd, hr⟩ := h1 (hg id (.head _))
      obtain ⟨h3, _⟩ := each_put g i m F f hF L d' _ hr hn.2 (fun x hx => hh x (.tail _ hx))
      obtain ⟨d'', hd', hr'⟩ := h3 (fun x hx => by rw [hsame x hx]; exact hg x (.tail _ hx))
      rw [putL_cons a g.name i id L f hn.1] at hr'
      exact ⟨d'', by rw [each, hd]; exact hd', hr'⟩
    · intro d' he
      rw [each] at he
      cases hd : F d id with
      | error e => rw [hd] at he; cases he
      | ok d1 =>
        rw [hd] at he
        dsimp only at he
        have hg := h2 d1 hd
        obtain ⟨d2, hd2, hr⟩ := h1 hg
        rw [hd] at hd2
        injection hd2 with hd2
        subst hd2
        obtain ⟨_, h4⟩ := each_put g i m F f hF L d1 _ hr hn.2 (fun x hx => hh x (.tail _ hx))
        intro x hx
        rcases List.mem_cons.1 hx with rfl | hx
        · exact hg
        · have := h4 d' he x hx
          rw [hsame x hx] at this; exact this

theorem putL_all (h : Rep S d σ τ a) (g : Group) (i : Bytes) (f : List Bytes → List Bytes) :
    a.putL g.name i (ids d g) f = a.putAll g.name i f := by
  apply store_ext
  · intro _ _; rfl
  · intro x y z
    unfold Store.putL Store.putAll
    dsimp only
    simp only [(ids_spec h g).2]

/-! Whole sections -/

/-- Without the values of an identifier. -/
def Store.wipe (a : Store) (s id : Bytes) : Store :=
  { a with val := fun s' i' id' => if s' = s ∧ id' = id then [] else a.val s' i' id' }

theorem unsetData_ok (P : Proper S) (h : Is S d a) {g : Group} (hg : g ∈ S) {id : Bytes}
    (hid : (g.multi = true → id ≠ []) ∧ (g.multi = false → id = [])) (hp : a.present g id = true) :
    ∃ d', unsetData d g id = .ok d' ∧ Is S d' (a.wipe g.name id) := by
  let B : List Item → Store := fun l =>
    { has := a.has, val := fun s' i' id' => if s' = g.name ∧ id' = id ∧ i' ∉ l.map (·.name) then [] else a.val s' i' id' }
  have hB0 : B g.items = a := by
    apply store_ext
    · intro _ _; rfl
    · intro x y z
      dsimp only [B]
      split
      · rename_i hh
        obtain ⟨rfl, rfl, hy⟩ := hh
        apply Eq.symm
        apply Decidable.byContradiction
        intro hv
        obtain ⟨σ, τ, h⟩ := h
        have h1 := (h.valR _ _ _ hv).1
        cases ht : τ g.name y with
        | none => rw [ht] at h1; cases h1
        | some e =>
          obtain ⟨_, _, _, g', hg', hn, w, hw, he⟩ := h.itemR _ _ _ ht
          rw [P.uniq g' hg' g hg hn] at hw
          exact hy (List.mem_map.2 ⟨w, hw, he⟩)
      · rfl
  have hBn : B [] = a.wipe g.name id := by
    apply store_ext
    · intro _ _; rfl
    · intro x y z
      dsimp only [B, Store.wipe]
      simp
  have key := each_ok (fun d i => orNot d (unsetItem d g i id []))
    (fun d l => Is S d (B l) ∧ (∀ x ∈ l, x ∈ g.items) ∧ (l.map (·.name)).Nodup) (by
      intro d1 x l ⟨⟨σ, τ, h1⟩, h2, h3⟩
      rw [List.map_cons, List.nodup_cons] at h3
      have hx := h2 x (.head _)
      have hp' : (B (x :: l)).present g id = true := hp
      have hu := unsetItem_spec (v := []) P h1 hg hx hid
      rw [if_pos hp'] at hu
      have hdv : dropVal ((B (x :: l)).val g.name x.name id) [] =
          if (B (x :: l)).val g.name x.name id = [] then none else some [] := by
        unfold dropVal; rw [if_pos rfl]
      rw [hdv] at hu
      have hput : (B (x :: l)).put g.name x.name id [] = B l := by
        apply store_ext
        · intro _ _; rfl
        · intro p q r
          rw [put_val]
          dsimp only [B]
          by_cases h6 : p = g.name ∧ r = id
          · obtain ⟨rfl, rfl⟩ := h6
            by_cases h4 : q = x.name
            · subst h4
              simp only [and_self, if_true, true_and]
              rw [if_pos h3.1]
            · simp [h4]
          · have h4 : ∀ Q : Prop, ¬ (p = g.name ∧ r = id ∧ Q) := fun Q hh => h6 ⟨hh.1, hh.2.1⟩
            have h5 : ¬ (p = g.name ∧ q = x.name ∧ r = id) := fun hh => h6 ⟨hh.1, hh.2.2⟩
            simp [h4, h5]
      have hrest : (∀ y ∈ l, y ∈ g.items) ∧ (l.map (·.name)).Nodup := ⟨fun y hy => h2 y (.tail _ hy), h3.2⟩
      by_cases hv : (B (x :: l)).val g.name x.name id = []
      · rw [if_pos hv] at hu
        dsimp only at hu
        have hsame : (B (x :: l)).put g.name x.name id [] = B (x :: l) := by
          apply store_ext
          · intro _ _; rfl
          · intro p q r
            rw [put_val]
            split
            · rename_i hh; obtain ⟨rfl, rfl, rfl⟩ := hh; exact hv.symm
            · rfl
        rw [hput] at hsame
        refine ⟨d1, ?_, ?_, hrest⟩
        · rw [hu]; rfl
        · rw [hsame]; exact ⟨σ, τ, h1⟩
      · rw [if_neg hv] at hu
        dsimp only at hu
        obtain ⟨d', hd, hr⟩ := hu
        rw [hput] at hr
        refine ⟨d', ?_, ⟨σ, τ, hr⟩, hrest⟩
        rw [hd]; rfl) g.items d ⟨hB0 ▸ h, fun _ hx => hx, P.items g hg⟩
  obtain ⟨d', h1, h2, _⟩ := key
  exact ⟨d', h1, hBn ▸ h2⟩

/-- Where there is nothing, no value is. -/
theorem unsetData_none (h : Rep S d σ τ a) {g : Group} (hs : σ g.name = none) (id : Bytes) : unsetData d g id = .ok d := by
  have hs' : getCode d 0 g.name = .error .noent := by rw [h.getSec, hs]
  have : ∀ l : List Item, each (fun d i => orNot d (unsetItem d g i id [])) d l = .ok d := by
    intro l
    induction l with
    | nil => rfl
    | cons x l ih =>
      rw [each]
      have : unsetItem d g x id [] = .error .noent := by unfold unsetItem; rw [hs']
      rw [this]
      exact ih
  exact this g.items

theorem unsetSection_ok (P : Proper S) (h : Rep S d σ τ a) {g : Group} (hg : g ∈ S) (hv : ∀ i id, a.val g.name i id = [])
    (hn : ∀ id, a.has g.name id = false) : ∃ d', unsetSection d g = .ok d' ∧ Is S d' a := by
  unfold unsetSection
  cases hs : σ g.name with
  | none =>
    have hs' : getCode d 0 g.name = .error .noent := by rw [h.getSec, hs]
    have : ∀ l : List Item, each (fun d i => orNot d (unsetKey d g i)) d l = .ok d := by
      intro l
      induction l with
      | nil => rfl
      | cons x l ih =>
        rw [each]
        have : unsetKey d g x = .error .noent := by unfold unsetKey; rw [hs']
        rw [this]
        exact ih
    rw [this]
    refine ⟨d, ?_, σ, τ, h⟩
    dsimp only
    unfold delCode del
    rw [h.secs, hs]; rfl
  | some c =>
    have key := each_ok (fun d i => orNot d (unsetKey d g i))
      (fun d l => ∃ τ', Rep S d σ τ' a ∧ ∀ i e, τ' g.name i = some e → i ∈ l.map (·.name)) (by
        intro d1 x l ⟨τ', h1, h2⟩
        unfold unsetKey
        rw [h1.getSec, hs]
        dsimp only
        rw [h1.getIt hs]
        cases hi : τ' g.name x.name with
        | none =>
          refine ⟨d1, rfl, τ', h1, fun i e he => ?_⟩
          have h3 := h2 i e he
          rw [List.map_cons] at h3
          rcases List.mem_cons.1 h3 with h3 | h3
          · rw [h3, hi] at he; cases he
          · exact h3
        | some e =>
          dsimp only
          have hd : delCode d1 c x.name = .ok (remove d1 (c :: 0 :: x.name)) := by
            unfold delCode del
            rw [h1.items _ _ _ hs, hi]; rfl
          rw [hd]
          refine ⟨_, rfl, _, rep_delItem h1 hs (fun id => hv x.name id), fun i e he => ?_⟩
          split at he
          · cases he
          · rename_i hne
            have h3 := h2 i e he
            rw [List.map_cons] at h3
            rcases List.mem_cons.1 h3 with h3 | h3
            · exact absurd ⟨rfl, h3⟩ hne
            · exact h3) g.items d ⟨τ, h, fun i e he => by
        obtain ⟨_, _, _, g', hg', hn, w, hw, hwe⟩ := h.itemR _ _ _ he
        rw [P.uniq g' hg' g hg hn] at hw
        exact List.mem_map.2 ⟨w, hw, hwe⟩⟩
    obtain ⟨d1, h1, τ', h2, h3⟩ := key
    rw [h1]
    dsimp only
    have hd : delCode d1 0 g.name = .ok (remove d1 (0 :: 0 :: g.name)) := by
      unfold delCode del
      rw [h2.secs, hs]; rfl
    rw [hd]
    refine ⟨_, rfl, _, _, rep_delSec h2 (fun i => ?_) hn⟩
    cases hi : τ' g.name i with
    | none => rfl
    | some e => have := h3 i e hi; cases this

theorem delIds_ok (h : Rep S d σ τ a) {g : Group} (hv : ∀ i id, a.val g.name i id = []) :
    ∃ d', delIds d g = .ok d' ∧ Is S d' (a.clear g.name) := by
  unfold delIds
  rw [h.getSec]
  have hclear : ∀ b : Store, (∀ s id, b.has s id = if s = g.name then false else a.has s id) → b.val = a.val →
      b = a.clear g.name := by
    intro b h1 h2
    apply store_ext
    · exact h1
    · intro x y z
      rw [h2]
      unfold Store.clear
      dsimp only
      split
      · rename_i e; rw [e]; exact hv y z
      · rfl
  cases hs : σ g.name with
  | none =>
    refine ⟨d, rfl, ?_⟩
    rw [← hclear a ?_ rfl]
    · exact ⟨σ, τ, h⟩
    · intro s id
      split
      · rename_i e
        cases hh : a.has s id with
        | false => rfl
        | true => have := (h.hasR _ _ hh).1; rw [e, hs] at this; cases this
      · rfl
  | some c =>
    dsimp only
    have key := each_ok (fun d id => del d (c :: 1 :: id))
      (fun d l => l.Nodup ∧ ∃ b : Store, Rep S d σ τ b ∧ b.val = a.val ∧
        ∀ s id, b.has s id = if s = g.name then decide (id ∈ l) else a.has s id) (by
        intro d1 id l ⟨hnd, b, h1, h2, h3⟩
        rw [List.nodup_cons] at hnd
        have hin : b.has g.name id = true := by rw [h3]; simp
        refine ⟨remove d1 (c :: 1 :: id), ?_, hnd.2, _, rep_delId h1 hs (fun i => by rw [h2]; exact hv i id), ?_, ?_⟩
        · unfold del
          rw [h1.findId hs, hin]; rfl
        · funext x y z
          show (if x = g.name ∧ z = id then [] else b.val x y z) = a.val x y z
          rw [h2]
          split
          · rename_i hh; rw [hh.1]; exact (hv y z).symm
          · rfl
        · intro s id'
          rw [mark_has, h3]
          by_cases h4 : s = g.name
          · subst h4
            by_cases h5 : id' = id
            · subst h5; simp [hnd.1]
            · simp [h5]
          · simp [h4]) (ids d g) d ⟨(ids_spec h g).1, a, h, rfl, fun s id => by
        split
        · rename_i e
          rw [e, Bool.eq_iff_iff, decide_eq_true_iff]
          exact ((ids_spec h g).2 id).symm
        · rfl⟩
    obtain ⟨d1, h1, _, b, h2, h3, h4⟩ := key
    refine ⟨d1, h1, ?_⟩
    rw [← hclear b (fun s id => by rw [h4]; simp) h3]
    exact ⟨σ, τ, h2⟩

theorem ioUnsetAll_ok (P : Proper S) (h : Is S d a) {g : Group} (hg : g ∈ S) :
    ∃ d', ioUnsetAll d g = .ok d' ∧ Is S d' (a.clear g.name) := by
  obtain ⟨σ, τ, h⟩ := h
  unfold ioUnsetAll
  by_cases hm : g.multi = true
  · rw [if_pos hm]
    have hno : (∀ id, a.has g.name id = false) → a = a.clear g.name := by
      intro hh
      apply store_ext
      · intro s id
        unfold Store.clear
        dsimp only
        split
        · rename_i e; rw [e]; exact hh id
        · rfl
      · intro s i id
        unfold Store.clear
        dsimp only
        split
        · rename_i e
          subst e
          apply Decidable.byContradiction
          intro hv
          have := h.valPres P hg hv
          unfold Store.present at this
          rw [if_pos hm, hh] at this; cases this
        · rfl
    by_cases hi : ids d g = []
    · rw [if_pos hi]
      refine ⟨d, rfl, ?_⟩
      rw [← hno]
      · exact ⟨σ, τ, h⟩
      · intro id
        cases hh : a.has g.name id with
        | false => rfl
        | true => have := ((ids_spec h g).2 id).2 hh; rw [hi] at this; cases this
    · rw [if_neg hi]
      let B : List Bytes → Store := fun l =>
        { has := a.has, val := fun s' i' id' => if s' = g.name ∧ id' ∉ l then [] else a.val s' i' id' }
      have hB0 : B (ids d g) = a := by
        apply store_ext
        · intro _ _; rfl
        · intro x y z
          dsimp only [B]
          split
          · rename_i hh
            obtain ⟨rfl, hz⟩ := hh
            apply Eq.symm
            apply Decidable.byContradiction
            intro hv
            have := h.valPres P hg hv
            unfold Store.present at this
            rw [if_pos hm] at this
            exact hz (((ids_spec h g).2 z).2 this)
          · rfl
      have key := each_ok (fun d id => orNot d (unsetData d g id))
        (fun d l => Is S d (B l) ∧ (∀ id ∈ l, a.has g.name id = true) ∧ l.Nodup) (by
          intro d1 id l ⟨h1, h2, hnd⟩
          rw [List.nodup_cons] at hnd
          have hin := h2 id (.head _)
          have hne : id ≠ [] := (h.hasR _ _ hin).2.1
          obtain ⟨d', hd, hr⟩ := unsetData_ok P h1 hg (id := id) ⟨fun _ => hne, fun e => (by rw [hm] at e; cases e)⟩
            (by unfold Store.present; rw [if_pos hm]; exact hin)
          refine ⟨d', ?_, ?_, fun x hx => h2 x (.tail _ hx), hnd.2⟩
          · rw [hd]; rfl
          · have : (B (id :: l)).wipe g.name id = B l := by
              apply store_ext
              · intro _ _; rfl
              · intro x y z
                dsimp only [Store.wipe, B]
                by_cases h3 : x = g.name
                · subst h3
                  by_cases h4 : z = id
                  · subst h4; simp [hnd.1]
                  · simp [h4]
                · simp [h3]
            rw [← this]; exact hr) (ids d g) d
        ⟨hB0.symm ▸ ⟨σ, τ, h⟩, fun id hid => ((ids_spec h g).2 id).1 hid, (ids_spec h g).1⟩
      obtain ⟨d1, h1, ⟨σ1, τ1, h2⟩, _⟩ := key
      rw [h1]
      dsimp only
      obtain ⟨d2, h3, σ2, τ2, h4⟩ := delIds_ok (g := g) h2 (fun i id => by dsimp only [B]; simp)
      have hc : (B []).clear g.name = a.clear g.name := by
        apply store_ext
        · intro _ _; rfl
        · intro x y z
          dsimp only [Store.clear, B]
          by_cases h3 : x = g.name <;> simp [h3]
      rw [hc] at h4
      rw [h3]
      dsimp only
      exact unsetSection_ok P h4 hg (fun i id => by dsimp only [Store.clear]; simp) (fun id => by dsimp only [Store.clear]; simp)
  · rw [if_neg hm]
    have hm' : g.multi = false := by simpa using hm
    obtain ⟨d1, h1, σ1, τ1, h2⟩ := unsetData_ok P ⟨σ, τ, h⟩ hg (id := []) ⟨fun e => absurd e hm, fun _ => rfl⟩
      (by unfold Store.present; rw [if_neg hm]; rfl)
    rw [h1]
    dsimp only
    have hc : a.wipe g.name [] = a.clear g.name := by
      apply store_ext
      · intro x y
        dsimp only [Store.wipe, Store.clear]
        split
        · rename_i e
          subst e
          cases hh : a.has g.name y with
          | false => rfl
          | true => exact absurd (h.nameMulti P hg hh) hm
        · rfl
      · intro x y z
        dsimp only [Store.wipe, Store.clear]
        by_cases hx : x = g.name
        · subst hx
          by_cases hz : z = []
          · simp [hz]
          · simp only [hz, and_false, if_false, if_true]
            apply Decidable.byContradiction
            intro hv
            have := h.valPres P hg hv
            unfold Store.present at this
            rw [if_neg hm] at this
            exact hz (by simpa using this)
        · simp [hx]
    rw [hc] at h2
    exact unsetSection_ok P h2 hg (fun i id => by dsimp only [Store.clear]; simp) (fun id => by dsimp only [Store.clear]; simp)

/-! One command -/

theorem Rep.fits (P : Proper S) (h : Rep S d σ τ a) : Fits S a := by
  intro g hg x hx id
  have := h.good g.name x.name id
  rw [P.multi hg hx] at this
  exact ⟨this.2.2, this.1⟩

theorem addVal_good {m : Bool} {l : List Bytes} (v : Bytes)
    (h : space m (addVal m l v) ≤ 65536 ∧ (m = true → ∀ w ∈ addVal m l v, w.length ≤ 65535)) : Good m (addVal m l v) :=
  ⟨h.2, fun e => (by subst e; simp [addVal]), h.1⟩

/-- What a command does. -/
theorem io_spec (P : Proper S) (h : Is S d a) (o : Op) :
    (∀ b, effect S a o = some b → Fits S b → ∃ d', io S d o = .ok d' ∧ Is S d' b) ∧
    (∀ d', io S d o = .ok d' → ∃ b, effect S a o = some b ∧ Fits S b) := by
  cases o with
  | setId s id =>
    unfold io effect withGroup
    cases hgr : group S s with
    | none =>
      simp only [hgr, Option.bind_none]
      exact ⟨fun b e => (by cases e), fun d' e => by cases e⟩
    | some g =>
      simp only [hgr, Option.bind_some]
      obtain ⟨hg, rfl⟩ := group_mem hgr
      obtain ⟨σ, τ, h⟩ := h
      unfold ioSetId
      by_cases hm : g.multi = false ∨ id = []
      · rw [if_pos hm, if_neg (by rintro ⟨h1, h2, _⟩; rcases hm with hm | hm <;> simp_all)]
        exact ⟨fun b e => (by cases e), fun d' e => by cases e⟩
      · have h1 : g.multi = true := by
          cases hh : g.multi with
          | true => rfl
          | false => exact absurd (.inl hh) hm
        have h2 : id ≠ [] := fun e => hm (.inr e)
        rw [if_neg hm]
        obtain ⟨h3, h4⟩ := setId_spec P h hg h1 h2
        constructor
        · intro b hb _
          split at hb
          · rename_i hc
            injection hb with hb
            rw [← hb]
            exact h3 hc.2.2
          · cases hb
        · intro d' hd
          obtain ⟨h5, h6⟩ := h4 d' hd
          rw [if_pos ⟨h1, h2, h5, h6⟩]
          obtain ⟨d2, h7, σ2, τ2, h8⟩ := h3 ⟨h5, h6⟩
          exact ⟨_, rfl, h8.fits P⟩
  | set s i id v =>
    unfold io effect withItem
    cases hgr : group S s with
    | none =>
      simp only [hgr, Option.bind_none]
      exact ⟨fun b e => (by cases e), fun d' e => by cases e⟩
    | some g =>
      simp only [hgr, Option.bind_some]
      obtain ⟨hg, rfl⟩ := group_mem hgr
      cases hit : g.item i with
      | none =>
        simp only [hit, Option.bind_none]
        exact ⟨fun b e => (by cases e), fun d' e => by cases e⟩
      | some x =>
        simp only [hit, Option.bind_some]
        obtain ⟨hx, rfl⟩ := item_mem hit
        obtain ⟨σ, τ, h⟩ := h
        unfold ioSet effSet
        by_cases hv : v = []
        · rw [if_pos hv, if_pos hv]
          exact ⟨fun b e => (by cases e), fun d' e => by cases e⟩
        · rw [if_neg hv, if_neg hv]
          by_cases hb : g.multi = false ∧ id ≠ []
          · have : a.present g id = false := by unfold Store.present; rw [hb.1]; simp [hb.2]
            rw [if_pos hb, if_neg (by rintro ⟨h1, h2⟩; exact hb.2 h2), this]
            exact ⟨fun b e => (by cases e), fun d' e => by cases e⟩
          · rw [if_neg hb]
            by_cases hall : g.multi = true ∧ id = []
            · rw [if_pos hall, if_pos hall]
              have hstep := each_put (S := S) g x.name x.multi (fun d id => setItem d g x id v) (fun l => addVal x.multi l v) (by
                intro d1 a1 id1 ⟨σ1, τ1, h1⟩ hin
                have hne : id1 ≠ [] := (h1.hasR _ _ hin).2.1
                obtain ⟨h2, h3⟩ := setItem_spec (v := v) P h1 hg hx (id := id1)
                  ⟨fun _ => hne, fun e => (by rw [hall.1] at e; cases e)⟩
                have hp : a1.present g id1 = true := by unfold Store.present; rw [if_pos hall.1]; exact hin
                exact ⟨fun hgd => h2 ⟨hp, hgd⟩, fun d' hd => (h3 d' hd).2⟩)
                (ids d g) d a ⟨σ, τ, h⟩ (ids_spec h g).1 (fun id hid => ((ids_spec h g).2 id).1 hid)
              rw [putL_all h] at hstep
              obtain ⟨h1, h2⟩ := hstep
              constructor
              · intro b hb hf
                injection hb with hb
                subst hb
                refine h1 (fun id1 hid1 => addVal_good v ?_)
                have := hf g hg x hx id1
                have hh := ((ids_spec h g).2 id1).1 hid1
                simpa [Store.putAll, hh] using this
              · intro d' hd
                obtain ⟨d2, _, σ2, τ2, h4⟩ := h1 (h2 d' hd)
                exact ⟨_, rfl, h4.fits P⟩
            · rw [if_neg hall, if_neg hall]
              have hid : (g.multi = true → id ≠ []) ∧ (g.multi = false → id = []) :=
                ⟨fun h1 h2 => hall ⟨h1, h2⟩, fun h1 => Decidable.byContradiction (fun h2 => hb ⟨h1, h2⟩)⟩
              obtain ⟨h1, h2⟩ := setItem_spec (v := v) P h hg hx hid
              constructor
              · intro b hb hf
                split at hb
                · rename_i hp
                  injection hb with hb
                  subst hb
                  refine h1 ⟨hp, addVal_good v ?_⟩
                  have := hf g hg x hx id
                  simpa [put_val] using this
                · cases hb
              · intro d' hd
                obtain ⟨hp, hgd⟩ := h2 d' hd
                rw [if_pos hp]
                obtain ⟨d2, _, σ2, τ2, h4⟩ := h1 ⟨hp, hgd⟩
                exact ⟨_, rfl, h4.fits P⟩
  | unset s i id v =>
    unfold io effect withItem
    cases hgr : group S s with
    | none =>
      simp only [hgr, Option.bind_none]
      exact ⟨fun b e => (by cases e), fun d' e => by cases e⟩
    | some g =>
      simp only [hgr, Option.bind_some]
      obtain ⟨hg, rfl⟩ := group_mem hgr
      cases hit : g.item i with
      | none =>
        simp only [hit, Option.bind_none]
        exact ⟨fun b e => (by cases e), fun d' e => by cases e⟩
      | some x =>
        simp only [hit, Option.bind_some]
        obtain ⟨hx, rfl⟩ := item_mem hit
        obtain ⟨σ, τ, h⟩ := h
        unfold ioUnset effUnset
        by_cases hb : g.multi = false ∧ id ≠ []
        · have : a.present g id = false := by unfold Store.present; rw [hb.1]; simp [hb.2]
          rw [if_pos hb, if_neg (by rintro ⟨h1, h2⟩; exact hb.2 h2), this]
          exact ⟨fun b e => (by cases e), fun d' e => by cases e⟩
        · rw [if_neg hb]
          by_cases hall : g.multi = true ∧ id = []
          · rw [if_pos hall, if_pos hall]
            have hstep := each_put (S := S) g x.name x.multi (fun d id => orNot d (unsetItem d g x id v))
              (fun l => (dropVal l v).getD l) (by
              intro d1 a1 id1 ⟨σ1, τ1, h1⟩ hin
              have hne : id1 ≠ [] := (h1.hasR _ _ hin).2.1
              have hp : a1.present g id1 = true := by unfold Store.present; rw [if_pos hall.1]; exact hin
              have h2 := unsetItem_spec (v := v) P h1 hg hx (id := id1)
                ⟨fun _ => hne, fun e => (by rw [hall.1] at e; cases e)⟩
              rw [if_pos hp] at h2
              have hgd := h1.good g.name x.name id1
              rw [P.multi hg hx] at hgd
              cases hdv : dropVal (a1.val g.name x.name id1) v with
              | none =>
                rw [hdv] at h2
                dsimp only at h2
                refine ⟨fun _ => ⟨d1, by rw [h2]; rfl, ?_⟩, fun _ _ => hgd⟩
                have : a1.put g.name x.name id1 (a1.val g.name x.name id1) = a1 := by
                  apply store_ext
                  · intro _ _; rfl
                  · intro p q r
                    rw [put_val]
                    split
                    · rename_i hh; obtain ⟨rfl, rfl, rfl⟩ := hh; rfl
                    · rfl
                dsimp only [Option.getD_none]
                rw [this]
                exact ⟨σ1, τ1, h1⟩
              | some l =>
                rw [hdv] at h2
                dsimp only at h2
                obtain ⟨d', hd, hr⟩ := h2
                refine ⟨fun _ => ⟨d', by rw [hd]; rfl, σ1, τ1, hr⟩, fun _ _ => good_drop hgd hdv⟩)
              (ids d g) d a ⟨σ, τ, h⟩ (ids_spec h g).1 (fun id hid => ((ids_spec h g).2 id).1 hid)
            rw [putL_all h] at hstep
            obtain ⟨h1, h2⟩ := hstep
            have hgood : ∀ id1, Good x.multi ((dropVal (a.val g.name x.name id1) v).getD (a.val g.name x.name id1)) := by
              intro id1
              have hgd := h.good g.name x.name id1
              rw [P.multi hg hx] at hgd
              cases hdv : dropVal (a.val g.name x.name id1) v with
              | none => exact hgd
              | some l => exact good_drop hgd hdv
            constructor
            · intro b hb hf
              injection hb with hb
              subst hb
              exact h1 (fun id1 _ => hgood id1)
            · intro d' hd
              obtain ⟨d2, _, σ2, τ2, h4⟩ := h1 (fun id1 _ => hgood id1)
              exact ⟨_, rfl, h4.fits P⟩
          · rw [if_neg hall, if_neg hall]
            have hid : (g.multi = true → id ≠ []) ∧ (g.multi = false → id = []) :=
              ⟨fun h1 h2 => hall ⟨h1, h2⟩, fun h1 => Decidable.byContradiction (fun h2 => hb ⟨h1, h2⟩)⟩
            have h1 := unsetItem_spec (v := v) P h hg hx hid
            by_cases hp : a.present g id = true
            · rw [if_pos hp] at h1 ⊢
              cases hdv : dropVal (a.val g.name x.name id) v with
              | none =>
                rw [hdv] at h1
                dsimp only at h1
                rw [h1]
                exact ⟨fun b e => (by cases e), fun d' e => by cases e⟩
              | some l =>
                rw [hdv] at h1
                dsimp only at h1
                obtain ⟨d', hd, hr⟩ := h1
                rw [hd]
                refine ⟨fun b hb _ => ?_, fun d2 hd2 => ⟨_, rfl, hr.fits P⟩⟩
                injection hb with hb
                subst hb
                exact ⟨d', rfl, σ, τ, hr⟩
            · rw [if_neg hp] at h1 ⊢
              refine ⟨fun b e => (by cases e), fun d' e => ?_⟩
              rcases h1 with h1 | ⟨h1, _⟩ <;> (rw [h1] at e; cases e)
  | unsetId s id =>
    unfold io effect withGroup
    cases hgr : group S s with
    | none =>
      simp only [hgr, Option.bind_none]
      exact ⟨fun b e => (by cases e), fun d' e => by cases e⟩
    | some g =>
      simp only [hgr, Option.bind_some]
      obtain ⟨hg, rfl⟩ := group_mem hgr
      obtain ⟨σ, τ, h⟩ := h
      unfold ioUnsetId
      by_cases hm : g.multi = false ∨ id = []
      · rw [if_pos hm, if_neg]
        · exact ⟨fun b e => (by cases e), fun d' e => by cases e⟩
        · rintro ⟨h1, h2⟩
          rcases hm with hm | hm
          · rw [hm] at h1; cases h1
          · rw [hm, h.hasNil] at h2; cases h2
      · have h1 : g.multi = true := by
          cases hh : g.multi with
          | true => rfl
          | false => exact absurd (.inl hh) hm
        have h2 : id ≠ [] := fun e => hm (.inr e)
        rw [if_neg hm]
        by_cases hin : a.has g.name id = true
        · rw [if_pos ⟨h1, hin⟩]
          obtain ⟨d1, h3, σ1, τ1, h4⟩ := unsetData_ok P ⟨σ, τ, h⟩ hg (id := id)
            ⟨fun _ => h2, fun e => (by rw [h1] at e; cases e)⟩ (by unfold Store.present; rw [if_pos h1]; exact hin)
          rw [h3]
          dsimp only
          have hin1 : (a.wipe g.name id).has g.name id = true := hin
          have hsome := (h4.hasR _ _ hin1)
          cases hs : σ1 g.name with
          | none => have := hsome.1; rw [hs] at this; cases this
          | some c =>
            have hu : unsetId d1 g id = .ok (remove d1 (c :: 1 :: id)) := by
              unfold unsetId
              rw [h4.getSec, hs]
              dsimp only
              have := hsome.2.2.1
              rw [if_neg (by unfold maxId; omega)]
              unfold del
              rw [h4.findId hs, hin1]; rfl
            have hr := rep_delId h4 (id := id) hs (fun i => by dsimp only [Store.wipe]; simp)
            have he : (a.wipe g.name id).mark g.name id false = a.mark g.name id false := by
              apply store_ext
              · intro _ _; rfl
              · intro x y z
                dsimp only [Store.wipe, Store.mark]
                split <;> simp_all
            rw [he] at hr
            rw [hu]
            refine ⟨fun b hb _ => ?_, fun d2 hd2 => ⟨_, rfl, hr.fits P⟩⟩
            injection hb with hb
            subst hb
            exact ⟨_, rfl, _, _, hr⟩
        · rw [if_neg (fun hh => hin hh.2)]
          refine ⟨fun b e => (by cases e), fun d' e => ?_⟩
          exfalso
          have hin' : a.has g.name id = false := by simpa using hin
          cases hud : unsetData d g id with
          | error e' => rw [hud] at e; cases e
          | ok d1 =>
            rw [hud] at e
            dsimp only at e
            cases hs : σ g.name with
            | none =>
              rw [unsetData_none h hs] at hud
              injection hud with hud
              subst hud
              unfold unsetId at e
              rw [h.getSec, hs] at e
              cases e
            | some c =>
              have hd1 : d1 = d := by
                unfold unsetData at hud
                cases hl : g.items with
                | nil => rw [hl] at hud; injection hud with hud; exact hud.symm
                | cons x l =>
                  rw [hl, each] at hud
                  have h3 := unsetItem_spec (v := []) P h hg (x := x) (by rw [hl]; exact .head _) (id := id)
                    ⟨fun _ => h2, fun e => (by rw [h1] at e; cases e)⟩
                  have hp : ¬ a.present g id = true := by
                    unfold Store.present; rw [if_pos h1, hin']; simp
                  rw [if_neg hp] at h3
                  rcases h3 with h3 | ⟨_, h3⟩
                  · rw [h3] at hud; cases hud
                  · rw [hs] at h3; cases h3
              subst hd1
              unfold unsetId at e
              rw [h.getSec, hs] at e
              dsimp only at e
              split at e
              · cases e
              · unfold del at e
                rw [h.findId hs, hin'] at e
                cases e
  | unsetAll s =>
    unfold io effect withGroup
    cases hgr : group S s with
    | none =>
      simp only [hgr, Option.bind_none]
      exact ⟨fun b e => (by cases e), fun d' e => by cases e⟩
    | some g =>
      simp only [hgr, Option.bind_some]
      obtain ⟨hg, rfl⟩ := group_mem hgr
      obtain ⟨d', h1, h2⟩ := ioUnsetAll_ok P h hg
      rw [h1]
      have hf : Fits S (a.clear g.name) := by obtain ⟨_, _, h2⟩ := h2; exact h2.fits P
      refine ⟨fun b hb _ => ?_, fun _ _ => ⟨_, rfl, hf⟩⟩
      injection hb with hb
      subst hb
      exact ⟨d', rfl, h2⟩

theorem exec_next (P : Proper S) (h : Is S d a) (o : Op) : Is S (exec S d o) (next S a o) := by
  obtain ⟨h1, h2⟩ := io_spec P h o
  unfold exec next
  cases he : effect S a o with
  | none =>
    dsimp only
    cases hi : io S d o with
    | error e => exact h
    | ok d' => obtain ⟨b, hb, _⟩ := h2 d' hi; rw [he] at hb; cases hb
  | some b =>
    dsimp only
    by_cases hf : Fits S b
    · rw [if_pos hf]
      obtain ⟨d', hd, hr⟩ := h1 b he hf
      rw [hd]; exact hr
    · rw [if_neg hf]
      cases hi : io S d o with
      | error e => exact h
      | ok d' =>
        obtain ⟨b', hb, hf'⟩ := h2 d' hi
        rw [he] at hb; injection hb with hb; subst hb
        exact absurd hf' hf

theorem run_is (P : Proper S) : ∀ (l : List Op) (d : Db) (a : Store), Is S d a → Is S (run S d l) (l.foldl (next S) a)
  | [], _, _, h => h
  | o :: l, _, _, h => run_is P l _ _ (exec_next P h o)

end

end Knot.Confdb
