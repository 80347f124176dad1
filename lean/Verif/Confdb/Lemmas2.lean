import Verif.Confdb.Lemmas
namespace Knot.Confdb

/-! The database and the configuration -/

/-- Whether the item of that name has more values. -/
def isMulti (S : Schema) (s i : Bytes) : Bool := ((group S s).bind (fun g => g.item i)).any (·.multi)

/-- The octets of the values of an item. -/
def encI (m : Bool) (l : List Bytes) : Bytes := if m then enc l else l.headD []

/-- Values that can be stored. -/
def Good (m : Bool) (l : List Bytes) : Prop :=
  (m = true → Short l) ∧ (m = false → l.length ≤ 1) ∧ space m l ≤ 65536

/-- The version is there, and no key but of names, codes, identifiers and values. -/
def Vers (d : Db) : Prop :=
  find d [0, 255] = some [2] ∧ ∀ k, (find d k).isSome = true → k = [0, 255] ∨ ∃ c e r, k = c :: e :: r ∧ (c = 0 → e = 0)

theorem vers_of {d d' : Db} {c e : UInt8} {r : Bytes} (h : Vers d) (hc : c = 0 → e = 0)
    (hd : ∀ k, k ≠ c :: e :: r → find d' k = find d k) : Vers d' := by
  have hne : ([0, 255] : Bytes) ≠ c :: e :: r := by
    intro hh
    injection hh with h1 hh
    injection hh with h2 _
    rw [hc h1.symm] at h2
    cases h2
  refine ⟨by rw [hd _ hne]; exact h.1, fun k hk => ?_⟩
  by_cases hkk : k = c :: e :: r
  · exact .inr ⟨c, e, r, hkk, hc⟩
  · rw [hd k hkk] at hk; exact h.2 k hk

theorem vers_insert {d : Db} {c e : UInt8} {r : Bytes} (h : Vers d) (v : Bytes) (hc : c = 0 → e = 0) :
    Vers (insert d (c :: e :: r) v) := vers_of h hc (fun k hk => by rw [find_insert, if_neg hk])
theorem vers_remove {d : Db} {c e : UInt8} {r : Bytes} (h : Vers d) (hc : c = 0 → e = 0) :
    Vers (remove d (c :: e :: r)) := vers_of h hc (fun k hk => by rw [find_remove, if_neg hk])

/-- The database `d` with the codes of sections `σ` and of items `τ` holds the configuration `a`. -/
structure Rep (S : Schema) (d : Db) (σ : Bytes → Option UInt8) (τ : Bytes → Bytes → Option UInt8) (a : Store) :
    Prop where
  uniq : Uniq d
  secs : ∀ s, find d (0 :: 0 :: s) = (σ s).map (fun c => [c])
  items : ∀ s c i, σ s = some c → find d (c :: 0 :: i) = (τ s i).map (fun e => [e])
  idents : ∀ s c id, σ s = some c → find d (c :: 1 :: id) = if a.has s id then some [] else none
  vals : ∀ s c i e id, σ s = some c → τ s i = some e →
    find d (c :: e :: id) = if a.val s i id = [] then none else some (encI (isMulti S s i) (a.val s i id))
  closed : ∀ c e r, (find d (c :: e :: r)).isSome = true → c = 0 ∨ ∃ s, σ s = some c ∧ (e = 0 ∨ e = 1 ∨ ∃ i, τ s i = some e)
  secR : ∀ s c, σ s = some c → 2 ≤ c.toNat ∧ c.toNat ≤ 200 ∧ ∃ g ∈ S, g.name = s
  secI : ∀ s s' c, σ s = some c → σ s' = some c → s = s'
  itemR : ∀ s i e, τ s i = some e → 2 ≤ e.toNat ∧ e.toNat ≤ 200 ∧ (σ s).isSome = true ∧
    ∃ g ∈ S, g.name = s ∧ ∃ x ∈ g.items, x.name = i
  itemI : ∀ s i i' e, τ s i = some e → τ s i' = some e → i = i'
  hasR : ∀ s id, a.has s id = true → (σ s).isSome = true ∧ id ≠ [] ∧ id.length ≤ 255 ∧
    ∃ g ∈ S, g.name = s ∧ g.multi = true
  valR : ∀ s i id, a.val s i id ≠ [] → (τ s i).isSome = true ∧ ∃ g ∈ S, g.name = s ∧ a.present g id = true
  good : ∀ s i id, Good (isMulti S s i) (a.val s i id)
  vers : Vers d

theorem rep_empty (S : Schema) : Rep S empty (fun _ => none) (fun _ _ => none) Store.empty := by
  refine ⟨by unfold Uniq empty; simp, ?_, ?_, ?_, ?_, ?_, ?_, ?_, ?_, ?_, ?_, ?_, ?_, ?_⟩
  · intro s
    have : ([0, 255] : Bytes) ≠ 0 :: 0 :: s := by intro e; injection e with _ e; injection e with e _; cases e
    simp [find, empty, this]
  · intro s c i h; cases h
  · intro s c i h; cases h
  · intro s c i e id h; cases h
  · intro c e r h
    left
    unfold find empty at h
    by_cases hk : ([0, 255] : Bytes) = c :: e :: r
    · injection hk with hk _; exact hk.symm
    · simp at h
      exact h.1.symm
  · intro s c h; cases h
  · intro s s' c h; cases h
  · intro s i e h; cases h
  · intro s i i' e h; cases h
  · intro s id h; cases h
  · intro s i id h; exact absurd rfl h
  · intro s i id
    refine ⟨fun _ v hv => (by cases hv), fun _ => Nat.zero_le _, ?_⟩
    cases isMulti S s i <;> exact Nat.zero_le _
  · refine ⟨rfl, fun k hk => .inl ?_⟩
    unfold find empty at hk
    by_cases hkk : ([0, 255] : Bytes) = k
    · exact hkk.symm
    · rw [List.find?_cons, show (([0, 255] : Bytes) == k) = false from beq_eq_false_iff_ne.2 hkk] at hk
      cases hk

section
variable {S : Schema} {d : Db} {σ : Bytes → Option UInt8} {τ : Bytes → Bytes → Option UInt8} {a : Store}

theorem Rep.getSec (h : Rep S d σ τ a) (s : Bytes) :
    getCode d 0 s = match σ s with | some c => .ok c | none => .error .noent := by
  unfold getCode
  rw [h.secs]
  cases σ s <;> rfl

theorem Rep.getIt (h : Rep S d σ τ a) {s : Bytes} {c : UInt8} (hc : σ s = some c) (i : Bytes) :
    getCode d c i = match τ s i with | some e => .ok e | none => .error .noent := by
  unfold getCode
  rw [h.items s c i hc]
  cases τ s i <;> rfl

theorem ne01 {e : UInt8} (h : 2 ≤ e.toNat) : e ≠ 0 ∧ e ≠ 1 := by
  constructor <;> (intro hh; subst hh; revert h; decide)

/-! Codes -/

theorem nodup_length {α : Type} [DecidableEq α] : ∀ {l m : List α}, l.Nodup → (∀ x ∈ l, x ∈ m) → l.length ≤ m.length
  | [], _, _, _ => Nat.zero_le _
  | x :: l, m, hn, hs => by
    rw [List.nodup_cons] at hn
    have hx := hs x (.head _)
    have := nodup_length (l := l) (m := m.erase x) hn.2 (fun y hy => by
      have hne : y ≠ x := fun e => hn.1 (e ▸ hy)
      exact (List.mem_erase_of_ne hne).2 (hs y (.tail _ hy)))
    rw [List.length_erase_of_mem hx] at this
    have : 0 < m.length := List.length_pos_of_mem hx
    simp only [List.length_cons]
    omega

theorem take2 {k : Bytes} {c e : UInt8} : k.take 2 = [c, e] ↔ ∃ r, k = c :: e :: r := by
  constructor
  · intro h
    match k, h with
    | x :: y :: r, h =>
      simp at h
      exact ⟨r, by rw [h.1, h.2]⟩
  · rintro ⟨r, rfl⟩; rfl

/-- A free code is found. -/
theorem newCode_spec {d : Db} (hu : Uniq d) {sec : UInt8} {names : List Bytes} {s : Bytes}
    (hk : ∀ r, (find d (sec :: 0 :: r)).isSome = true → r ∈ names) (hs : s ∈ names)
    (hn : find d (sec :: 0 :: s) = none) (hl : names.length ≤ 199) :
    ∃ c, newCode d sec = some c ∧ 2 ≤ c.toNat ∧ c.toNat ≤ 200 ∧ c ∉ usedCodes d sec := by
  have hlen : (usedCodes d sec).length ≤ 198 := by
    unfold usedCodes
    rw [List.length_map]
    have h1 : ((d.filter (fun p => p.1.take 2 == [sec, 0])).map (·.1)).Nodup :=
      List.Nodup.sublist (List.Sublist.map _ List.filter_sublist) hu
    have h2 := nodup_length (m := (names.erase s).map (fun r => sec :: 0 :: r)) h1 (by
      intro k hkm
      obtain ⟨p, hp, rfl⟩ := List.mem_map.1 hkm
      obtain ⟨hp1, hp2⟩ := List.mem_filter.1 hp
      obtain ⟨r, hr⟩ := take2.1 (by simpa using hp2)
      have hf := find_of_mem hu hp1
      rw [hr] at hf ⊢
      refine List.mem_map.2 ⟨r, ?_, rfl⟩
      have hne : r ≠ s := by intro e; rw [e, hn] at hf; cases hf
      exact (List.mem_erase_of_ne hne).2 (hk r (by rw [hf]; rfl)))
    rw [List.length_map, List.length_map, List.length_erase_of_mem hs] at h2
    omega
  cases hf : newCode d sec with
  | some c =>
    refine ⟨c, rfl, ?_⟩
    unfold newCode at hf
    have h1 := List.mem_of_find?_eq_some hf
    have h2 := List.find?_some hf
    obtain ⟨n, hn, rfl⟩ := List.mem_map.1 h1
    rw [List.mem_range] at hn
    rw [UInt8.toNat_ofNat']
    refine ⟨by omega, by omega, ?_⟩
    intro hm
    rw [List.contains_iff_mem.2 hm] at h2
    cases h2
  | none =>
    exfalso
    unfold newCode at hf
    rw [List.find?_eq_none] at hf
    have hnd : ((List.range 199).map (fun n => UInt8.ofNat (n + 2))).Nodup := by decide +kernel
    have := nodup_length (m := usedCodes d sec) hnd (by
      intro c hc
      have := hf c hc
      simpa using this)
    rw [List.length_map, List.length_range] at this
    omega

theorem mem_used {d : Db} {sec c : UInt8} {r : Bytes} (h : find d (sec :: 0 :: r) = some [c]) : c ∈ usedCodes d sec := by
  unfold usedCodes
  refine List.mem_map.2 ⟨(sec :: 0 :: r, [c]), List.mem_filter.2 ⟨mem_of_find h, ?_⟩, rfl⟩
  simp

/-! Registering a section -/

theorem rep_newSec (h : Rep S d σ τ a) {s : Bytes} {c : UInt8} (hs : σ s = none) (hg : ∃ g ∈ S, g.name = s)
    (hc : 2 ≤ c.toNat ∧ c.toNat ≤ 200) (hf : c ∉ usedCodes d 0) :
    Rep S (insert d (0 :: 0 :: s) [c]) (fun x => if x = s then some c else σ x) τ a := by
  have hne : ∀ x, σ x ≠ some c := by
    intro x hx
    exact hf (mem_used (r := x) (by rw [h.secs, hx]; rfl))
  have h0 : (c : UInt8) ≠ 0 := (ne01 hc.1).1
  have hnone : ∀ e r, find d (c :: e :: r) = none := by
    intro e r
    cases hx : find d (c :: e :: r) with
    | none => rfl
    | some v =>
      rcases h.closed c e r (by rw [hx]; rfl) with e0 | ⟨x, hx, _⟩
      · exact absurd e0 h0
      · exact absurd hx (hne x)
  have hσ : ∀ x y, (if x = s then some c else σ x) = some y → (x = s ∧ y = c) ∨ (x ≠ s ∧ σ x = some y) := by
    intro x y hxy
    split at hxy
    · injection hxy with hxy; exact .inl ⟨by assumption, hxy.symm⟩
    · exact .inr ⟨by assumption, hxy⟩
  have hτ : ∀ i, τ s i = none := by
    intro i
    cases hx : τ s i with
    | none => rfl
    | some e => have := (h.itemR s i e hx).2.2.1; rw [hs] at this; cases this
  have hhas : ∀ id, a.has s id = false := by
    intro id
    cases hx : a.has s id with
    | false => rfl
    | true => have := (h.hasR s id hx).1; rw [hs] at this; cases this
  refine ⟨uniq_insert h.uniq _ _, ?_, ?_, ?_, ?_, ?_, ?_, ?_, ?_, h.itemI, ?_, h.valR, h.good, vers_insert h.vers _ (fun _ => rfl)⟩
  · intro x
    rw [find_insert]
    by_cases hx : x = s
    · simp [hx]
    · simp [hx, h.secs]
  · intro x y i hxy
    rcases hσ x y hxy with ⟨rfl, rfl⟩ | ⟨hx, hxy⟩
    · rw [find_insert, if_neg (by intro e; injection e with e _; exact h0 e), hnone, hτ]; rfl
    · have hy := (ne01 (h.secR x y hxy).1).1
      rw [find_insert, if_neg (by intro e; injection e with e _; exact hy e)]
      exact h.items x y i hxy
  · intro x y i hxy
    rcases hσ x y hxy with ⟨rfl, rfl⟩ | ⟨hx, hxy⟩
    · rw [find_insert, if_neg (by intro e; injection e with e _; exact h0 e), hnone, hhas]; rfl
    · have hy := (ne01 (h.secR x y hxy).1).1
      rw [find_insert, if_neg (by intro e; injection e with e _; exact hy e)]
      exact h.idents x y i hxy
  · intro x y i e id hxy hi
    rcases hσ x y hxy with ⟨rfl, rfl⟩ | ⟨hx, hxy⟩
    · rw [hτ] at hi; cases hi
    · have hy := (ne01 (h.secR x y hxy).1).1
      rw [find_insert, if_neg (by intro e; injection e with e _; exact hy e)]
      exact h.vals x y i e id hxy hi
  · intro y e r hf
    rw [find_insert] at hf
    split at hf
    · rename_i he; injection he with he _; exact .inl he
    · rcases h.closed y e r hf with h1 | ⟨x, hx, h1⟩
      · exact .inl h1
      · right
        refine ⟨x, ?_, h1⟩
        have : x ≠ s := by intro he; rw [he, hs] at hx; cases hx
        rw [if_neg this]; exact hx
  · intro x y hxy
    rcases hσ x y hxy with ⟨rfl, rfl⟩ | ⟨hx, hxy⟩
    · exact ⟨hc.1, hc.2, hg⟩
    · exact h.secR x y hxy
  · intro x x' y h1 h2
    rcases hσ x y h1 with ⟨e1, e2⟩ | ⟨_, h3⟩
    · rcases hσ x' y h2 with ⟨e3, _⟩ | ⟨_, h4⟩
      · rw [e1, e3]
      · exact absurd (e2 ▸ h4) (hne x')
    · rcases hσ x' y h2 with ⟨_, e2⟩ | ⟨_, h4⟩
      · exact absurd (e2 ▸ h3) (hne x)
      · exact h.secI x x' y h3 h4
  · intro x i e hx
    obtain ⟨h1, h2, h3, h4⟩ := h.itemR x i e hx
    refine ⟨h1, h2, ?_, h4⟩
    split
    · rfl
    · exact h3
  · intro x id hx
    obtain ⟨h1, h2⟩ := h.hasR x id hx
    refine ⟨?_, h2⟩
    split
    · rfl
    · exact h1

/-! Registering an item -/

theorem rep_newItem (h : Rep S d σ τ a) {s i : Bytes} {c e : UInt8} (hs : σ s = some c) (hi : τ s i = none)
    (hg : ∃ g ∈ S, g.name = s ∧ ∃ x ∈ g.items, x.name = i)
    (he : 2 ≤ e.toNat ∧ e.toNat ≤ 200) (hf : e ∉ usedCodes d c) :
    Rep S (insert d (c :: 0 :: i) [e]) σ (fun s' i' => if s' = s ∧ i' = i then some e else τ s' i') a := by
  have hne : ∀ x, τ s x ≠ some e := by
    intro x hx
    exact hf (mem_used (r := x) (by rw [h.items s c x hs, hx]; rfl))
  have h0 : (c : UInt8) ≠ 0 := (ne01 (h.secR s c hs).1).1
  have e01 := ne01 he.1
  have hnone : ∀ r, find d (c :: e :: r) = none := by
    intro r
    cases hx : find d (c :: e :: r) with
    | none => rfl
    | some v =>
      rcases h.closed c e r (by rw [hx]; rfl) with e0 | ⟨x, hx, h1 | h1 | ⟨j, h1⟩⟩
      · exact absurd e0 h0
      · exact absurd h1 e01.1
      · exact absurd h1 e01.2
      · have := h.secI x s c hx hs
        subst this
        exact absurd h1 (hne j)
  have hval : ∀ id, a.val s i id = [] := by
    intro id
    apply Decidable.byContradiction
    intro hv
    have := (h.valR s i id hv).1
    rw [hi] at this; cases this
  have hτ : ∀ x j y, (if x = s ∧ j = i then some e else τ x j) = some y →
      (x = s ∧ j = i ∧ y = e) ∨ (¬ (x = s ∧ j = i) ∧ τ x j = some y) := by
    intro x j y hxy
    split at hxy
    · rename_i hh
      injection hxy with hxy; exact .inl ⟨hh.1, hh.2, hxy.symm⟩
    · exact .inr ⟨by assumption, hxy⟩
  refine ⟨uniq_insert h.uniq _ _, ?_, ?_, ?_, ?_, ?_, h.secR, h.secI, ?_, ?_, h.hasR, ?_, h.good, vers_insert h.vers _ (fun e => absurd e h0)⟩
  · intro x
    rw [find_insert, if_neg (by intro e; injection e with e _; exact h0 e.symm)]
    exact h.secs x
  · intro x y j hx
    rw [find_insert]
    by_cases hj : x = s ∧ j = i
    · obtain ⟨rfl, rfl⟩ := hj
      rw [hs] at hx; injection hx with hx; subst hx
      simp
    · rw [if_neg hj, if_neg]
      · exact h.items x y j hx
      · intro he; injection he with h1 he; injection he with _ h2
        subst h1; subst h2
        exact hj ⟨h.secI x s _ hx hs, rfl⟩
  · intro x y id hx
    rw [find_insert, if_neg (by intro e; injection e with _ e; injection e with e _; cases e)]
    exact h.idents x y id hx
  · intro x y j z id hx hj
    rcases hτ x j z hj with ⟨rfl, rfl, rfl⟩ | ⟨_, hj⟩
    · rw [hs] at hx; injection hx with hx; subst hx
      rw [find_insert, if_neg (by intro e; injection e with _ e; injection e with e _; exact e01.1 e), hnone, hval]
      rfl
    · have z0 := ne01 (h.itemR x j z hj).1
      rw [find_insert, if_neg (by intro e; injection e with _ e; injection e with e _; exact z0.1 e)]
      exact h.vals x y j z id hx hj
  · intro y z r hf
    rw [find_insert] at hf
    split at hf
    · rename_i he; injection he with h1 he; injection he with h2 _
      exact .inr ⟨s, by rw [h1]; exact hs, .inl h2⟩
    · rcases h.closed y z r hf with h1 | ⟨x, hx, h1 | h1 | ⟨j, h1⟩⟩
      · exact .inl h1
      · exact .inr ⟨x, hx, .inl h1⟩
      · exact .inr ⟨x, hx, .inr (.inl h1)⟩
      · refine .inr ⟨x, hx, .inr (.inr ⟨j, ?_⟩)⟩
        rw [if_neg]
        · exact h1
        · rintro ⟨rfl, rfl⟩; rw [hi] at h1; cases h1
  · intro x j z hj
    rcases hτ x j z hj with ⟨rfl, rfl, rfl⟩ | ⟨_, hj⟩
    · exact ⟨he.1, he.2, by rw [hs]; rfl, hg⟩
    · exact h.itemR x j z hj
  · intro x j j' z h1 h2
    rcases hτ x j z h1 with ⟨e1, e2, e3⟩ | ⟨n1, h3⟩
    · rcases hτ x j' z h2 with ⟨_, e4, _⟩ | ⟨_, h4⟩
      · rw [e2, e4]
      · exact absurd (e1 ▸ e3 ▸ h4) (hne j')
    · rcases hτ x j' z h2 with ⟨e1, _, e3⟩ | ⟨_, h4⟩
      · exact absurd (e1 ▸ e3 ▸ h3) (hne j)
      · exact h.itemI x j j' z h3 h4
  · intro x j id hv
    obtain ⟨h1, h2⟩ := h.valR x j id hv
    refine ⟨?_, h2⟩
    split
    · rfl
    · exact h1

/-! Identifiers -/

theorem mark_has (a : Store) (s id : Bytes) (b : Bool) (x j : Bytes) :
    (a.mark s id b).has x j = if x = s ∧ j = id then b else a.has x j := rfl

theorem rep_newId (h : Rep S d σ τ a) {s id : Bytes} {c : UInt8} (hs : σ s = some c)
    (hi : id ≠ []) (hl : id.length ≤ 255) (hg : ∃ g ∈ S, g.name = s ∧ g.multi = true) (hn : a.has s id = false)
    (hnm : ∀ g ∈ S, ∀ g' ∈ S, g.name = g'.name → g = g') :
    Rep S (insert d (c :: 1 :: id) []) σ τ (a.mark s id true) := by
  have h0 : (c : UInt8) ≠ 0 := (ne01 (h.secR s c hs).1).1
  have hpres : ∀ g ∈ S, g.name = s → a.present g id = false := by
    intro g hgS he
    obtain ⟨g', hg', hn', hm'⟩ := hg
    have : g = g' := hnm g hgS g' hg' (by rw [he, hn'])
    unfold Store.present
    rw [this, hm', hn']
    simpa using hn
  have hval : ∀ i, a.val s i id = [] := by
    intro i
    apply Decidable.byContradiction
    intro hv
    obtain ⟨_, g, hgS, he, hp⟩ := h.valR s i id hv
    rw [hpres g hgS he] at hp; cases hp
  have hsame : (a.mark s id true).val = a.val := by
    funext x j y
    unfold Store.mark
    dsimp only
    split
    · rename_i e; obtain ⟨rfl, rfl⟩ := e; exact (hval j).symm
    · rfl
  refine ⟨uniq_insert h.uniq _ _, ?_, ?_, ?_, ?_, ?_, h.secR, h.secI, h.itemR, h.itemI, ?_, ?_, ?_, vers_insert h.vers _ (fun e => absurd e h0)⟩
  · intro x
    rw [find_insert, if_neg (by intro e; injection e with e _; exact h0 e.symm)]
    exact h.secs x
  · intro x y j hx
    rw [find_insert, if_neg (by intro e; injection e with _ e; injection e with e _; cases e)]
    exact h.items x y j hx
  · intro x y j hx
    rw [find_insert]
    simp only [mark_has]
    by_cases hj : x = s ∧ j = id
    · obtain ⟨rfl, rfl⟩ := hj
      rw [hs] at hx; injection hx with hx; subst hx
      simp
    · simp only [if_neg hj]
      rw [if_neg]
      · exact h.idents x y j hx
      · intro he; injection he with h1 he; injection he with _ h2
        subst h1; subst h2
        exact hj ⟨h.secI x s _ hx hs, rfl⟩
  · intro x y j z r hx hj
    have z0 := ne01 (h.itemR x j z hj).1
    rw [find_insert, if_neg (by intro e; injection e with _ e; injection e with e _; exact z0.2 e), hsame]
    exact h.vals x y j z r hx hj
  · intro y z r hf
    rw [find_insert] at hf
    split at hf
    · rename_i he; injection he with h1 he; injection he with h2 _
      exact .inr ⟨s, by rw [h1]; exact hs, .inr (.inl h2)⟩
    · exact h.closed y z r hf
  · intro x j hx
    unfold Store.mark at hx
    dsimp only at hx
    split at hx
    · rename_i e; obtain ⟨rfl, rfl⟩ := e
      exact ⟨by rw [hs]; rfl, hi, hl, hg⟩
    · exact h.hasR x j hx
  · intro x j r hv
    rw [hsame] at hv
    obtain ⟨h1, g, h2, h3, h4⟩ := h.valR x j r hv
    refine ⟨h1, g, h2, h3, ?_⟩
    unfold Store.present Store.mark at *
    dsimp only
    split
    · rename_i hm
      rw [if_pos hm] at h4
      split
      · rfl
      · exact h4
    · rename_i hm; rw [if_neg hm] at h4; exact h4
  · intro x j r
    rw [hsame]
    exact h.good x j r

theorem rep_delId (h : Rep S d σ τ a) {s id : Bytes} {c : UInt8} (hs : σ s = some c)
    (hv : ∀ i, a.val s i id = []) :
    Rep S (remove d (c :: 1 :: id)) σ τ (a.mark s id false) := by
  have h0 : (c : UInt8) ≠ 0 := (ne01 (h.secR s c hs).1).1
  have hsame : (a.mark s id false).val = a.val := by
    funext x j y
    unfold Store.mark
    dsimp only
    split
    · rename_i e; obtain ⟨rfl, rfl⟩ := e; exact (hv j).symm
    · rfl
  refine ⟨uniq_remove h.uniq _, ?_, ?_, ?_, ?_, ?_, h.secR, h.secI, h.itemR, h.itemI, ?_, ?_, ?_, vers_remove h.vers (fun e => absurd e h0)⟩
  · intro x
    rw [find_remove, if_neg (by intro e; injection e with e _; exact h0 e.symm)]
    exact h.secs x
  · intro x y j hx
    rw [find_remove, if_neg (by intro e; injection e with _ e; injection e with e _; cases e)]
    exact h.items x y j hx
  · intro x y j hx
    rw [find_remove]
    simp only [mark_has]
    by_cases hj : x = s ∧ j = id
    · obtain ⟨rfl, rfl⟩ := hj
      rw [hs] at hx; injection hx with hx; subst hx
      simp
    · simp only [if_neg hj]
      rw [if_neg]
      · exact h.idents x y j hx
      · intro he; injection he with h1 he; injection he with _ h2
        subst h1; subst h2
        exact hj ⟨h.secI x s _ hx hs, rfl⟩
  · intro x y j z r hx hj
    have z0 := ne01 (h.itemR x j z hj).1
    rw [find_remove, if_neg (by intro e; injection e with _ e; injection e with e _; exact z0.2 e), hsame]
    exact h.vals x y j z r hx hj
  · intro y z r hf
    rw [find_remove] at hf
    split at hf
    · cases hf
    · exact h.closed y z r hf
  · intro x j hx
    unfold Store.mark at hx
    dsimp only at hx
    split at hx
    · cases hx
    · exact h.hasR x j hx
  · intro x j r hx
    rw [hsame] at hx
    obtain ⟨h1, g, h2, h3, h4⟩ := h.valR x j r hx
    refine ⟨h1, g, h2, h3, ?_⟩
    unfold Store.present Store.mark at *
    dsimp only
    split
    · rename_i hm
      rw [if_pos hm] at h4
      split
      · rename_i e
        rw [h3] at e
        obtain ⟨rfl, rfl⟩ := e
        exact absurd (hv j) hx
      · exact h4
    · rename_i hm; rw [if_neg hm] at h4; exact h4
  · intro x j r
    rw [hsame]
    exact h.good x j r

/-! Values -/

theorem put_val (a : Store) (s i id : Bytes) (l : List Bytes) (x j r : Bytes) :
    (a.put s i id l).val x j r = if x = s ∧ j = i ∧ r = id then l else a.val x j r := rfl

theorem rep_putKey {d' : Db} (h : Rep S d σ τ a) {s i id : Bytes} {c e : UInt8} {l : List Bytes} (hs : σ s = some c) (hi : τ s i = some e)
    (hl : Good (isMulti S s i) l) (hp : ∃ g ∈ S, g.name = s ∧ a.present g id = true) (hu : Uniq d')
    (hd : ∀ k, find d' k = if k = c :: e :: id then (if l = [] then none else some (encI (isMulti S s i) l)) else find d k) :
    Rep S d' σ τ (a.put s i id l) := by
  have h0 : (c : UInt8) ≠ 0 := (ne01 (h.secR s c hs).1).1
  have e0 := ne01 (h.itemR s i e hi).1
  refine ⟨hu, ?_, ?_, ?_, ?_, ?_, h.secR, h.secI, h.itemR, h.itemI, h.hasR, ?_, ?_, vers_of h.vers (fun e => absurd e h0) (fun k hk => by rw [hd, if_neg hk])⟩
  · intro x
    rw [hd, if_neg (by intro e; injection e with e _; exact h0 e.symm)]
    exact h.secs x
  · intro x y j hx
    rw [hd, if_neg (by intro e; injection e with _ e; injection e with e _; exact e0.1 e.symm)]
    exact h.items x y j hx
  · intro x y j hx
    rw [hd, if_neg (by intro e; injection e with _ e; injection e with e _; exact e0.2 e.symm)]
    exact h.idents x y j hx
  · intro x y j z r hx hj
    rw [hd]
    simp only [put_val]
    by_cases hk : x = s ∧ j = i ∧ r = id
    · obtain ⟨rfl, rfl, rfl⟩ := hk
      rw [hs] at hx; injection hx with hx; subst hx
      rw [hi] at hj; injection hj with hj; subst hj
      simp
    · simp only [if_neg hk]
      rw [if_neg]
      · exact h.vals x y j z r hx hj
      · intro he; injection he with h1 he; injection he with h2 h3
        subst h1; subst h2; subst h3
        have := h.secI x s _ hx hs
        subst this
        exact hk ⟨rfl, h.itemI x j i _ hj hi, rfl⟩
  · intro y z r hf
    rw [hd] at hf
    split at hf
    · rename_i he; injection he with h1 he; injection he with h2 _
      exact .inr ⟨s, by rw [h1]; exact hs, .inr (.inr ⟨i, by rw [h2]; exact hi⟩)⟩
    · exact h.closed y z r hf
  · intro x j r hv
    unfold Store.put at hv
    dsimp only at hv
    split at hv
    · rename_i hk
      obtain ⟨rfl, rfl, rfl⟩ := hk
      exact ⟨by rw [hi]; rfl, hp⟩
    · exact h.valR x j r hv
  · intro x j r
    unfold Store.put
    dsimp only
    split
    · rename_i hk
      obtain ⟨rfl, rfl, rfl⟩ := hk
      exact hl
    · exact h.good x j r

theorem rep_put (h : Rep S d σ τ a) {s i id : Bytes} {c e : UInt8} {l : List Bytes} (hs : σ s = some c) (hi : τ s i = some e)
    (hl : Good (isMulti S s i) l) (hn : l ≠ []) (hp : ∃ g ∈ S, g.name = s ∧ a.present g id = true) :
    Rep S (insert d (c :: e :: id) (encI (isMulti S s i) l)) σ τ (a.put s i id l) :=
  rep_putKey h hs hi hl hp (uniq_insert h.uniq _ _) (fun k => by rw [find_insert, if_neg hn])

theorem good_nil (m : Bool) : Good m [] :=
  ⟨fun _ v hv => (by cases hv), fun _ => Nat.zero_le _, by cases m <;> exact Nat.zero_le _⟩

theorem rep_drop (h : Rep S d σ τ a) {s i id : Bytes} {c e : UInt8} (hs : σ s = some c) (hi : τ s i = some e)
    (hp : ∃ g ∈ S, g.name = s ∧ a.present g id = true) :
    Rep S (remove d (c :: e :: id)) σ τ (a.put s i id []) :=
  rep_putKey h hs hi (good_nil _) hp (uniq_remove h.uniq _) (fun k => by rw [find_remove, if_pos rfl])

/-! Codes that go -/

theorem rep_delItem (h : Rep S d σ τ a) {s i : Bytes} {c : UInt8} (hs : σ s = some c) (hv : ∀ id, a.val s i id = []) :
    Rep S (remove d (c :: 0 :: i)) σ (fun s' i' => if s' = s ∧ i' = i then none else τ s' i') a := by
  have h0 : (c : UInt8) ≠ 0 := (ne01 (h.secR s c hs).1).1
  have hτ : ∀ x j y, (if x = s ∧ j = i then none else τ x j) = some y → ¬ (x = s ∧ j = i) ∧ τ x j = some y := by
    intro x j y hxy
    split at hxy
    · cases hxy
    · exact ⟨by assumption, hxy⟩
  refine ⟨uniq_remove h.uniq _, ?_, ?_, ?_, ?_, ?_, h.secR, h.secI, ?_, ?_, h.hasR, ?_, h.good, vers_remove h.vers (fun e => absurd e h0)⟩
  · intro x
    rw [find_remove, if_neg (by intro e; injection e with e _; exact h0 e.symm)]
    exact h.secs x
  · intro x y j hx
    rw [find_remove]
    by_cases hj : x = s ∧ j = i
    · obtain ⟨rfl, rfl⟩ := hj
      rw [hs] at hx; injection hx with hx; subst hx
      simp
    · rw [if_neg hj, if_neg]
      · exact h.items x y j hx
      · intro he; injection he with h1 he; injection he with _ h2
        subst h1; subst h2
        exact hj ⟨h.secI x s _ hx hs, rfl⟩
  · intro x y id hx
    rw [find_remove, if_neg (by intro e; injection e with _ e; injection e with e _; cases e)]
    exact h.idents x y id hx
  · intro x y j z id hx hj
    obtain ⟨_, hj⟩ := hτ x j z hj
    have z0 := ne01 (h.itemR x j z hj).1
    rw [find_remove, if_neg (by intro e; injection e with _ e; injection e with e _; exact z0.1 e)]
    exact h.vals x y j z id hx hj
  · intro y z r hf
    rw [find_remove] at hf
    split at hf
    · cases hf
    · rcases h.closed y z r hf with h1 | ⟨x, hx, h1 | h1 | ⟨j, h1⟩⟩
      · exact .inl h1
      · exact .inr ⟨x, hx, .inl h1⟩
      · exact .inr ⟨x, hx, .inr (.inl h1)⟩
      · refine .inr ⟨x, hx, .inr (.inr ⟨j, ?_⟩)⟩
        rw [if_neg]
        · exact h1
        · rintro ⟨rfl, rfl⟩
          rw [h.vals x y j z r hx h1, hv] at hf
          cases hf
  · intro x j z hj
    obtain ⟨_, hj⟩ := hτ x j z hj
    exact h.itemR x j z hj
  · intro x j j' z h1 h2
    exact h.itemI x j j' z (hτ _ _ _ h1).2 (hτ _ _ _ h2).2
  · intro x j id hx
    obtain ⟨h1, h2⟩ := h.valR x j id hx
    refine ⟨?_, h2⟩
    rw [if_neg]
    · exact h1
    · rintro ⟨rfl, rfl⟩; exact hx (hv id)

theorem rep_delSec (h : Rep S d σ τ a) {s : Bytes} (hi : ∀ i, τ s i = none) (hn : ∀ id, a.has s id = false) :
    Rep S (remove d (0 :: 0 :: s)) (fun x => if x = s then none else σ x) τ a := by
  have hσ : ∀ x y, (if x = s then none else σ x) = some y → x ≠ s ∧ σ x = some y := by
    intro x y hxy
    split at hxy
    · cases hxy
    · exact ⟨by assumption, hxy⟩
  refine ⟨uniq_remove h.uniq _, ?_, ?_, ?_, ?_, ?_, ?_, ?_, ?_, h.itemI, ?_, h.valR, h.good, vers_remove h.vers (fun _ => rfl)⟩
  · intro x
    rw [find_remove]
    by_cases hx : x = s
    · simp [hx]
    · simp [hx, h.secs]
  · intro x y i hxy
    obtain ⟨_, hxy⟩ := hσ x y hxy
    have hy := (ne01 (h.secR x y hxy).1).1
    rw [find_remove, if_neg (by intro e; injection e with e _; exact hy e)]
    exact h.items x y i hxy
  · intro x y i hxy
    obtain ⟨_, hxy⟩ := hσ x y hxy
    have hy := (ne01 (h.secR x y hxy).1).1
    rw [find_remove, if_neg (by intro e; injection e with e _; exact hy e)]
    exact h.idents x y i hxy
  · intro x y i e id hxy hie
    obtain ⟨_, hxy⟩ := hσ x y hxy
    have hy := (ne01 (h.secR x y hxy).1).1
    rw [find_remove, if_neg (by intro e; injection e with e _; exact hy e)]
    exact h.vals x y i e id hxy hie
  · intro y e r hf
    rw [find_remove] at hf
    split at hf
    · cases hf
    · rcases h.closed y e r hf with h1 | ⟨x, hx, h1⟩
      · exact .inl h1
      · by_cases hxs : x = s
        · subst hxs
          rcases h1 with h1 | h1 | ⟨j, h1⟩
          · subst h1; rw [h.items x y r hx, hi] at hf; cases hf
          · subst h1; rw [h.idents x y r hx, hn] at hf; cases hf
          · rw [hi] at h1; cases h1
        · exact .inr ⟨x, by rw [if_neg hxs]; exact hx, h1⟩
  · intro x y hxy; exact h.secR x y (hσ x y hxy).2
  · intro x x' y h1 h2; exact h.secI x x' y (hσ _ _ h1).2 (hσ _ _ h2).2
  · intro x i e hx
    obtain ⟨h1, h2, h3, h4⟩ := h.itemR x i e hx
    refine ⟨h1, h2, ?_, h4⟩
    rw [if_neg]
    · exact h3
    · intro e; subst e; rw [hi] at hx; cases hx
  · intro x id hx
    obtain ⟨h1, h2⟩ := h.hasR x id hx
    refine ⟨?_, h2⟩
    rw [if_neg]
    · exact h1
    · intro e; subst e; rw [hn] at hx; cases hx

end

end Knot.Confdb
