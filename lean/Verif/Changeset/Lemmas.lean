import Verif.Changeset.Spec
import Verif.Rdataset.Lemmas
/-!
# Lemmas: contents as maps, rdatasets as sets
-/
namespace Knot.Changeset
open Knot.Dname (Name)
open Knot.Rdataset (Canon Less rdataCmp canon_ext cmp_lt_iff cmp_eq_iff cmp_gt_iff)

/-! ## Contents -/

theorem lookup_mem {c : Contents} {k : Key} {r : RRs} (h : lookup c k = some r) : (k, r) ∈ c := by
  fun_induction lookup c k <;> simp_all

theorem lookup_none {c : Contents} {k : Key} : lookup c k = none ↔ ∀ r, (k, r) ∉ c := by
  fun_induction lookup c k with
  | case1 => simp
  | case2 r t k => 
    constructor
    · intro h; exact absurd h (by simp)
    · intro h; exact absurd (List.mem_cons_self ..) (h r)
  | case3 k' k r t h ih =>
    rw [ih]
    constructor
    · intro hh r' hm
      rcases List.mem_cons.mp hm with e | e
      · simp only [Prod.mk.injEq] at e; exact h e.1.symm
      · exact hh r' e
    · intro hh r' hm
      exact hh r' (List.mem_cons_of_mem _ hm)

theorem mem_lookup {c : Contents} (hn : (c.map (·.1)).Nodup) {k : Key} {r : RRs} (h : (k, r) ∈ c) :
    lookup c k = some r := by
  induction c with
  | nil => simp at h
  | cons e t ih =>
    obtain ⟨k', r'⟩ := e
    simp only [List.map_cons, List.nodup_cons] at hn
    unfold lookup
    rcases List.mem_cons.mp h with e | e
    · simp only [Prod.mk.injEq] at e
      rw [if_pos e.1.symm, e.2]
    · by_cases hk : k' = k
      · exfalso
        apply hn.1
        rw [hk]
        exact List.mem_map.mpr ⟨_, e, rfl⟩
      · rw [if_neg hk]
        exact ih hn.2 e

theorem lookup_perm {c c' : Contents} (hp : List.Perm c c') (hn : (c.map (·.1)).Nodup) (k : Key) :
    lookup c' k = lookup c k := by
  have hn' : (c'.map (·.1)).Nodup := (hp.map _).nodup_iff.mp hn
  cases h : lookup c k with
  | some r => exact mem_lookup hn' (hp.mem_iff.mp (lookup_mem h))
  | none =>
    rw [lookup_none] at h ⊢
    exact fun r hm => h r (hp.mem_iff.mpr hm)

theorem Wf.perm {c c' : Contents} (hp : List.Perm c c') (h : Wf c) : Wf c' :=
  ⟨(hp.map _).nodup_iff.mp h.1, fun rr hm => h.2 rr (hp.mem_iff.mpr hm)⟩

theorem Wf.good {c : Contents} (h : Wf c) {k : Key} {r : RRs} (hl : lookup c k = some r) : Good r :=
  (h.2 _ (lookup_mem hl)).2

theorem Wf.key {c : Contents} (h : Wf c) {k : Key} {r : RRs} (hl : lookup c k = some r) : KeyOk k :=
  (h.2 _ (lookup_mem hl)).1

theorem put_keys {c : Contents} {k k' : Key} {v : Option RRs} (h : k' ∈ (put c k v).map (·.1)) :
    k' = k ∨ k' ∈ c.map (·.1) := by
  fun_induction put c k v <;> simp_all <;> grind

theorem put_nodup {c : Contents} (hn : (c.map (·.1)).Nodup) (k : Key) (v : Option RRs) :
    ((put c k v).map (·.1)).Nodup := by
  fun_induction put c k v with
  | case1 => simp
  | case2 => simp
  | case3 => simp_all
  | case4 => simp_all
  | case5 k' r' t k v h ih =>
    simp only [List.map_cons, List.nodup_cons] at hn ⊢
    refine ⟨fun hm => ?_, ih hn.2⟩
    rcases put_keys hm with e | e
    · exact h e
    · exact hn.1 e

theorem lookup_put {c : Contents} (hn : (c.map (·.1)).Nodup) (k : Key) (v : Option RRs) (k' : Key) :
    lookup (put c k v) k' = if k' = k then v else lookup c k' := by
  fun_induction put c k v with
  | case1 => simp [lookup]
  | case2 k r => simp [lookup, eq_comm]
  | case3 r t k =>
    simp only [List.map_cons, List.nodup_cons] at hn
    by_cases h : k' = k
    · subst h
      rw [if_pos rfl, lookup_none]
      intro r hm
      exact hn.1 (List.mem_map.mpr ⟨_, hm, rfl⟩)
    · simp [h, lookup, Ne.symm h]
  | case4 r0 t k r =>
    by_cases h : k' = k
    · simp [h, lookup]
    · simp [h, lookup, Ne.symm h]
  | case5 k0 r' t k v h ih =>
    simp only [List.map_cons, List.nodup_cons] at hn
    simp only [lookup, ih hn.2]
    grind

theorem mem_put {c : Contents} {k : Key} {v : Option RRs} {rr : RRset} (h : rr ∈ put c k v) :
    rr ∈ c ∨ (rr.1 = k ∧ v = some rr.2) := by
  fun_induction put c k v <;> simp_all <;> grind

theorem Wf.put {c : Contents} (h : Wf c) {k : Key} {v : Option RRs} (hk : v.isSome → KeyOk k)
    (hv : ∀ r, v = some r → Good r) : Wf (put c k v) := by
  refine ⟨put_nodup h.1 k v, fun rr hm => ?_⟩
  rcases mem_put hm with e | ⟨e', e⟩
  · exact h.2 _ e
  · exact ⟨e' ▸ hk (by rw [e]; rfl), hv _ e⟩

/-! ## Rdatasets -/

theorem mem_insertRd {x y : Bytes} {l : List Bytes} : y ∈ insertRd x l ↔ y = x ∨ y ∈ l := by
  fun_induction insertRd x l with
  | case1 => simp
  | case2 z t h => simp
  | case3 z t h =>
    have := cmp_eq_iff.mp h
    subst this
    simp
  | case4 z t h ih => simp [ih]; grind

theorem canon_insertRd {x : Bytes} {l : List Bytes} (h : Canon l) : Canon (insertRd x l) := by
  fun_induction insertRd x l with
  | case1 => simp [Canon]
  | case2 z t hc =>
    have hz : Less x z := cmp_lt_iff.mp hc
    have hp := List.pairwise_cons.mp h
    refine List.pairwise_cons.mpr ⟨fun y hy => ?_, h⟩
    rcases List.mem_cons.mp hy with e | e
    · exact e ▸ hz
    · exact hz.trans (hp.1 y e)
  | case3 z t hc => exact h
  | case4 z t hc ih =>
    have hz : Less z x := cmp_gt_iff.mp hc
    have hp := List.pairwise_cons.mp h
    refine List.pairwise_cons.mpr ⟨fun y hy => ?_, ih hp.2⟩
    rcases mem_insertRd.mp hy with e | e
    · exact e ▸ hz
    · exact hp.1 y e

theorem mem_merge {x : Bytes} {a b : List Bytes} : x ∈ merge a b ↔ x ∈ a ∨ x ∈ b := by
  unfold merge
  induction b generalizing a with
  | nil => simp
  | cons y t ih => simp [ih, mem_insertRd]; grind

theorem canon_merge {a b : List Bytes} (h : Canon a) : Canon (merge a b) := by
  unfold merge
  induction b generalizing a with
  | nil => exact h
  | cons y t ih => exact ih (canon_insertRd h)

theorem mem_subtract {x : Bytes} {a b : List Bytes} : x ∈ subtract a b ↔ x ∈ a ∧ x ∉ b := by
  simp [subtract]

theorem canon_subtract {a : List Bytes} (b : List Bytes) (h : Canon a) : Canon (subtract a b) :=
  h.filter _

end Knot.Changeset
