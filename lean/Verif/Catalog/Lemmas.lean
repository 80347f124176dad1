import Verif.Catalog.Spec
/-!
# Lemmas on catalog updates
-/
namespace Knot.Catalog
open Dname

def Nf (m : Name) : Prop := ∀ l ∈ m, l ≠ [] ∧ (0 : UInt8) ∉ l

theorem flat_inj {a b : List Label} (ha : ∀ l ∈ a, (0 : UInt8) ∉ l) (hb : ∀ l ∈ b, (0 : UInt8) ∉ l)
    (h : a.flatMap (· ++ [0]) = b.flatMap (· ++ [0])) : a = b := by
  have one : ∀ (x y : Label) (s t : List UInt8), (0 : UInt8) ∉ x → (0 : UInt8) ∉ y →
      x ++ 0 :: s = y ++ 0 :: t → x = y ∧ s = t := by
    intro x
    induction x with
    | nil =>
      intro y s t _ hy h
      cases y with
      | nil => simpa using h
      | cons c y => simp at h; simp [← h.1] at hy
    | cons c x ih =>
      intro y s t hx hy h
      cases y with
      | nil => simp at h; simp [h.1] at hx
      | cons c' y =>
        simp only [List.cons_append, List.cons.injEq, List.mem_cons, not_or] at h hx hy
        obtain ⟨e, e2⟩ := ih y s t hx.2 hy.2 h.2
        exact ⟨by rw [h.1, e], e2⟩
  induction a generalizing b with
  | nil => cases b with
    | nil => rfl
    | cons l b => simp at h
  | cons l a ih => cases b with
    | nil => simp at h
    | cons l' b =>
      simp only [List.flatMap_cons, List.append_assoc, List.singleton_append] at h
      obtain ⟨e, e2⟩ := one l l' _ _ (ha l (by simp)) (hb l' (by simp)) h
      rw [e, ih (fun x hx => ha x (by simp [hx])) (fun x hx => hb x (by simp [hx])) e2]

theorem key_inj {a b : Name} (ha : Nf a) (hb : Nf b) (h : key a = key b) : a = b := by
  have := flat_inj (a := a.reverse) (b := b.reverse) (fun l hl => (ha l (by simpa using hl)).2)
    (fun l hl => (hb l (by simpa using hl)).2) h
  simpa using congrArg List.reverse this

/-- Well-formed updates: one entry for a key, which is that of its member. -/
structure WF (u : Upd) : Prop where
  nodup : (u.map Prod.fst).Nodup
  keys : ∀ p ∈ u, p.1 = key p.2.member ∧ Nf p.2.member

theorem lookup_mem {α : Type} [BEq α] [LawfulBEq α] {β : Type} {l : List (α × β)} {k : α} {v : β}
    (h : l.lookup k = some v) : (k, v) ∈ l := by
  induction l with
  | nil => simp at h
  | cons p l ih =>
    obtain ⟨k', v'⟩ := p
    rw [List.lookup_cons] at h
    split at h
    · rename_i e
      simp only [beq_iff_eq] at e
      injection h with h
      subst e h
      simp
    · simp [ih h]

theorem lookup_of_mem {α : Type} [BEq α] [LawfulBEq α] {β : Type} {l : List (α × β)} {k : α} {v : β}
    (hn : (l.map Prod.fst).Nodup) (h : (k, v) ∈ l) : l.lookup k = some v := by
  induction l with
  | nil => simp at h
  | cons p l ih =>
    obtain ⟨k', v'⟩ := p
    simp only [List.map_cons, List.nodup_cons] at hn
    rw [List.lookup_cons]
    rcases List.mem_cons.mp h with e | h'
    · injection e with e1 e2; subst e1 e2; simp
    · have : (k == k') = false := by
        simp only [beq_eq_false_iff_ne, ne_eq]
        rintro rfl
        exact hn.1 (List.mem_map.mpr ⟨(k, v), h', rfl⟩)
      rw [this]
      exact ih hn.2 h'

theorem lookup_none_iff {α : Type} [BEq α] [LawfulBEq α] {β : Type} {l : List (α × β)} {k : α} :
    l.lookup k = none ↔ ∀ p ∈ l, p.1 ≠ k := by
  induction l with
  | nil => simp
  | cons p l ih =>
    obtain ⟨k', v'⟩ := p
    rw [List.lookup_cons]
    by_cases h : k = k'
    · subst h; simp
    · have : (k == k') = false := by simpa using h
      rw [this]
      simp only [List.mem_cons, forall_eq_or_imp, ih]
      constructor
      · intro hh; exact ⟨fun e => h e.symm, hh⟩
      · intro hh; exact hh.2

theorem put_keys (u : Upd) (k : List UInt8) (v : Val) : (u.put k v).map Prod.fst = u.map Prod.fst := by
  unfold Upd.put
  rw [List.map_map]
  apply List.map_congr_left
  intro p _
  simp only [Function.comp]
  split <;> simp_all

theorem lookup_put (u : Upd) (k k' : List UInt8) (v : Val) :
    (u.put k v).lookup k' = if k' = k then (u.lookup k).map (fun _ => v) else u.lookup k' := by
  unfold Upd.put
  induction u with
  | nil => simp
  | cons p u ih =>
    obtain ⟨a, w⟩ := p
    simp only [List.map_cons]
    by_cases ha : a = k
    · subst ha
      simp only [if_true, List.lookup_cons]
      by_cases hk : k' = a
      · subst hk; simp
      · have : (k' == a) = false := by simpa using hk
        rw [this]
        simp only [ih, if_neg hk]
    · simp only [if_neg ha, List.lookup_cons]
      by_cases hk : k' = a
      · subst hk; simp [ha]
      · have h1 : (k' == a) = false := by simpa using hk
        have h2 : (k == a) = false := by simp; exact fun e => ha e.symm
        rw [h1, h2]
        exact ih

theorem lookup_filter {β : Type} (u : List (α × β)) [BEq α] [LawfulBEq α] [DecidableEq α] (k k' : α) :
    (u.filter (fun p => p.1 ≠ k)).lookup k' = if k' = k then none else u.lookup k' := by
  induction u with
  | nil => simp
  | cons p u ih =>
    obtain ⟨a, w⟩ := p
    by_cases ha : a = k
    · subst ha
      simp only [ne_eq, not_true_eq_false, decide_false, Bool.false_eq_true, not_false_eq_true,
        List.filter_cons_of_neg]
      simp only [ne_eq] at ih ⊢
      rw [ih, List.lookup_cons]
      by_cases hk : k' = a
      · simp [hk]
      · have : (k' == a) = false := by simpa using hk
        simp [hk, this]
    · rw [List.filter_cons_of_pos (by simpa using ha), List.lookup_cons, List.lookup_cons, ih]
      by_cases hk : k' = a
      · subst hk; simp [ha]
      · have h1 : (k' == a) = false := by simpa using hk
        rw [h1]

theorem wf_put {u : Upd} (h : WF u) {m : Name} (hm : Nf m) {v : Val} (hv : v.member = m) :
    WF (u.put (key m) v) := by
  refine ⟨by rw [put_keys]; exact h.nodup, ?_⟩
  intro p hp
  unfold Upd.put at hp
  rw [List.mem_map] at hp
  obtain ⟨q, hq, rfl⟩ := hp
  split
  · exact ⟨by rw [hv], by rw [hv]; exact hm⟩
  · exact h.keys q hq

theorem wf_del {u : Upd} (h : WF u) (k : List UInt8) : WF (u.del k) := by
  refine ⟨?_, fun p hp => h.keys p (List.mem_filter.mp hp).1⟩
  exact h.nodup.sublist (List.filter_sublist.map _)

theorem wf_cons {u : Upd} (h : WF u) {m : Name} (hm : Nf m) {v : Val} (hv : v.member = m)
    (hn : u.lookup (key m) = none) : WF ((key m, v) :: u) := by
  constructor
  · simp only [List.map_cons, List.nodup_cons]
    refine ⟨?_, h.nodup⟩
    intro hk
    obtain ⟨p, hp, e⟩ := List.mem_map.mp hk
    exact lookup_none_iff.mp hn p hp e
  · intro p hp
    rcases List.mem_cons.mp hp with rfl | hp
    · exact ⟨by rw [hv], by rw [hv]; exact hm⟩
    · exact h.keys p hp

theorem wf_member {u : Upd} (h : WF u) {m : Name} (hm : Nf m) {v : Val}
    (hl : u.lookup (key m) = some v) : v.member = m := by
  have := h.keys _ (lookup_mem hl)
  exact key_inj this.2 hm this.1.symm

end Knot.Catalog
