import Verif.Diff.Lemmas
/-!
# Lemmas: the difference of trees and zones
-/
namespace Knot.Diff
open Knot.Dname (Name)
open Knot.Changeset

theorem getNode_mem {t : Tree} {o : Name} {n : Node} (h : getNode t o = some n) : n.owner = o ∧ n ∈ t := by
  fun_induction getNode t o <;> simp_all

theorem getNode_none {t : Tree} {o : Name} (h : o ∉ t.map (·.owner)) : getNode t o = none := by
  fun_induction getNode t o <;> simp_all

theorem getNode_of_mem {t : Tree} {n : Node} (hn : (t.map (·.owner)).Nodup) (h : n ∈ t) :
    getNode t n.owner = some n := by
  induction t with
  | nil => simp at h
  | cons m t ih =>
    simp only [List.map_cons, List.nodup_cons] at hn
    unfold getNode
    rcases List.mem_cons.mp h with e | e
    · simp [e]
    · rw [if_neg, ih hn.2 e]
      intro he
      exact hn.1 (he ▸ List.mem_map.mpr ⟨n, e, rfl⟩)

/-- The RRset in a tree. -/
def lk (t : Tree) (o : Name) (type : Nat) : Option RRs :=
  (getNode t o).bind (fun n => rrsetOf n.rrsets type)

theorem NodeOk.noSoa {apex : Name} {f : Bool} {n : Node} (h : NodeOk apex f n) (hs : n.owner ≠ apex ∨ f = true) :
    rrsetOf n.rrsets soa = none := by
  cases hl : rrsetOf n.rrsets soa with
  | none => rfl
  | some r =>
    have := h.2 _ (rrsetOf_mem hl)
    rcases hs with e | e
    · exact absurd (this.2.2 rfl) e
    · have := this.1.1 e
      simp [soa, rrsig] at this

theorem rmv_none (g : Ign) (t : Nat) (b : Option RRs) : rmv g t none b = none := by
  unfold rmv; split <;> rfl

/-- The first pass. -/
theorem fold_diff {apex : Name} {g : Ign} {f : Bool} {l t2 : Tree} {ch : Ch} (w : ch.Wf apex)
    (hn : (l.map (·.owner)).Nodup) (h1 : ∀ n ∈ l, NodeOk apex f n) (h2 : ∀ m ∈ t2, NodeOk apex f m)
    (s1 : ∀ n ∈ l, n.owner = apex → f = false → ∃ m, getNode t2 apex = some m ∧ n.rrsets ≠ [])
    (nr : ∀ n ∈ l, ∀ t, lookup ch.rem ⟨f, n.owner, t⟩ = none)
    (na : ∀ n ∈ l, ∀ t, lookup ch.add ⟨f, n.owner, t⟩ = none) :
    Ext apex ch (l.foldl (diffNode g f t2) ch)
      (fun k => if k.nsec3 = f then rmv g k.type (lk l k.owner k.type) (lk t2 k.owner k.type) else none)
      (fun k => if k.nsec3 = f ∧ (getNode l k.owner).isSome then
        rmv g k.type (lk t2 k.owner k.type) (lk l k.owner k.type) else none) := by
  induction l generalizing ch with
  | nil =>
    refine (Ext.refl w).congr ?_ ?_
    · intro k; simp [lk, getNode, rmv_none]
    · intro k; simp [getNode]
  | cons n t ih =>
    simp only [List.map_cons, List.nodup_cons] at hn
    have hn1 := h1 n (by simp)
    have x1 := diffNode_ext (g := g) w hn1 h2 hn1.noSoa (s1 n (by simp)) (fun m hm => getNode_mem hm)
      (nr n (by simp)) (na n (by simp))
    have ne : ∀ m ∈ t, m.owner ≠ n.owner := by
      intro m hm he
      exact hn.1 (he ▸ List.mem_map.mpr ⟨m, hm, rfl⟩)
    have x2 := ih x1.wf hn.2 (fun m hm => h1 m (by simp [hm])) (fun m hm => s1 m (by simp [hm]))
      (fun m hm t' => by
        rw [x1.rem, nr m (by simp [hm])]
        simp [contrib, ne m hm])
      (fun m hm t' => by
        rw [x1.add, na m (by simp [hm])]
        cases getNode t2 n.owner <;> simp [contrib, ne m hm])
    have gn : getNode t n.owner = none := getNode_none hn.1
    refine (x1.trans x2).congr ?_ ?_
    · intro k
      unfold contrib
      by_cases hf : k.nsec3 = f
      · by_cases ho : k.owner = n.owner
        · simp only [hf, ho, and_self, if_true]
          simp only [lk, getNode, gn, Option.bind_none, rmv_none, Option.none_or, if_true, Option.bind_some]
          cases getNode t2 n.owner <;> simp [rrsetOf]
        · simp [hf, ho, lk, getNode, Ne.symm ho]
      · simp [hf]
    · intro k
      by_cases hf : k.nsec3 = f
      · by_cases ho : k.owner = n.owner
        · cases hg : getNode t2 n.owner with
          | none => simp [hf, ho, lk, getNode, gn, hg, rmv_none]
          | some m => simp [contrib, hf, ho, lk, getNode, gn, hg]
        · cases hg : getNode t2 n.owner with
          | none => simp [hf, lk, getNode, Ne.symm ho]
          | some m => simp [contrib, hf, ho, lk, getNode, Ne.symm ho]
      · cases hg : getNode t2 n.owner with
        | none => simp [hf]
        | some m => simp [contrib, hf]

/-- The second pass. -/
theorem fold_new {apex : Name} {g : Ign} {f : Bool} {l t1 : Tree} {ch : Ch} (w : ch.Wf apex)
    (hn : (l.map (·.owner)).Nodup) (h1 : ∀ n ∈ l, NodeOk apex f n)
    (s1 : ∀ n ∈ l, n.owner = apex → f = false → (getNode t1 apex).isSome)
    (na : ∀ n ∈ l, getNode t1 n.owner = none → ∀ t, lookup ch.add ⟨f, n.owner, t⟩ = none) :
    Ext apex ch (l.foldl (addNewNode g f t1) ch) (fun _ => none)
      (fun k => if k.nsec3 = f ∧ getNode t1 k.owner = none then
        rmv g k.type (lk l k.owner k.type) none else none) := by
  induction l generalizing ch with
  | nil =>
    refine (Ext.refl w).congr (fun _ => rfl) ?_
    intro k; simp [lk, getNode, rmv_none]
  | cons n t ih =>
    simp only [List.map_cons, List.nodup_cons] at hn
    have hn1 := h1 n (by simp)
    have x1 : Ext apex ch (addNewNode g f t1 ch n) (fun _ => none)
        (fun k => if getNode t1 n.owner = none then contrib g f n.owner n.rrsets [] k else none) := by
      unfold addNewNode
      cases hg : getNode t1 n.owner with
      | some m => exact (Ext.refl w).congr (fun _ => rfl) (by simp)
      | none =>
        refine (add_ext w hn1 (hn1.noSoa ?_) (na n (by simp) hg)).congr (fun _ => rfl) (by simp)
        by_cases ha : n.owner = apex
        · cases f with
          | true => exact .inr rfl
          | false =>
            have := s1 n (by simp) ha rfl
            rw [← ha, hg] at this; simp at this
        · exact .inl ha
    have ne : ∀ m ∈ t, m.owner ≠ n.owner := by
      intro m hm he
      exact hn.1 (he ▸ List.mem_map.mpr ⟨m, hm, rfl⟩)
    have x2 := ih x1.wf hn.2 (fun m hm => h1 m (by simp [hm])) (fun m hm => s1 m (by simp [hm]))
      (fun m hm hg t' => by
        rw [x1.add, na m (by simp [hm]) hg]
        simp [contrib, ne m hm])
    have gn : getNode t n.owner = none := getNode_none hn.1
    refine (x1.trans x2).congr (fun _ => rfl) ?_
    intro k
    unfold contrib
    by_cases hf : k.nsec3 = f
    · by_cases ho : k.owner = n.owner
      · by_cases hg : getNode t1 n.owner = none <;>
          simp [hf, ho, lk, getNode, gn, hg, rmv_none, rrsetOf]
      · simp [hf, ho, lk, getNode, Ne.symm ho]
    · simp [hf]

theorem trees_ext {apex : Name} {g : Ign} {f : Bool} {t1 t2 : Tree} {ch : Ch} (w : ch.Wf apex)
    (h1 : Tree.Wf apex f t1) (h2 : Tree.Wf apex f t2)
    (s1 : f = false → ∃ n m, getNode t1 apex = some n ∧ getNode t2 apex = some m ∧ n.rrsets ≠ [])
    (nr : ∀ o t, lookup ch.rem ⟨f, o, t⟩ = none) (na : ∀ o t, lookup ch.add ⟨f, o, t⟩ = none) :
    Ext apex ch (loadTrees g f t1 t2 ch)
      (fun k => if k.nsec3 = f then rmv g k.type (lk t1 k.owner k.type) (lk t2 k.owner k.type) else none)
      (fun k => if k.nsec3 = f then rmv g k.type (lk t2 k.owner k.type) (lk t1 k.owner k.type) else none) := by
  have x1 := fold_diff (g := g) (t2 := t2) w h1.1 h1.2 h2.2
    (by
      intro n hn ha hf
      obtain ⟨n', m, e1, e2, e3⟩ := s1 hf
      have := getNode_of_mem h1.1 hn
      rw [ha, e1, Option.some.injEq] at this
      exact ⟨m, e2, this ▸ e3⟩)
    (fun n _ t => nr _ _) (fun n _ t => na _ _)
  have x2 := fold_new (g := g) (t1 := t1) x1.wf h2.1 h2.2
    (by
      intro n hn ha hf
      obtain ⟨n', m, e1, e2, e3⟩ := s1 hf
      rw [e1]; rfl)
    (by
      intro n hn hg t
      rw [x1.add, na]
      simp [hg])
  refine (x1.trans x2).congr (fun k => by simp) ?_
  intro k
  by_cases hf : k.nsec3 = f
  · cases hg : getNode t1 k.owner with
    | none => simp [hf, lk, hg]
    | some m => simp [hf]
  · simp [hf]

/-! ## Flattened zones -/

theorem lookup_append (a b : Contents) (k : Key) : lookup (a ++ b) k = (lookup a k).or (lookup b k) := by
  induction a with
  | nil => rfl
  | cons x t ih =>
    obtain ⟨k', r⟩ := x
    simp only [List.cons_append, lookup]
    split
    · rfl
    · exact ih

theorem lookup_node (f : Bool) (o : Name) (l : List (Nat × RRs)) (k : Key) :
    lookup (l.map (fun r => ((⟨f, o, r.1⟩ : Key), r.2))) k =
      if k.nsec3 = f ∧ k.owner = o then rrsetOf l k.type else none := by
  induction l with
  | nil => simp [lookup, rrsetOf]
  | cons x t ih =>
    obtain ⟨ty, r⟩ := x
    obtain ⟨b, n, kt⟩ := k
    simp only [List.map_cons, lookup, rrsetOf, Key.mk.injEq]
    rw [ih]
    by_cases h1 : b = f ∧ n = o
    · obtain ⟨rfl, rfl⟩ := h1
      simp
    · rw [if_neg h1, if_neg h1, if_neg (by grind)]

theorem lookup_tree {apex : Name} {f : Bool} {t : Tree} (h : Tree.Wf apex f t) (k : Key) :
    lookup (Tree.flat f t) k = if k.nsec3 = f then lk t k.owner k.type else none := by
  have hn := h.1
  clear h
  induction t with
  | nil => simp [Tree.flat, lookup, lk, getNode]
  | cons n t ih =>
    simp only [List.map_cons, List.nodup_cons] at hn
    have e : Tree.flat f (n :: t) = n.rrsets.map (fun r => ((⟨f, n.owner, r.1⟩ : Key), r.2)) ++ Tree.flat f t := by
      simp [Tree.flat]
    rw [e, lookup_append, lookup_node, ih hn.2]
    by_cases hf : k.nsec3 = f
    · by_cases ho : k.owner = n.owner
      · simp [hf, ho, lk, getNode, getNode_none hn.1]
      · simp [hf, ho, lk, getNode, Ne.symm ho]
    · simp [hf]

/-- The RRset in a zone. -/
def zlk (z : Zone) (k : Key) : Option RRs :=
  if k.nsec3 then lk z.nsec3 k.owner k.type else lk z.nodes k.owner k.type

theorem lookup_flat {apex : Name} {z : Zone} (h : z.Wf apex) (k : Key) : lookup z.flat k = zlk z k := by
  rw [Zone.flat, lookup_append, lookup_tree h.1, lookup_tree h.2, zlk]
  cases k.nsec3 <;> simp

theorem keys_tree {f : Bool} {t : Tree} {k : Key} (h : k ∈ (Tree.flat f t).map (·.1)) :
    k.nsec3 = f ∧ k.owner ∈ t.map (·.owner) := by
  simp only [Tree.flat, List.mem_map, List.mem_flatMap] at h
  obtain ⟨rr, ⟨n, hn, r, hr, rfl⟩, rfl⟩ := h
  exact ⟨rfl, List.mem_map.mpr ⟨n, hn, rfl⟩⟩

theorem nodup_append' {α : Type} {a b : List α} (ha : a.Nodup) (hb : b.Nodup) (h : ∀ x ∈ a, x ∉ b) :
    (a ++ b).Nodup :=
  List.nodup_append.mpr ⟨ha, hb, fun x hx y hy e => h x hx (e ▸ hy)⟩

theorem tree_nodup {apex : Name} {f : Bool} {t : Tree} (h : Tree.Wf apex f t) :
    ((Tree.flat f t).map (·.1)).Nodup := by
  induction t with
  | nil => simp [Tree.flat]
  | cons n t ih =>
    have hn := h.1
    simp only [List.map_cons, List.nodup_cons] at hn
    have e : Tree.flat f (n :: t) = n.rrsets.map (fun r => ((⟨f, n.owner, r.1⟩ : Key), r.2)) ++ Tree.flat f t := by
      simp [Tree.flat]
    rw [e, List.map_append]
    refine nodup_append' ?_ (ih ⟨hn.2, fun m hm => h.2 m (by simp [hm])⟩) ?_
    · rw [List.map_map]
      have := (h.2 n (by simp)).1
      unfold List.Nodup at this ⊢
      rw [List.pairwise_map] at this ⊢
      exact this.imp (fun hne he => hne (congrArg Key.type he))
    · intro k hk hk'
      simp only [List.mem_map] at hk
      obtain ⟨_, ⟨r, _, rfl⟩, rfl⟩ := hk
      exact hn.1 (keys_tree hk').2

theorem tree_props {apex : Name} {f : Bool} {t : Tree} (h : Tree.Wf apex f t) {rr : RRset}
    (hr : rr ∈ Tree.flat f t) : KeyOk rr.1 ∧ Good rr.2 ∧ (rr.1.type = soa → rr.1 = soaKey apex) := by
  simp only [Tree.flat, List.mem_flatMap, List.mem_map] at hr
  obtain ⟨n, hn, r, hr, rfl⟩ := hr
  obtain ⟨k, g, s⟩ := (h.2 n hn).2 r hr
  refine ⟨k, g, fun e => ?_⟩
  simp only at e
  have hf : f = false := by
    cases f with
    | false => rfl
    | true => have := k.1 rfl; simp only [e, soa, rrsig] at this; omega
  simp only [soaKey, e, hf, s e]

theorem flat_wf {apex : Name} {z : Zone} (h : z.Wf apex) :
    Wf z.flat ∧ ∀ rr ∈ z.flat, rr.1.type = soa → rr.1 = soaKey apex := by
  have hp : ∀ rr ∈ z.flat, KeyOk rr.1 ∧ Good rr.2 ∧ (rr.1.type = soa → rr.1 = soaKey apex) := by
    intro rr hr
    rcases List.mem_append.mp hr with e | e
    · exact tree_props h.1 e
    · exact tree_props h.2 e
  refine ⟨⟨?_, fun rr hr => ⟨(hp rr hr).1, (hp rr hr).2.1⟩⟩, fun rr hr => (hp rr hr).2.2⟩
  rw [Zone.flat, List.map_append]
  refine nodup_append' (tree_nodup h.1) (tree_nodup h.2) ?_
  intro k h1 h2
  have a := (keys_tree h1).1
  have b := (keys_tree h2).1
  rw [a] at b; simp at b

theorem soaOf_eq {apex : Name} {z : Zone} (h : z.Wf apex) : soaOf apex z = lookup z.flat (soaKey apex) := by
  rw [lookup_flat h]
  simp only [soaOf, zlk, lk, Bool.false_eq_true, if_false]
  cases getNode z.nodes apex <;> rfl

/-! ## The whole difference -/

theorem init_wf (apex : Name) : Ch.Wf apex Ch.init := by
  refine ⟨⟨by simp [Ch.init], by simp [Ch.init]⟩, ⟨by simp [Ch.init], by simp [Ch.init]⟩, ?_⟩
  simp [Ch.init]

/-- What the trees contribute. -/
theorem zone_ext {apex : Name} {g : Ign} {z1 z2 : Zone} {ch : Ch} (w : ch.Wf apex) (h1 : z1.Wf apex)
    (h2 : z2.Wf apex) (ha : ch.add = []) (hr : ch.rem = []) (s1 : (lookup z1.flat (soaKey apex)).isSome)
    (s2 : (lookup z2.flat (soaKey apex)).isSome) :
    Ext apex ch (loadTrees g true z1.nsec3 z2.nsec3 (loadTrees g false z1.nodes z2.nodes ch))
      (fun k => rmv g k.type (lookup z1.flat k) (lookup z2.flat k))
      (fun k => rmv g k.type (lookup z2.flat k) (lookup z1.flat k)) := by
  have x1 := trees_ext (g := g) w h1.1 h2.1
    (by
      intro _
      rw [← soaOf_eq h1] at s1
      rw [← soaOf_eq h2] at s2
      unfold soaOf at s1 s2
      cases e1 : getNode z1.nodes apex with
      | none => rw [e1] at s1; simp at s1
      | some n =>
        cases e2 : getNode z2.nodes apex with
        | none => rw [e2] at s2; simp at s2
        | some m =>
          refine ⟨n, m, rfl, rfl, fun e => ?_⟩
          rw [e1] at s1
          simp [e, rrsetOf] at s1)
    (by simp [hr, lookup]) (by simp [ha, lookup])
  have x2 := trees_ext (g := g) x1.wf h1.2 h2.2 (by simp)
    (by intro o t; rw [x1.rem]; simp [hr, lookup]) (by intro o t; rw [x1.add]; simp [ha, lookup])
  refine (x1.trans x2).congr ?_ ?_
  · intro k
    rw [lookup_flat h1, lookup_flat h2]
    cases hk : k.nsec3 <;> simp [zlk, hk]
  · intro k
    rw [lookup_flat h1, lookup_flat h2]
    cases hk : k.nsec3 <;> simp [zlk, hk]

/-- A change of one RRset leads to the other version. -/
theorem leads_rmv {g : Ign} {t : Nat} {a b : Option RRs} (hs : t ≠ soa) :
    Leads1 t a (if ignored g t then a else b) (rmv g t a b) (rmv g t b a) := by
  by_cases hi : ignored g t
  · simp only [hi, if_true, rmv, hs, false_or]
    exact ⟨by simp [recs], by simp [recs], by simp [recs], by simp, by simp,
      fun bb cc e1 e2 _ => by rw [e1, Option.some.injEq] at e2; rw [e2]; exact .inr rfl⟩
  · simp only [hi, Bool.false_eq_true, if_false, rmv, hs, or_self]
    cases a with
    | none =>
      cases b with
      | none => exact ⟨by simp [recs], by simp [recs], by simp [recs], by simp, by simp, by simp⟩
      | some y =>
        refine ⟨by simp [recs], by simp [recs], by simp [recs], by simp, ?_, by simp⟩
        intro aa cc e1 e2
        simp only [Option.some.injEq] at e1 e2
        rw [← e1, ← e2]; exact .inr rfl
    | some x =>
      cases b with
      | none =>
        refine ⟨by simp [recs], by simp [recs], by simp [recs], ?_, by simp, by simp⟩
        intro aa cc e1 e2
        simp only [Option.some.injEq] at e1 e2
        rw [← e1, ← e2]; exact .inr rfl
      | some y =>
        have m : ∀ (u v : RRs) (d : Bytes), d ∈ recs (chg t u v) ↔
            d ∈ u.data ∧ ((u.ttl ≠ v.ttl ∧ t ≠ rrsig) ∨ d ∉ v.data) := by
          intro u v d
          rw [← mem_changes]
          unfold chg
          split
          · rename_i he; rw [he]; rfl
          · rfl
        have tt : ∀ (u v q : RRs), chg t u v = some q → q.ttl = u.ttl := by
          intro u v q hq
          unfold chg at hq
          split at hq
          · simp at hq
          · simp only [Option.some.injEq] at hq; rw [← hq]; rfl
        simp only
        refine ⟨?_, ?_, ?_, ?_, ?_, ?_⟩
        · intro d hd; exact ((m x y d).mp hd).1
        · intro d hd hb
          have := (m y x d).mp hd
          refine (m x y d).mpr ⟨hb, ?_⟩
          rcases this.2 with e | e
          · exact .inl ⟨fun h => e.1 h.symm, e.2⟩
          · exact absurd hb e
        · intro d
          rw [m, m]
          simp only [recs]
          constructor
          · intro hd
            by_cases ht : x.ttl = y.ttl ∨ t = rrsig
            · by_cases hx : d ∈ x.data
              · left
                refine ⟨hx, ?_⟩
                rintro ⟨_, e | e⟩
                · rcases ht with h | h
                  · exact e.1 h
                  · exact e.2 h
                · exact e hd
              · exact .inr ⟨hd, .inr hx⟩
            · right
              exact ⟨hd, .inl ⟨fun h => ht (.inl h.symm), fun h => ht (.inr h)⟩⟩
          · rintro (⟨hx, hn⟩ | ⟨hd, _⟩)
            · by_cases hy : d ∈ y.data
              · exact hy
              · exact absurd ⟨hx, .inr hy⟩ hn
            · exact hd
        · intro rr bb e1 e2
          rw [Option.some.injEq] at e2
          rw [tt x y rr e1, e2]; exact .inr rfl
        · intro aa cc e1 e2
          rw [Option.some.injEq] at e2
          rw [tt y x aa e1, e2]; exact .inr rfl
        · intro bb cc e1 e2 he
          rw [Option.some.injEq] at e1 e2
          subst e1 e2
          obtain ⟨d, hd, hn⟩ := he
          rw [m] at hn
          by_cases ht : t = rrsig
          · exact .inl ht
          · by_cases hx : x.ttl = y.ttl
            · exact .inr hx.symm
            · exact absurd ⟨hd, .inl ⟨hx, ht⟩⟩ hn

/-- The zone to be reached. -/
def target (apex : Name) (g : Ign) (keep : Bool) (c1 c2 : Contents) : Contents :=
  c1.filter (fun rr => ignored g rr.1.type || (decide (rr.1 = soaKey apex) && keep)) ++
  c2.filter (fun rr => !(ignored g rr.1.type || (decide (rr.1 = soaKey apex) && keep)))

theorem lookup_filter (p : Key → Bool) (c : Contents) (k : Key) :
    lookup (c.filter (fun rr => p rr.1)) k = if p k then lookup c k else none := by
  induction c with
  | nil => simp [lookup]
  | cons x t ih =>
    obtain ⟨k', r⟩ := x
    rw [List.filter_cons]
    by_cases hp : p k'
    · simp only [hp, if_true, lookup]
      by_cases he : k' = k
      · subst he; simp [hp]
      · simp only [he, if_false]; exact ih
    · simp only [hp, Bool.false_eq_true, if_false, lookup]
      rw [ih]
      by_cases he : k' = k
      · subst he; simp [hp]
      · simp [he]

theorem ignored_iff {g : Ign} {t : Nat} : ignored g t = true ↔ Ignored g t := by
  simp [ignored, Ignored, rrsig]

theorem not_ignored {g : Ign} {t : Nat} : ignored g t = false ↔ ¬ Ignored g t := by
  rw [← ignored_iff, Bool.not_eq_true]

theorem wanted_def (apex : Name) (g : Ign) (P : Prop) [Decidable P] (c1 c2 : Contents) (k : Key) :
    wanted apex g P c1 c2 k =
      if ignored g k.type ∨ (k = soaKey apex ∧ P) then lookup c1 k else lookup c2 k := by
  unfold wanted
  simp only [← ignored_iff]

theorem lookup_target (apex : Name) (g : Ign) (keep : Bool) (c1 c2 : Contents) (k : Key) :
    lookup (target apex g keep c1 c2) k = wanted apex g (keep = true) c1 c2 k := by
  rw [wanted_def]
  unfold target
  rw [lookup_append, lookup_filter (fun k => ignored g k.type || (decide (k = soaKey apex) && keep)),
    lookup_filter (fun k => !(ignored g k.type || (decide (k = soaKey apex) && keep)))]
  by_cases h : ignored g k.type ∨ (k = soaKey apex ∧ keep = true)
  · have : (ignored g k.type || (decide (k = soaKey apex) && keep)) = true := by simpa using h
    simp [this, h]
  · have : (ignored g k.type || (decide (k = soaKey apex) && keep)) = false := by
      rw [← Bool.not_eq_true]; simpa using h
    simp [this, h]

theorem target_wf {apex : Name} {g : Ign} {keep : Bool} {c1 c2 : Contents} (w1 : Wf c1) (w2 : Wf c2) :
    Wf (target apex g keep c1 c2) := by
  refine ⟨?_, ?_⟩
  · unfold target
    rw [List.map_append]
    refine nodup_append' ((List.filter_sublist.map _).nodup w1.1) ((List.filter_sublist.map _).nodup w2.1) ?_
    intro k h1 h2
    simp only [List.mem_map, List.mem_filter] at h1 h2
    obtain ⟨a, ⟨_, ha⟩, rfl⟩ := h1
    obtain ⟨b, ⟨_, hb⟩, e⟩ := h2
    rw [e, ha] at hb
    simp at hb
  · intro rr hr
    rcases List.mem_append.mp hr with h | h
    · exact w1.2 rr (List.mem_filter.mp h).1
    · exact w2.2 rr (List.mem_filter.mp h).1

end Knot.Diff
