import Verif.Diff.Spec
import Verif.Changeset.Lemmas5
/-!
# Lemmas: the difference, key by key
-/
namespace Knot.Diff
open Knot.Dname (Name)
open Knot.Changeset

/-! ## Single operations -/

/-- A removal and then an addition to a changeset. -/
def emitR (ch : Ch) (k : Key) : Option RRs → Ch
  | none => ch
  | some x => addRemoval ch (k, x) false

def emitA (ch : Ch) (k : Key) : Option RRs → Ch
  | none => ch
  | some x => addAddition ch (k, x) false

def emit (ch : Ch) (k : Key) (r a : Option RRs) : Ch := emitA (emitR ch k r) k a

theorem addAddition_false {apex : Name} {ch : Ch} (w : ch.Wf apex) {rr : RRset} (ht : rr.1.type ≠ soa)
    (hk : KeyOk rr.1) (hg : Good rr.2) (hn : lookup ch.add rr.1 = none) :
    (∀ k, lookup (addAddition ch rr false).add k = if k = rr.1 then some rr.2 else lookup ch.add k) ∧
    (addAddition ch rr false).rem = ch.rem ∧ (addAddition ch rr false).soaTo = ch.soaTo ∧
    (addAddition ch rr false).soaFrom = ch.soaFrom ∧ (addAddition ch rr false).Wf apex := by
  have e : addAddition ch rr false = { ch with add := insertRR ch.add rr } := by
    simp only [addAddition, if_neg ht, Bool.false_eq_true, if_false, if_neg hg.1]
  rw [e]
  refine ⟨fun k => ?_, rfl, rfl, rfl, ?_⟩
  · show lookup (zAdd ch.add rr) k = _
    rw [lookup_zAdd w.1]
    split
    · rename_i h; rw [h, hn]; rfl
    · rfl
  · refine ⟨w.1.zAdd hk hg, w.2.1, ?_, w.2.2.2.1, w.2.2.2.2.1, w.2.2.2.2.2⟩
    rw [notSoa_keys]
    intro k h
    rcases put_keys h with h | h
    · rw [h]; exact ht
    · exact notSoa_keys.mp w.2.2.1 k h

theorem addRemoval_false {apex : Name} {ch : Ch} (w : ch.Wf apex) {rr : RRset} (ht : rr.1.type ≠ soa)
    (hk : KeyOk rr.1) (hg : Good rr.2) (hn : lookup ch.rem rr.1 = none) :
    (∀ k, lookup (addRemoval ch rr false).rem k = if k = rr.1 then some rr.2 else lookup ch.rem k) ∧
    (addRemoval ch rr false).add = ch.add ∧ (addRemoval ch rr false).soaTo = ch.soaTo ∧
    (addRemoval ch rr false).soaFrom = ch.soaFrom ∧ (addRemoval ch rr false).Wf apex := by
  have e : addRemoval ch rr false = (addAddition ch.swap rr false).swap := by
    rw [addAddition_swap]; rfl
  obtain ⟨h1, h2, h3, h4, h5⟩ := addAddition_false w.swap ht hk hg hn
  rw [e]
  exact ⟨h1, h2, h4, h3, h5.swap⟩

/-- The changeset `ch'` is `ch` with the removals `r` and the additions `a`. -/
structure Ext (apex : Name) (ch ch' : Ch) (r a : Key → Option RRs) : Prop where
  rem : ∀ k, lookup ch'.rem k = (r k).or (lookup ch.rem k)
  add : ∀ k, lookup ch'.add k = (a k).or (lookup ch.add k)
  to : ch'.soaTo = ch.soaTo
  fr : ch'.soaFrom = ch.soaFrom
  wf : ch'.Wf apex

theorem Ext.refl {apex : Name} {ch : Ch} (w : ch.Wf apex) : Ext apex ch ch (fun _ => none) (fun _ => none) :=
  ⟨fun _ => rfl, fun _ => rfl, rfl, rfl, w⟩

theorem Ext.trans {apex : Name} {c1 c2 c3 : Ch} {r1 a1 r2 a2 : Key → Option RRs}
    (h : Ext apex c1 c2 r1 a1) (h' : Ext apex c2 c3 r2 a2) :
    Ext apex c1 c3 (fun k => (r2 k).or (r1 k)) (fun k => (a2 k).or (a1 k)) :=
  ⟨fun k => by rw [h'.rem, h.rem, Option.or_assoc], fun k => by rw [h'.add, h.add, Option.or_assoc],
   h'.to.trans h.to, h'.fr.trans h.fr, h'.wf⟩

theorem Ext.congr {apex : Name} {ch ch' : Ch} {r a r' a' : Key → Option RRs} (h : Ext apex ch ch' r a)
    (hr : ∀ k, r k = r' k) (ha : ∀ k, a k = a' k) : Ext apex ch ch' r' a' :=
  ⟨fun k => by rw [h.rem, hr], fun k => by rw [h.add, ha], h.to, h.fr, h.wf⟩

/-- A change that is acceptable as such. -/
def OkO (k : Key) (o : Option RRs) : Prop := ∀ x, o = some x → k.type ≠ soa ∧ KeyOk k ∧ Good x

theorem emit_ext {apex : Name} {ch : Ch} (w : ch.Wf apex) {k : Key} {r a : Option RRs}
    (hr : OkO k r) (ha : OkO k a) (nr : r.isSome → lookup ch.rem k = none)
    (na : a.isSome → lookup ch.add k = none) :
    Ext apex ch (emit ch k r a) (fun j => if j = k then r else none) (fun j => if j = k then a else none) := by
  have x1 : Ext apex ch (emitR ch k r) (fun j => if j = k then r else none) (fun _ => none) := by
    cases r with
    | none => exact (Ext.refl w).congr (by simp) (by simp)
    | some x =>
      obtain ⟨t, ko, g⟩ := hr x rfl
      obtain ⟨h1, h2, h3, h4, h5⟩ := addRemoval_false w (rr := (k, x)) t ko g (nr rfl)
      refine ⟨fun j => ?_, fun j => by rw [emitR, h2]; rfl, h3, h4, h5⟩
      rw [emitR, h1]
      by_cases e : j = k <;> simp [e]
  have s2 : Ext apex (emitR ch k r) (emit ch k r a) (fun _ => none) (fun j => if j = k then a else none) := by
    unfold emit
    cases a with
    | none => exact (Ext.refl x1.wf).congr (by simp) (by simp)
    | some x =>
      obtain ⟨t, ko, g⟩ := ha x rfl
      obtain ⟨h1, h2, h3, h4, h5⟩ := addAddition_false x1.wf (rr := (k, x)) t ko g
        (by simp only; rw [x1.add]; simpa using na rfl)
      refine ⟨fun j => by rw [emitA, h2]; rfl, fun j => ?_, h3, h4, h5⟩
      rw [emitA, h1]
      by_cases e : j = k <;> simp [e]
  exact (x1.trans s2).congr (by simp) (by simp)

/-! ## Loops over a node -/

/-- A loop over the RRsets of a node. -/
def loop (f : Bool) (o : Name) (R A : Nat → RRs → Option RRs) (l : List (Nat × RRs)) (ch : Ch) : Ch :=
  l.foldl (fun ch r => emit ch ⟨f, o, r.1⟩ (R r.1 r.2) (A r.1 r.2)) ch

/-- What the loop contributes to a key. -/
def pick (f : Bool) (o : Name) (R : Nat → RRs → Option RRs) (l : List (Nat × RRs)) (k : Key) : Option RRs :=
  if k.nsec3 = f ∧ k.owner = o then (rrsetOf l k.type).bind (R k.type) else none

theorem rrsetOf_mem {l : List (Nat × RRs)} {t : Nat} {r : RRs} (h : rrsetOf l t = some r) : (t, r) ∈ l := by
  fun_induction rrsetOf l t <;> simp_all

theorem rrsetOf_none {l : List (Nat × RRs)} {t : Nat} (h : t ∉ l.map (·.1)) : rrsetOf l t = none := by
  fun_induction rrsetOf l t <;> simp_all

theorem rrsetOf_of_mem {l : List (Nat × RRs)} {t : Nat} {r : RRs} (hn : (l.map (·.1)).Nodup)
    (h : (t, r) ∈ l) : rrsetOf l t = some r := by
  fun_induction rrsetOf l t with
  | case1 => simp at h
  | case2 t' r' l' =>
    simp only [List.map_cons, List.nodup_cons] at hn
    rcases List.mem_cons.mp h with e | e
    · simp_all
    · exact absurd (List.mem_map.mpr ⟨_, e, rfl⟩) hn.1
  | case3 t' r' l' t hne ih =>
    simp only [List.map_cons, List.nodup_cons] at hn
    rcases List.mem_cons.mp h with e | e
    · simp_all
    · exact ih hn.2 e

theorem loop_ext {apex : Name} {f : Bool} {o : Name} {R A : Nat → RRs → Option RRs}
    {l : List (Nat × RRs)} {ch : Ch} (w : ch.Wf apex) (hn : (l.map (·.1)).Nodup)
    (hr : ∀ r ∈ l, OkO ⟨f, o, r.1⟩ (R r.1 r.2)) (ha : ∀ r ∈ l, OkO ⟨f, o, r.1⟩ (A r.1 r.2))
    (nr : ∀ r ∈ l, (R r.1 r.2).isSome → lookup ch.rem ⟨f, o, r.1⟩ = none)
    (na : ∀ r ∈ l, (A r.1 r.2).isSome → lookup ch.add ⟨f, o, r.1⟩ = none) :
    Ext apex ch (loop f o R A l ch) (pick f o R l) (pick f o A l) := by
  induction l generalizing ch with
  | nil => exact (Ext.refl w).congr (by simp [pick, rrsetOf]) (by simp [pick, rrsetOf])
  | cons r t ih =>
    simp only [List.map_cons, List.nodup_cons] at hn
    have x1 := emit_ext w (k := ⟨f, o, r.1⟩) (hr r (by simp)) (ha r (by simp)) (nr r (by simp)) (na r (by simp))
    have ne : ∀ s ∈ t, (⟨f, o, s.1⟩ : Key) ≠ ⟨f, o, r.1⟩ := by
      intro s hs he
      have : s.1 = r.1 := congrArg Key.type he
      exact hn.1 (this ▸ List.mem_map.mpr ⟨s, hs, rfl⟩)
    have x2 := ih x1.wf hn.2 (fun s hs => hr s (by simp [hs])) (fun s hs => ha s (by simp [hs]))
      (fun s hs h => by
        rw [x1.rem]; simp only [if_neg (ne s hs), Option.none_or]; exact nr s (by simp [hs]) h)
      (fun s hs h => by
        rw [x1.add]; simp only [if_neg (ne s hs), Option.none_or]; exact na s (by simp [hs]) h)
    have key : ∀ (F : Nat → RRs → Option RRs) (k : Key),
        (pick f o F t k).or (if k = ⟨f, o, r.1⟩ then F r.1 r.2 else none) = pick f o F (r :: t) k := by
      intro F k
      obtain ⟨b, n, ty⟩ := k
      obtain ⟨rt, rr⟩ := r
      unfold pick
      simp only [Key.mk.injEq]
      by_cases h1 : b = f ∧ n = o
      · obtain ⟨rfl, rfl⟩ := h1
        by_cases h2 : ty = rt
        · subst h2
          simp [rrsetOf, rrsetOf_none hn.1]
        · simp [rrsetOf, h2, Ne.symm h2]
      · rw [if_neg h1, if_neg h1, if_neg (by grind)]
        rfl
    exact (x1.trans x2).congr (key R) (key A)

/-! ## Nodes -/

/-- The change of one RRset. -/
def chg (type : Nat) (a b : RRs) : Option RRs :=
  if (returnChanges type a b).data = [] then none else some (returnChanges type a b)

theorem foldl_insert {p : Bytes → Bool} {l acc : List Bytes} :
    l.foldl (fun acc x => if p x then insertRd x acc else acc) acc = merge acc (l.filter p) := by
  induction l generalizing acc with
  | nil => rfl
  | cons x t ih =>
    rw [List.foldl_cons, ih]
    by_cases h : p x <;> simp [h, merge]

theorem mem_changes {type : Nat} {a b : RRs} {x : Bytes} :
    x ∈ (returnChanges type a b).data ↔
      x ∈ a.data ∧ ((a.ttl ≠ b.ttl ∧ type ≠ rrsig) ∨ x ∉ b.data) := by
  unfold returnChanges
  simp only [foldl_insert, mem_merge]
  simp

theorem canon_changes {type : Nat} {a b : RRs} : Rdataset.Canon (returnChanges type a b).data := by
  unfold returnChanges
  simp only [foldl_insert]
  exact canon_merge (by simp [Rdataset.Canon])

/-- The removals between two versions of an RRset; swapped, the additions. -/
def rmv (g : Ign) (type : Nat) (a b : Option RRs) : Option RRs :=
  if type = soa ∨ ignored g type then none
  else
    match a, b with
    | none, _ => none
    | some x, none => some x
    | some x, some y => chg type x y

/-- An RRset that the first node does not have. -/
def fresh (g : Ign) (t : Nat) (o : Option RRs) (r : RRs) : Option RRs :=
  match o with
  | none => rmv g t (some r) none
  | some _ => none

/-- A node fits. -/
def NodeOk (apex : Name) (f : Bool) (n : Node) : Prop :=
  (n.rrsets.map (·.1)).Nodup ∧
    ∀ r ∈ n.rrsets, KeyOk ⟨f, n.owner, r.1⟩ ∧ Good r.2 ∧ (r.1 = soa → n.owner = apex)

/-- Contribution of a node pair. -/
def contrib (g : Ign) (f : Bool) (o : Name) (la lb : List (Nat × RRs)) (k : Key) : Option RRs :=
  if k.nsec3 = f ∧ k.owner = o then rmv g k.type (rrsetOf la k.type) (rrsetOf lb k.type) else none

theorem okO_chg {apex : Name} {f : Bool} {n : Node} (h : NodeOk apex f n) {r : Nat × RRs} (hr : r ∈ n.rrsets)
    (hs : r.1 ≠ soa) (b : RRs) : OkO ⟨f, n.owner, r.1⟩ (chg r.1 r.2 b) := by
  intro x hx
  unfold chg at hx
  split at hx
  · simp at hx
  · rename_i hne
    simp only [Option.some.injEq] at hx
    subst hx
    exact ⟨hs, (h.2 r hr).1, hne, canon_changes⟩

/-- The loop of add_node() and remove_node(), if no SOA is there. -/
theorem add_ext {apex : Name} {g : Ign} {f : Bool} {n : Node} {ch : Ch} (w : ch.Wf apex)
    (h : NodeOk apex f n) (ns : rrsetOf n.rrsets soa = none)
    (na : ∀ t, lookup ch.add ⟨f, n.owner, t⟩ = none) :
    Ext apex ch (addNode g f n ch) (fun _ => none) (contrib g f n.owner n.rrsets []) := by
  have e : addNode g f n ch = loop f n.owner (fun _ _ => none)
      (fun t r => if ignored g t then none else some r) n.rrsets ch := by
    unfold addNode loop
    congr 1
    funext c r
    by_cases hi : ignored g r.1 <;> simp [emit, emitR, emitA, hi]
  rw [e]
  have hs : ∀ r ∈ n.rrsets, r.1 ≠ soa := by
    intro r hr hs
    rw [rrsetOf_of_mem (r := r.2) h.1 (by rw [← hs]; exact hr)] at ns
    simp at ns
  refine (loop_ext w h.1 (by simp [OkO]) ?_ (by simp) (fun r _ _ => na r.1)).congr ?_ ?_
  · intro r hr x hx
    split at hx
    · simp at hx
    · simp only [Option.some.injEq] at hx
      subst hx
      exact ⟨hs r hr, (h.2 r hr).1, (h.2 r hr).2.1⟩
  · intro k; unfold pick; split <;> simp
  · intro k
    unfold pick contrib
    split
    · unfold rmv
      cases hl : rrsetOf n.rrsets k.type with
      | none => simp
      | some r =>
        have := hs _ (rrsetOf_mem hl)
        by_cases hi : ignored g k.type <;> simp [hi, this, rrsetOf] <;> exact this
    · rfl

theorem Ext.swap {apex : Name} {ch ch' : Ch} {r a : Key → Option RRs} (h : Ext apex ch ch' r a) :
    Ext apex ch.swap ch'.swap a r := ⟨h.add, h.rem, h.fr, h.to, h.wf.swap⟩

theorem rem_ext {apex : Name} {g : Ign} {f : Bool} {n : Node} {ch : Ch} (w : ch.Wf apex)
    (h : NodeOk apex f n) (ns : rrsetOf n.rrsets soa = none)
    (na : ∀ t, lookup ch.rem ⟨f, n.owner, t⟩ = none) :
    Ext apex ch (removeNode g f n ch) (contrib g f n.owner n.rrsets []) (fun _ => none) := by
  have e : ∀ (l : List (Nat × RRs)) (c : Ch), l.foldl (fun ch r =>
      if ignored g r.1 then ch else addRemoval ch (⟨f, n.owner, r.1⟩, r.2) false) c =
      (l.foldl (fun ch r =>
        if ignored g r.1 then ch else addAddition ch (⟨f, n.owner, r.1⟩, r.2) false) c.swap).swap := by
    intro l
    induction l with
    | nil => intro c; rfl
    | cons r t ih =>
      intro c
      rw [List.foldl_cons, List.foldl_cons, ih]
      congr 2
      by_cases hi : ignored g r.1
      · simp [hi]
      · simp only [hi, Bool.false_eq_true, if_false]
        rw [addAddition_swap]; rfl
  have := (add_ext (g := g) w.swap h ns na).swap
  unfold removeNode
  rw [e]
  exact this

theorem diffNode_ext {apex : Name} {g : Ign} {f : Bool} {n : Node} {t2 : Tree} {ch : Ch} (w : ch.Wf apex)
    (h : NodeOk apex f n) (h2 : ∀ m ∈ t2, NodeOk apex f m)
    (ns : n.owner ≠ apex ∨ f = true → rrsetOf n.rrsets soa = none)
    (s1 : n.owner = apex → f = false → ∃ m, getNode t2 apex = some m ∧ n.rrsets ≠ [])
    (hm : ∀ m, getNode t2 n.owner = some m → m.owner = n.owner ∧ m ∈ t2)
    (nr : ∀ t, lookup ch.rem ⟨f, n.owner, t⟩ = none) (na : ∀ t, lookup ch.add ⟨f, n.owner, t⟩ = none) :
    Ext apex ch (diffNode g f t2 ch n)
      (contrib g f n.owner n.rrsets (((getNode t2 n.owner).map (·.rrsets)).getD []))
      (match getNode t2 n.owner with
        | none => fun _ => none
        | some m => contrib g f n.owner m.rrsets n.rrsets) := by
  unfold diffNode
  cases hg : getNode t2 n.owner with
  | none =>
    refine rem_ext w h (ns ?_) nr
    by_cases ha : n.owner = apex
    · cases f with
      | true => exact .inr rfl
      | false =>
        obtain ⟨m, e, _⟩ := s1 ha rfl
        rw [ha, e] at hg; simp at hg
    · exact .inl ha
  | some m =>
    obtain ⟨mo, mm⟩ := hm m hg
    have h2 := h2 m mm
    simp only [Option.map_some, Option.getD_some]
    split
    · rename_i he
      have hne : n.owner ≠ apex ∨ f = true := by
        by_cases ha : n.owner = apex
        · cases f with
          | true => exact .inr rfl
          | false =>
            obtain ⟨_, _, e⟩ := s1 ha rfl
            exact absurd he e
        · exact .inl ha
      have hs2 : rrsetOf m.rrsets soa = none := by
        cases hl : rrsetOf m.rrsets soa with
        | none => rfl
        | some r =>
          have := (h2.2 _ (rrsetOf_mem hl))
          rcases hne with e | e
          · exact absurd (this.2.2 rfl) (by rw [mo]; exact e)
          · have := this.1.1 e
            simp [soa, rrsig] at this
      refine (add_ext w h2 hs2 (by rw [mo]; exact na)).congr ?_ ?_
      · intro k; unfold contrib rmv; rw [he]; simp [rrsetOf]
      · intro k; rw [he, mo]
    · have e1 : ∀ c, n.rrsets.foldl (diffFirst g f n m) c =
          loop f n.owner (fun t r => rmv g t (some r) (rrsetOf m.rrsets t))
            (fun t r => (rrsetOf m.rrsets t).bind (fun r2 => rmv g t (some r2) (some r))) n.rrsets c := by
        intro c
        unfold loop
        congr 1
        funext c r
        unfold emit emitA emitR rmv diffFirst
        by_cases hs : r.1 = soa
        · simp [hs]
        · by_cases hi : ignored g r.1
          · simp [hs, hi]
          · simp only [hs, hi, Bool.false_eq_true, or_self, if_false]
            cases hl : rrsetOf m.rrsets r.1 with
            | none => rfl
            | some r2 =>
              simp only [diffRrsets, chg, Option.bind_some]
              by_cases d1 : (returnChanges r.1 r.2 r2).data = [] <;>
              by_cases d2 : (returnChanges r.1 r2 r.2).data = [] <;> simp [d1, d2]
      have e2 : ∀ c, m.rrsets.foldl (diffSecond g f n) c =
          loop f n.owner (fun _ _ => none)
            (fun t r => fresh g t (rrsetOf n.rrsets t) r) m.rrsets c := by
        intro c
        unfold loop
        congr 1
        funext c r
        unfold emit emitA emitR fresh rmv diffSecond
        by_cases hs : r.1 = soa
        · simp only [hs, true_or, if_true]; cases rrsetOf n.rrsets soa <;> rfl
        · by_cases hi : ignored g r.1
          · simp only [hs, hi, or_true, if_true, if_false]; cases rrsetOf n.rrsets r.1 <;> rfl
          · simp only [hs, hi, Bool.false_eq_true, or_self, if_false]
            cases hl : rrsetOf n.rrsets r.1 <;> rfl
      rw [e1, e2]
      have x1 := loop_ext (apex := apex) (f := f) (o := n.owner) (l := n.rrsets)
        (R := fun t r => rmv g t (some r) (rrsetOf m.rrsets t))
        (A := fun t r => (rrsetOf m.rrsets t).bind (fun r2 => rmv g t (some r2) (some r))) w h.1
        (by
          intro r hr x hx
          unfold rmv at hx
          split at hx
          · simp at hx
          · rename_i hc
            have hs : r.1 ≠ soa := fun e => hc (.inl e)
            cases hl : rrsetOf m.rrsets r.1 with
            | none =>
              rw [hl] at hx
              simp only [Option.some.injEq] at hx
              subst hx
              exact ⟨hs, (h.2 r hr).1, (h.2 r hr).2.1⟩
            | some r2 =>
              rw [hl] at hx
              exact okO_chg h hr hs r2 x hx)
        (by
          intro r hr x hx
          cases hl : rrsetOf m.rrsets r.1 with
          | none => rw [hl] at hx; simp at hx
          | some r2 =>
            rw [hl, Option.bind_some] at hx
            unfold rmv at hx
            split at hx
            · simp at hx
            · rename_i hc
              have := okO_chg h2 (rrsetOf_mem hl) (fun e => hc (.inl e)) r.2 x hx
              rw [mo] at this
              exact this)
        (fun r _ _ => nr _) (fun r _ _ => na _)
      have x2 := loop_ext (apex := apex) (f := f) (o := n.owner) (l := m.rrsets)
        (R := fun _ _ => none)
        (A := fun t r => fresh g t (rrsetOf n.rrsets t) r) x1.wf h2.1 (by simp [OkO])
        (by
          intro r hr x hx
          unfold fresh at hx
          split at hx
          · unfold rmv at hx
            split at hx
            · simp at hx
            · rename_i hc
              simp only [Option.some.injEq] at hx
              subst hx
              have := h2.2 r hr
              rw [mo] at this
              exact ⟨fun e => hc (.inl e), this.1, this.2.1⟩
          · simp at hx) (by simp)
        (by
          intro r hr hx
          rw [x1.add, na]
          cases hl : rrsetOf n.rrsets r.1 with
          | none => simp [pick, hl]
          | some _ => rw [hl] at hx; simp [fresh] at hx)
      refine (x1.trans x2).congr ?_ ?_
      · intro k
        unfold pick contrib
        by_cases hk : k.nsec3 = f ∧ k.owner = n.owner
        · simp only [if_pos hk]
          cases rrsetOf n.rrsets k.type with
          | none => cases rrsetOf m.rrsets k.type <;> simp [rmv]
          | some r => cases rrsetOf m.rrsets k.type <;> simp
        · simp [hk]
      · intro k
        unfold pick contrib
        by_cases hk : k.nsec3 = f ∧ k.owner = n.owner
        · simp only [if_pos hk]
          cases rrsetOf n.rrsets k.type with
          | none => cases rrsetOf m.rrsets k.type <;> simp [rmv, fresh]
          | some r => cases rrsetOf m.rrsets k.type <;> simp [rmv, fresh]
        · simp [hk]

end Knot.Diff
