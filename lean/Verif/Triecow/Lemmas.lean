import Verif.Triecow.Model
import Verif.Trie.Lemmas4
/-! # Lemmas: trees with addresses and what is owned by whom -/
namespace Knot.Cow
open Knot.Trie (Key)

variable {V : Type}

/-- A trie with the addresses of its objects. -/
inductive AT (V : Type) where
  | leaf (k : Nat) (key : Key) (v : V)
  | branch (a i bmp : Nat) (tw : List (AT V))

/-- The address of the object of a node. -/
def AT.top : AT V → Nat
  | .leaf k _ _ => k
  | .branch a _ _ _ => a

/-- The node as it is stored. -/
def AT.node : AT V → Node V
  | .leaf k _ v => .leaf k v
  | .branch a i bmp _ => .branch i bmp a

def AT.kids : AT V → List (AT V)
  | .leaf _ _ _ => []
  | .branch _ _ _ tw => tw

mutual
/-- The trie without addresses. -/
def erase : AT V → Trie.Node V
  | .leaf _ key v => .leaf key v
  | .branch _ i bmp tw => .branch i bmp (eraseL tw)
def eraseL : List (AT V) → List (Trie.Node V)
  | [] => []
  | t :: ts => erase t :: eraseL ts
end

theorem eraseL_eq (l : List (AT V)) : eraseL l = l.map erase := by
  induction l with
  | nil => rfl
  | cons t l ih => simp [eraseL, ih]

mutual
/-- All the addresses. -/
def addrs : AT V → List Nat
  | .leaf k _ _ => [k]
  | .branch a _ _ tw => a :: addrsL tw
def addrsL : List (AT V) → List Nat
  | [] => []
  | t :: ts => addrs t ++ addrsL ts
end

theorem addrsL_eq (l : List (AT V)) : addrsL l = l.flatMap addrs := by
  induction l with
  | nil => rfl
  | cons t l ih => simp [addrsL, ih]

theorem addrs_kids (t : AT V) : addrs t = t.top :: t.kids.flatMap addrs := by
  cases t with
  | leaf => rfl
  | branch => simp [addrs, AT.top, AT.kids, addrsL_eq]

theorem top_mem (t : AT V) : t.top ∈ addrs t := by rw [addrs_kids]; simp

mutual
/-- The subtrees at which the marked part begins. -/
def fr (M : Nat → Bool) : AT V → List (AT V)
  | .leaf k key v => if M k then [.leaf k key v] else []
  | .branch a i bmp tw => if M a then [.branch a i bmp tw] else frL M tw
def frL (M : Nat → Bool) : List (AT V) → List (AT V)
  | [] => []
  | t :: ts => fr M t ++ frL M ts
end

theorem frL_eq (M : Nat → Bool) (l : List (AT V)) : frL M l = l.flatMap (fr M) := by
  induction l with
  | nil => rfl
  | cons t l ih => simp [frL, ih]

theorem fr_eq (M : Nat → Bool) (t : AT V) : fr M t = if M t.top then [t] else t.kids.flatMap (fr M) := by
  cases t with
  | leaf => simp [fr, AT.top, AT.kids]
  | branch => simp only [fr, AT.top, AT.kids, frL_eq]; rfl

mutual
/-- The addresses above the marked part. -/
def ex (M : Nat → Bool) : AT V → List Nat
  | .leaf k _ _ => if M k then [] else [k]
  | .branch a _ _ tw => if M a then [] else a :: exL M tw
def exL (M : Nat → Bool) : List (AT V) → List Nat
  | [] => []
  | t :: ts => ex M t ++ exL M ts
end

theorem exL_eq (M : Nat → Bool) (l : List (AT V)) : exL M l = l.flatMap (ex M) := by
  induction l with
  | nil => rfl
  | cons t l ih => simp [exL, ih]

theorem ex_eq (M : Nat → Bool) (t : AT V) :
    ex M t = if M t.top then [] else t.top :: t.kids.flatMap (ex M) := by
  cases t with
  | leaf => simp [ex, AT.top, AT.kids]
  | branch => simp only [ex, AT.top, AT.kids, exL_eq]; rfl

/-- Induction over the children. -/
theorem AT.ind {P : AT V → Prop} (h : ∀ t, (∀ c ∈ t.kids, P c) → P t) : ∀ t, P t
  | .leaf k key v => h _ (by simp [AT.kids])
  | .branch a i bmp tw => h _ (by
      intro c hc
      have : sizeOf c < 1 + sizeOf a + sizeOf i + sizeOf bmp + sizeOf tw := by
        have := List.sizeOf_lt_of_mem hc
        simp only [AT.kids] at this
        omega
      exact AT.ind h c)
termination_by t => sizeOf t
decreasing_by
  simp only [AT.branch.sizeOf_spec]
  omega

/-- The memory holds the tree. -/
inductive Rep (m : Mem V) : AT V → Prop
  | leaf {k : Nat} {key : Key} {v : V} {f : Bool} : m.obj k = some ⟨f, .key key⟩ → Rep m (.leaf k key v)
  | branch {a i bmp : Nat} {tw : List (AT V)} {f : Bool} : m.obj a = some ⟨f, .twigs (tw.map AT.node)⟩ →
      (∀ c ∈ tw, Rep m c) → Rep m (.branch a i bmp tw)

/-- The content of an object. -/
def Mem.body (m : Mem V) (x : Nat) : Option (Body V) := (m.obj x).map (·.body)

/-- The mark of an object. -/
def Mem.flag (m : Mem V) (x : Nat) : Bool := ((m.obj x).map (·.flag)).getD false

/-- What the object of a tree's root is. -/
def AT.body : AT V → Body V
  | .leaf _ key _ => .key key
  | .branch _ _ _ tw => .twigs (tw.map AT.node)

theorem rep_iff (m : Mem V) (t : AT V) :
    Rep m t ↔ m.body t.top = some t.body ∧ ∀ c ∈ t.kids, Rep m c := by
  constructor
  · intro h
    cases h with
    | leaf h => exact ⟨by simp [Mem.body, AT.top, AT.body, h], by simp [AT.kids]⟩
    | branch h h' => exact ⟨by simp [Mem.body, AT.top, AT.body, h], h'⟩
  · rintro ⟨h1, h2⟩
    cases t with
    | leaf k key v =>
      simp only [Mem.body, AT.top, AT.body, Option.map_eq_some_iff] at h1
      obtain ⟨o, e1, e2⟩ := h1
      cases o
      subst e2
      exact .leaf e1
    | branch a i bmp tw =>
      simp only [Mem.body, AT.top, AT.body, Option.map_eq_some_iff] at h1
      obtain ⟨o, e1, e2⟩ := h1
      cases o
      subst e2
      exact .branch e1 h2

theorem Rep.congr {m m' : Mem V} {t : AT V} (h : Rep m t) (hb : ∀ x ∈ addrs t, m'.body x = m.body x) :
    Rep m' t := by
  induction t using AT.ind with
  | h t ih =>
    rw [rep_iff] at h ⊢
    rw [addrs_kids] at hb
    refine ⟨by rw [hb _ (by simp)]; exact h.1, fun c hc => ih c hc (h.2 c hc) fun x hx => ?_⟩
    exact hb x (List.mem_cons_of_mem _ (List.mem_flatMap.2 ⟨c, hc, hx⟩))

theorem Rep.alloc {m : Mem V} {t : AT V} (h : Rep m t) : ∀ x ∈ addrs t, m.obj x ≠ none := by
  induction t using AT.ind with
  | h t ih =>
    rw [rep_iff] at h
    intro x hx
    rw [addrs_kids] at hx
    rcases List.mem_cons.1 hx with hx | hx
    · subst hx
      intro e
      have := h.1
      simp [Mem.body, e] at this
    · obtain ⟨c, hc, hx⟩ := List.mem_flatMap.1 hx
      exact ih c hc (h.2 c hc) x hx

theorem flatMap_congr' {α β : Type} {l : List α} {f g : α → List β} (h : ∀ a ∈ l, f a = g a) :
    l.flatMap f = l.flatMap g := by
  induction l with
  | nil => rfl
  | cons a l ih => simp only [List.flatMap_cons]; rw [h a (by simp), ih fun b hb => h b (by simp [hb])]

theorem fr_congr {M M' : Nat → Bool} {t : AT V} (h : ∀ x ∈ addrs t, M' x = M x) : fr M' t = fr M t := by
  induction t using AT.ind with
  | h t ih =>
    rw [addrs_kids] at h
    rw [fr_eq, fr_eq, h _ (by simp)]
    split
    · rfl
    · apply flatMap_congr'
      intro c hc
      exact ih c hc fun x hx => h x (List.mem_cons_of_mem _ (List.mem_flatMap.2 ⟨c, hc, hx⟩))

theorem ex_congr {M M' : Nat → Bool} {t : AT V} (h : ∀ x ∈ addrs t, M' x = M x) : ex M' t = ex M t := by
  induction t using AT.ind with
  | h t ih =>
    rw [addrs_kids] at h
    rw [ex_eq, ex_eq, h _ (by simp)]
    split
    · rfl
    · congr 1
      apply flatMap_congr'
      intro c hc
      exact ih c hc fun x hx => h x (List.mem_cons_of_mem _ (List.mem_flatMap.2 ⟨c, hc, hx⟩))

theorem perm_flatMap_append {α β : Type} (l : List α) (f g : α → List β) :
    List.Perm (l.flatMap fun a => f a ++ g a) (l.flatMap f ++ l.flatMap g) := by
  induction l with
  | nil => exact .refl _
  | cons a l ih =>
    simp only [List.flatMap_cons]
    refine (List.Perm.append_left _ ih).trans ?_
    simp only [List.append_assoc]
    refine List.Perm.append_left _ ?_
    rw [← List.append_assoc, ← List.append_assoc]
    exact List.Perm.append_right _ List.perm_append_comm

theorem perm_flatMap_congr {α β : Type} {l : List α} {f g : α → List β} (h : ∀ a ∈ l, List.Perm (f a) (g a)) :
    List.Perm (l.flatMap f) (l.flatMap g) := by
  induction l with
  | nil => exact .refl _
  | cons a l ih =>
    simp only [List.flatMap_cons]
    exact (h a (by simp)).append (ih fun b hb => h b (by simp [hb]))

/-- The addresses are those above the marked part and those in it. -/
theorem addrs_split (M : Nat → Bool) (t : AT V) :
    List.Perm (addrs t) (ex M t ++ (fr M t).flatMap addrs) := by
  induction t using AT.ind with
  | h t ih =>
    rw [fr_eq, ex_eq]
    split
    · simp
    · rw [addrs_kids]
      simp only [List.cons_append, List.flatMap_assoc]
      refine List.Perm.cons _ ?_
      refine List.Perm.trans ?_ (perm_flatMap_append _ _ _)
      refine perm_flatMap_congr fun c hc => ?_
      exact ih c hc

theorem fr_flag {M : Nat → Bool} {t f : AT V} (h : f ∈ fr M t) : M f.top = true := by
  induction t using AT.ind with
  | h t ih =>
    rw [fr_eq] at h
    split at h
    · simp only [List.mem_singleton] at h
      subst h
      assumption
    · obtain ⟨c, hc, h⟩ := List.mem_flatMap.1 h
      exact ih c hc h

theorem ex_flag {M : Nat → Bool} {t : AT V} {x : Nat} (h : x ∈ ex M t) : M x = false := by
  induction t using AT.ind with
  | h t ih =>
    rw [ex_eq] at h
    split at h
    · simp at h
    · rename_i hm
      rcases List.mem_cons.1 h with h | h
      · subst h; simpa using hm
      · obtain ⟨c, hc, h⟩ := List.mem_flatMap.1 h
        exact ih c hc h

theorem Rep.sub {m : Mem V} {M : Nat → Bool} {t f : AT V} (h : Rep m t) (hf : f ∈ fr M t) : Rep m f := by
  induction t using AT.ind with
  | h t ih =>
    rw [fr_eq] at hf
    split at hf
    · simp only [List.mem_singleton] at hf; subst hf; exact h
    · obtain ⟨c, hc, hf⟩ := List.mem_flatMap.1 hf
      exact ih c hc ((rep_iff _ _).1 h |>.2 c hc) hf

/-! ### Contexts -/

/-- A node of a path: its array and what is beside the path. -/
structure Frame (V : Type) where
  a : Nat
  i : Nat
  bmp : Nat
  l : List (AT V)
  r : List (AT V)

/-- The node around a tree. -/
def Frame.wrap (f : Frame V) (t : AT V) : AT V := .branch f.a f.i f.bmp (f.l ++ t :: f.r)

/-- The whole tree; the nearest parent is first. -/
def plugA (t : AT V) : List (Frame V) → AT V
  | [] => t
  | f :: C => plugA (f.wrap t) C

/-- The pointer to the hole. -/
def hole : List (Frame V) → Ptr
  | [] => .root
  | f :: _ => .slot f.a f.l.length

def frC (M : Nat → Bool) (C : List (Frame V)) : List (AT V) :=
  C.flatMap fun f => f.l.flatMap (fr M) ++ f.r.flatMap (fr M)

def exC (M : Nat → Bool) (C : List (Frame V)) : List Nat :=
  C.flatMap fun f => f.a :: (f.l.flatMap (ex M) ++ f.r.flatMap (ex M))

theorem fr_wrap {M : Nat → Bool} {f : Frame V} (t : AT V) (h : M f.a = false) :
    List.Perm (fr M (f.wrap t)) ((f.l.flatMap (fr M) ++ f.r.flatMap (fr M)) ++ fr M t) := by
  rw [fr_eq]
  simp only [Frame.wrap, AT.top, h, AT.kids, Bool.false_eq_true, if_false, List.flatMap_append, List.flatMap_cons,
    List.append_assoc]
  exact List.Perm.append_left _ List.perm_append_comm

theorem ex_wrap {M : Nat → Bool} {f : Frame V} (t : AT V) (h : M f.a = false) :
    List.Perm (ex M (f.wrap t)) ((f.a :: (f.l.flatMap (ex M) ++ f.r.flatMap (ex M))) ++ ex M t) := by
  rw [ex_eq]
  simp only [Frame.wrap, AT.top, h, AT.kids, Bool.false_eq_true, if_false, List.flatMap_append, List.flatMap_cons,
    List.append_assoc, List.cons_append]
  exact List.Perm.cons _ (List.Perm.append_left _ List.perm_append_comm)

theorem fr_plug {M : Nat → Bool} {C : List (Frame V)} (t : AT V) (h : ∀ f ∈ C, M f.a = false) :
    List.Perm (fr M (plugA t C)) (frC M C ++ fr M t) := by
  induction C generalizing t with
  | nil => simp [plugA, frC]
  | cons f C ih =>
    refine (ih (f.wrap t) fun g hg => h g (by simp [hg])).trans ?_
    simp only [frC, List.flatMap_cons]
    refine (List.Perm.append_left _ (fr_wrap t (h f (by simp)))).trans ?_
    rw [← List.append_assoc]
    exact List.Perm.append_right _ List.perm_append_comm

theorem ex_plug {M : Nat → Bool} {C : List (Frame V)} (t : AT V) (h : ∀ f ∈ C, M f.a = false) :
    List.Perm (ex M (plugA t C)) (exC M C ++ ex M t) := by
  induction C generalizing t with
  | nil => simp [plugA, exC]
  | cons f C ih =>
    refine (ih (f.wrap t) fun g hg => h g (by simp [hg])).trans ?_
    simp only [exC, List.flatMap_cons]
    refine (List.Perm.append_left _ (ex_wrap t (h f (by simp)))).trans ?_
    rw [← List.append_assoc]
    exact List.Perm.append_right _ List.perm_append_comm

theorem rep_wrap {m : Mem V} {f : Frame V} {t : AT V} : Rep m (f.wrap t) ↔
    m.body f.a = some (.twigs ((f.l ++ t :: f.r).map AT.node)) ∧ (∀ c ∈ f.l, Rep m c) ∧ (∀ c ∈ f.r, Rep m c) ∧ Rep m t := by
  rw [rep_iff]
  simp only [Frame.wrap, AT.top, AT.body, AT.kids]
  constructor
  · rintro ⟨h1, h2⟩
    exact ⟨h1, fun c hc => h2 c (by simp [hc]), fun c hc => h2 c (by simp [hc]), h2 t (by simp)⟩
  · rintro ⟨h1, h2, h3, h4⟩
    refine ⟨h1, fun c hc => ?_⟩
    rcases List.mem_append.1 hc with hc | hc
    · exact h2 c hc
    · rcases List.mem_cons.1 hc with hc | hc
      · subst hc; exact h4
      · exact h3 c hc

/-- The memory holds the path; `n` is the node in the hole. -/
def RepC (m : Mem V) : List (Frame V) → Node V → Prop
  | [], _ => True
  | f :: C, n => m.body f.a = some (.twigs (f.l.map AT.node ++ n :: f.r.map AT.node)) ∧
      (∀ c ∈ f.l, Rep m c) ∧ (∀ c ∈ f.r, Rep m c) ∧ RepC m C (.branch f.i f.bmp f.a)

theorem rep_plug {m : Mem V} {C : List (Frame V)} {t : AT V} :
    Rep m (plugA t C) ↔ RepC m C t.node ∧ Rep m t := by
  induction C generalizing t with
  | nil => simp [plugA, RepC]
  | cons f C ih =>
    rw [plugA, ih, rep_wrap]
    simp only [RepC, List.map_append, List.map_cons]
    constructor
    · rintro ⟨h1, h2, h3, h4, h5⟩; exact ⟨⟨h2, h3, h4, h1⟩, h5⟩
    · rintro ⟨⟨h2, h3, h4, h1⟩, h5⟩; exact ⟨h1, h2, h3, h4, h5⟩

/-- The root node of a tree with a hole. -/
def rootOf (n : Node V) : List (Frame V) → Node V
  | [] => n
  | f :: C => rootOf (.branch f.i f.bmp f.a) C

theorem node_plug (t : AT V) (C : List (Frame V)) : (plugA t C).node = rootOf t.node C := by
  induction C generalizing t with
  | nil => rfl
  | cons f C ih => rw [plugA, ih, rootOf]; rfl

end Knot.Cow
