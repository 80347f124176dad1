import Verif.Triecow.Lemmas
/-! # Lemmas: the invariant of a transaction -/
namespace Knot.Cow
open Knot.Trie (Key)

variable {V : Type}

/-! ### Contexts -/

def addrsC (C : List (Frame V)) : List Nat :=
  C.flatMap fun f => f.a :: (f.l.flatMap addrs ++ f.r.flatMap addrs)

theorem addrs_wrap (f : Frame V) (t : AT V) :
    List.Perm (addrs (f.wrap t)) ((f.a :: (f.l.flatMap addrs ++ f.r.flatMap addrs)) ++ addrs t) := by
  rw [addrs_kids]
  simp only [Frame.wrap, AT.top, AT.kids, List.flatMap_append, List.flatMap_cons, List.append_assoc, List.cons_append]
  exact List.Perm.cons _ (List.Perm.append_left _ List.perm_append_comm)

theorem addrs_plug (t : AT V) (C : List (Frame V)) : List.Perm (addrs (plugA t C)) (addrsC C ++ addrs t) := by
  induction C generalizing t with
  | nil => simp [plugA, addrsC]
  | cons f C ih =>
    refine (ih (f.wrap t)).trans ?_
    simp only [addrsC, List.flatMap_cons]
    refine (List.Perm.append_left _ (addrs_wrap f t)).trans ?_
    rw [← List.append_assoc]
    exact List.Perm.append_right _ List.perm_append_comm

theorem mem_addrsC {C : List (Frame V)} {y : Nat} : y ∈ addrsC C ↔
    ∃ f ∈ C, y = f.a ∨ (∃ c ∈ f.l, y ∈ addrs c) ∨ ∃ c ∈ f.r, y ∈ addrs c := by
  simp only [addrsC, List.mem_flatMap, List.mem_cons, List.mem_append]

theorem frame_mem {C : List (Frame V)} {f : Frame V} (h : f ∈ C) : f.a ∈ addrsC C :=
  mem_addrsC.2 ⟨f, h, .inl rfl⟩

theorem frC_congr {M M' : Nat → Bool} {C : List (Frame V)} (h : ∀ y ∈ addrsC C, M' y = M y) : frC M' C = frC M C := by
  unfold frC
  apply flatMap_congr'
  intro f hf
  congr 1
  · exact flatMap_congr' fun c hc => fr_congr fun y hy => h y (mem_addrsC.2 ⟨f, hf, .inr (.inl ⟨c, hc, hy⟩)⟩)
  · exact flatMap_congr' fun c hc => fr_congr fun y hy => h y (mem_addrsC.2 ⟨f, hf, .inr (.inr ⟨c, hc, hy⟩)⟩)

theorem exC_congr {M M' : Nat → Bool} {C : List (Frame V)} (h : ∀ y ∈ addrsC C, M' y = M y) : exC M' C = exC M C := by
  unfold exC
  apply flatMap_congr'
  intro f hf
  congr 2
  · exact flatMap_congr' fun c hc => ex_congr fun y hy => h y (mem_addrsC.2 ⟨f, hf, .inr (.inl ⟨c, hc, hy⟩)⟩)
  · exact flatMap_congr' fun c hc => ex_congr fun y hy => h y (mem_addrsC.2 ⟨f, hf, .inr (.inr ⟨c, hc, hy⟩)⟩)

theorem ex_sub {M : Nat → Bool} {t : AT V} {y : Nat} (h : y ∈ ex M t) : y ∈ addrs t :=
  (addrs_split M t).mem_iff.2 (by simp [h])

theorem fr_sub {M : Nat → Bool} {t f : AT V} {y : Nat} (h : f ∈ fr M t) (hy : y ∈ addrs f) : y ∈ addrs t :=
  (addrs_split M t).mem_iff.2 (List.mem_append.2 (.inr (List.mem_flatMap.2 ⟨f, h, hy⟩)))

/-- Where the marked part begins there is a path without marks. -/
theorem fr_ctx {M : Nat → Bool} {T f : AT V} (h : f ∈ fr M T) :
    ∃ C, T = plugA f C ∧ ∀ g ∈ C, M g.a = false := by
  have key : ∀ (T : AT V), f ∈ fr M T → ∀ C, (∀ g ∈ C, M g.a = false) →
      ∃ C', plugA T C = plugA f C' ∧ ∀ g ∈ C', M g.a = false := by
    intro T
    induction T using AT.ind with
    | h T ih =>
      intro h C hC
      rw [fr_eq] at h
      split at h
      · simp only [List.mem_singleton] at h
        subst h
        exact ⟨C, rfl, hC⟩
      · rename_i hm
        obtain ⟨c, hc, h2⟩ := List.mem_flatMap.1 h
        cases T with
        | leaf => simp [AT.kids] at hc
        | branch a i bmp tw =>
          simp only [AT.kids] at hc
          obtain ⟨l, r, e⟩ := List.append_of_mem hc
          have := ih c hc h2 (⟨a, i, bmp, l, r⟩ :: C) (by
            intro g hg
            rcases List.mem_cons.1 hg with hg | hg
            · subst hg; simpa [AT.top] using hm
            · exact hC g hg)
          simp only [plugA, Frame.wrap] at this
          rw [e]
          exact this
  exact key T h [] (by simp)

/-! ### Optional trees: the empty trie has none -/

def addrsO : Option (AT V) → List Nat
  | none => []
  | some T => addrs T

def frO (M : Nat → Bool) : Option (AT V) → List (AT V)
  | none => []
  | some T => fr M T

def exO (M : Nat → Bool) : Option (AT V) → List Nat
  | none => []
  | some T => ex M T

theorem addrsO_split (M : Nat → Bool) (T : Option (AT V)) :
    List.Perm (addrsO T) (exO M T ++ (frO M T).flatMap addrs) := by
  cases T with
  | none => simp [addrsO, exO, frO]
  | some T => exact addrs_split M T

/-- The memory holds the trie. -/
def Holds (m : Mem V) (tb : Trie V) : Option (AT V) → Prop
  | none => tb.weight = 0
  | some T => tb.root = T.node ∧ tb.weight = (Trie.toList (erase T)).length ∧ Trie.WF (erase T) ∧ Rep m T

/-- The addresses in use by two tries: those of the old one only, those of the new one only, the shared ones. -/
def owned (M : Nat → Bool) (To Tn : Option (AT V)) : List Nat :=
  exO M To ++ exO M Tn ++ (frO M To).flatMap addrs

/-- The invariant of a transaction. -/
structure Inv (s : St V) (To Tn : Option (AT V)) : Prop where
  old : Holds s.mem s.old To
  new : Holds s.mem s.new Tn
  share : List.Perm (frO s.mem.flag To) (frO s.mem.flag Tn)
  nodup : (owned s.mem.flag To Tn).Nodup
  clean : ∀ f ∈ frO s.mem.flag To, ∀ c ∈ f.kids, ∀ y ∈ addrs c, s.mem.flag y = false
  dom : ∀ y, s.mem.obj y ≠ none ↔ y ∈ owned s.mem.flag To Tn
  fresh : ∀ y, s.mem.obj y ≠ none → y < s.mem.next
  log : ∀ y ∈ s.mem.log, y ∉ addrsO To

theorem Inv.nodupOld {s : St V} {To Tn : Option (AT V)} (h : Inv s To Tn) : (addrsO To).Nodup := by
  rw [(addrsO_split s.mem.flag To).nodup_iff]
  refine List.Sublist.nodup ?_ h.nodup
  unfold owned
  rw [List.append_assoc]
  exact List.Sublist.append (List.Sublist.refl _) (List.sublist_append_right _ _)

theorem Inv.nodupNew {s : St V} {To Tn : Option (AT V)} (h : Inv s To Tn) : (addrsO Tn).Nodup := by
  rw [(addrsO_split s.mem.flag Tn).nodup_iff, ((h.share.flatMap_right addrs).append_left _).symm.nodup_iff]
  refine List.Sublist.nodup ?_ h.nodup
  unfold owned
  rw [List.append_assoc]
  exact List.sublist_append_right _ _

theorem Inv.ownedNew {s : St V} {To Tn : Option (AT V)} (h : Inv s To Tn) {y : Nat} (hy : y ∈ addrsO Tn) :
    y ∈ owned s.mem.flag To Tn := by
  rw [(addrsO_split s.mem.flag Tn).mem_iff] at hy
  unfold owned
  rcases List.mem_append.1 hy with hy | hy
  · simp [hy]
  · rw [(h.share.flatMap_right addrs).symm.mem_iff] at hy
    exact List.mem_append.2 (.inr hy)

theorem Inv.ownedOld {s : St V} {To Tn : Option (AT V)} {y : Nat} (hy : y ∈ addrsO To) :
    y ∈ owned s.mem.flag To Tn := by
  rw [(addrsO_split s.mem.flag To).mem_iff] at hy
  unfold owned
  rcases List.mem_append.1 hy with hy | hy
  · simp [hy]
  · exact List.mem_append.2 (.inr hy)

/-- What belongs to the new trie alone is not in the old one. -/
theorem Inv.exNew {s : St V} {To Tn : Option (AT V)} (h : Inv s To Tn) {y : Nat} (hy : y ∈ exO s.mem.flag Tn) :
    y ∉ addrsO To := by
  intro ho
  rw [(addrsO_split s.mem.flag To).mem_iff] at ho
  have hn := h.nodup
  unfold owned at hn
  rw [List.nodup_append] at hn
  obtain ⟨h1, _, h3⟩ := hn
  rw [List.nodup_append] at h1
  rcases List.mem_append.1 ho with ho | ho
  · exact h1.2.2 y ho y hy rfl
  · exact h3 y (by simp [hy]) y ho rfl

theorem Mem.flag_upd (m : Mem V) (a : Nat) (o : Option (Obj V)) (y : Nat) :
    (m.upd a o).flag y = if y = a then (o.map (·.flag)).getD false else m.flag y := by
  unfold Mem.flag Mem.upd
  dsimp only
  split <;> rfl

theorem Mem.body_upd (m : Mem V) (a : Nat) (o : Option (Obj V)) (y : Nat) :
    (m.upd a o).body y = if y = a then o.map (·.body) else m.body y := by
  unfold Mem.body Mem.upd
  dsimp only
  split <;> rfl

theorem obj_of {m : Mem V} {a : Nat} {b : Body V} (h : m.body a = some b) : m.obj a = some ⟨m.flag a, b⟩ := by
  unfold Mem.body at h
  unfold Mem.flag
  cases e : m.obj a with
  | none => rw [e] at h; simp at h
  | some o =>
    rw [e] at h
    simp only [Option.map_some, Option.some.injEq] at h
    subst h
    rfl

theorem obj_ne_none {m : Mem V} {y : Nat} : m.obj y ≠ none ↔ m.body y ≠ none := by
  unfold Mem.body
  simp

end Knot.Cow
