import Verif.Triecow.Lemmas2
/-! # Lemmas: taking one node out of the shared part -/
namespace Knot.Cow
open Knot.Trie (Key)

variable {V : Type}

/-- The tree with its root's object elsewhere. -/
def AT.retop (t : AT V) (x : Nat) : AT V :=
  match t with
  | .leaf _ key v => .leaf x key v
  | .branch _ i bmp tw => .branch x i bmp tw

@[simp] theorem retop_kids (t : AT V) (x : Nat) : (t.retop x).kids = t.kids := by cases t <;> rfl
@[simp] theorem retop_top (t : AT V) (x : Nat) : (t.retop x).top = x := by cases t <;> rfl
@[simp] theorem retop_body (t : AT V) (x : Nat) : (t.retop x).body = t.body := by cases t <;> rfl
@[simp] theorem erase_retop (t : AT V) (x : Nat) : erase (t.retop x) = erase t := by
  cases t <;> simp [AT.retop, erase]

/-- Contents of the memory with the node in the hole replaced. -/
def setHole (C : List (Frame V)) (n : Node V) (b : Nat → Option (Body V)) (y : Nat) : Option (Body V) :=
  match C with
  | [] => b y
  | f :: _ => if y = f.a then some (.twigs (f.l.map AT.node ++ n :: f.r.map AT.node)) else b y

theorem RepC.congr {m m' : Mem V} {C : List (Frame V)} {n : Node V} (h : RepC m C n)
    (hb : ∀ y ∈ addrsC C, m'.body y = m.body y) : RepC m' C n := by
  induction C generalizing n with
  | nil => trivial
  | cons f C ih =>
    obtain ⟨h1, h2, h3, h4⟩ := h
    refine ⟨?_, fun c hc => (h2 c hc).congr fun x hx => hb x (mem_addrsC.2 ⟨f, by simp, .inr (.inl ⟨c, hc, hx⟩)⟩),
      fun c hc => (h3 c hc).congr fun x hx => hb x (mem_addrsC.2 ⟨f, by simp, .inr (.inr ⟨c, hc, hx⟩)⟩), ?_⟩
    · rw [hb _ (frame_mem (by simp)), h1]
    · exact ih h4 fun y hy => hb y (by simp only [addrsC, List.flatMap_cons]; exact List.mem_append.2 (.inr hy))

theorem RepC.set {m m' : Mem V} {C : List (Frame V)} {n : Node V} (n' : Node V) (h : RepC m C n)
    (hn : (addrsC C).Nodup) (hb : ∀ y ∈ addrsC C, m'.body y = setHole C n' m.body y) : RepC m' C n' := by
  cases C with
  | nil => trivial
  | cons f C =>
    obtain ⟨h1, h2, h3, h4⟩ := h
    simp only [addrsC, List.flatMap_cons] at hn
    simp only [List.cons_append, List.nodup_cons] at hn
    obtain ⟨hn1, hn2⟩ := hn
    have hne : ∀ y, y ∈ addrsC (f :: C) → y ≠ f.a → m'.body y = m.body y := by
      intro y hy he
      rw [hb y hy]
      simp only [setHole, if_neg he]
    refine ⟨?_, fun c hc => (h2 c hc).congr fun x hx => hne x (mem_addrsC.2 ⟨f, by simp, .inr (.inl ⟨c, hc, hx⟩)⟩) ?_,
      fun c hc => (h3 c hc).congr fun x hx => hne x (mem_addrsC.2 ⟨f, by simp, .inr (.inr ⟨c, hc, hx⟩)⟩) ?_,
      h4.congr fun y hy => hne y ?_ ?_⟩
    · rw [hb _ (frame_mem (by simp))]
      simp [setHole]
    · rintro rfl; exact hn1 (by simp only [List.mem_append, List.mem_flatMap]; exact .inl (.inl ⟨c, hc, hx⟩))
    · rintro rfl; exact hn1 (by simp only [List.mem_append, List.mem_flatMap]; exact .inl (.inr ⟨c, hc, hx⟩))
    · simp only [addrsC, List.flatMap_cons]; exact List.mem_append.2 (.inr hy)
    · rintro rfl; exact hn1 (List.mem_append.2 (.inr hy))

theorem fr_kids {M : Nat → Bool} {t : AT V} (h : M t.top = false) (hk : ∀ c ∈ t.kids, M c.top = true) : fr M t = t.kids := by
  rw [fr_eq]
  simp only [h, Bool.false_eq_true, if_false]
  generalize t.kids = l at hk ⊢
  induction l with
  | nil => rfl
  | cons c l ih =>
    rw [List.flatMap_cons, ih fun d hd => hk d (by simp [hd]), fr_eq, if_pos (hk c (by simp))]
    rfl

theorem ex_kids {M : Nat → Bool} {t : AT V} (h : M t.top = false) (hk : ∀ c ∈ t.kids, M c.top = true) : ex M t = [t.top] := by
  rw [ex_eq]
  simp only [h, Bool.false_eq_true, if_false]
  congr 1
  generalize t.kids = l at hk ⊢
  induction l with
  | nil => rfl
  | cons c l ih =>
    rw [List.flatMap_cons, ih fun d hd => hk d (by simp [hd]), ex_eq, if_pos (hk c (by simp))]
    rfl

theorem exC_frame {M : Nat → Bool} {C : List (Frame V)} {f : Frame V} (h : f ∈ C) : f.a ∈ exC M C := by
  simp only [exC, List.mem_flatMap]
  exact ⟨f, h, by simp⟩

theorem erase_wrap (f : Frame V) {t t' : AT V} (h : erase t' = erase t) : erase (f.wrap t') = erase (f.wrap t) := by
  simp [Frame.wrap, erase, eraseL_eq, h]

theorem erase_plug {t t' : AT V} (h : erase t' = erase t) (C : List (Frame V)) : erase (plugA t' C) = erase (plugA t C) := by
  induction C generalizing t t' with
  | nil => exact h
  | cons f C ih => exact ih (erase_wrap f h)

/-- Taking a marked node out of the shared part. -/
theorem push {s s' : St V} {To : Option (AT V)} {t : AT V} {D : List (Frame V)}
    (h : Inv s To (some (plugA t D))) (hD : ∀ f ∈ D, s.mem.flag f.a = false) (hm : s.mem.flag t.top = true)
    (hold : s'.old = s.old) (hw : s'.new.weight = s.new.weight)
    (hroot : s'.new.root = rootOf (t.retop s.mem.next).node D)
    (hflag : ∀ y, s'.mem.flag y = if y = s.mem.next then false else if y = t.top then false
      else if y ∈ t.kids.map AT.top then true else s.mem.flag y)
    (hbody : ∀ y, s'.mem.body y = if y = s.mem.next then some t.body
      else setHole D (t.retop s.mem.next).node s.mem.body y)
    (hnext : s'.mem.next = s.mem.next + 1)
    (hlog : ∀ y ∈ s'.mem.log, y ∈ s.mem.log ∨ ∃ f ∈ D, y = f.a) :
    Inv s' To (some (plugA (t.retop s.mem.next) D)) ∧ (∀ f ∈ D, s'.mem.flag f.a = false) ∧
      s'.mem.flag (t.retop s.mem.next).top = false := by
  have hxN : ∀ y, y ∈ owned s.mem.flag To (some (plugA t D)) → y ≠ s.mem.next := by
    intro y hy e
    have := h.fresh y ((h.dom y).2 hy)
    omega
  have hnew := h.nodupNew
  simp only [addrsO] at hnew
  rw [(addrs_plug t D).nodup_iff, List.nodup_append] at hnew
  obtain ⟨hnD, hnt, hdis⟩ := hnew
  have hmemD : ∀ y ∈ addrsC D, y ∈ addrsO (some (plugA t D)) := fun y hy =>
    (addrs_plug t D).mem_iff.2 (by simp [hy])
  have hmemt : ∀ y ∈ addrs t, y ∈ addrsO (some (plugA t D)) := fun y hy =>
    (addrs_plug t D).mem_iff.2 (by simp [hy])
  have htk : ∀ c ∈ t.kids, ∀ y ∈ addrs c, y ∈ addrs t := by
    intro c hc y hy
    rw [addrs_kids]
    exact List.mem_cons_of_mem _ (List.mem_flatMap.2 ⟨c, hc, hy⟩)
  -- the marks outside of t
  have hout : ∀ y, y ≠ s.mem.next → y ∉ addrs t → s'.mem.flag y = s.mem.flag y := by
    intro y h1 h2
    rw [hflag, if_neg h1, if_neg, if_neg]
    · intro hc
      obtain ⟨c, hc, e⟩ := List.mem_map.1 hc
      exact h2 (htk c hc y (e ▸ top_mem c))
    · rintro rfl; exact h2 (top_mem t)
  have hxt : s.mem.next ∉ addrs t := fun hy => hxN _ (h.ownedNew (hmemt _ hy)) rfl
  have hkid : ∀ c ∈ t.kids, s'.mem.flag c.top = true := by
    intro c hc
    have h1 : c.top ∈ addrs t := htk c hc _ (top_mem c)
    rw [hflag, if_neg (by rintro e; exact hxt (e ▸ h1)), if_neg, if_pos (List.mem_map.2 ⟨c, hc, rfl⟩)]
    intro e
    rw [addrs_kids, List.nodup_cons] at hnt
    exact hnt.1 (List.mem_flatMap.2 ⟨c, hc, e ▸ top_mem c⟩)
  have htop : s'.mem.flag t.top = false := by
    rw [hflag]
    split
    · rfl
    · rw [if_pos rfl]
  have hx' : s'.mem.flag s.mem.next = false := by rw [hflag, if_pos rfl]
  have hDf : ∀ y ∈ addrsC D, s'.mem.flag y = s.mem.flag y := fun y hy =>
    hout y (hxN y (h.ownedNew (hmemD y hy))) fun ht => hdis y hy y ht rfl
  have hD' : ∀ f ∈ D, s'.mem.flag f.a = false := fun f hf => by rw [hDf _ (frame_mem hf), hD f hf]
  -- where the old trie has it
  have hfrt : fr s.mem.flag t = [t] := by rw [fr_eq, if_pos hm]
  have hshare := h.share
  have hfrN := fr_plug (M := s.mem.flag) t hD
  rw [hfrt] at hfrN
  have hsh2 : List.Perm (frO s.mem.flag To) (frC s.mem.flag D ++ [t]) := hshare.trans hfrN
  cases To with
  | none =>
    have := hsh2.length_eq
    simp [frO] at this
  | some To =>
  simp only [frO] at hsh2
  obtain ⟨C, eC, hC⟩ := fr_ctx (M := s.mem.flag) (T := To) (f := t) (hsh2.mem_iff.2 (by simp))
  subst eC
  have hfrO := fr_plug (M := s.mem.flag) t hC
  rw [hfrt] at hfrO
  have hCD : List.Perm (frC s.mem.flag C) (frC s.mem.flag D) :=
    (List.perm_append_right_iff [t]).1 (hfrO.symm.trans hsh2)
  have hold' := h.nodupOld
  simp only [addrsO] at hold'
  rw [(addrs_plug t C).nodup_iff, List.nodup_append] at hold'
  obtain ⟨hnC, _, hdisC⟩ := hold'
  have hmemC : ∀ y ∈ addrsC C, y ∈ addrsO (some (plugA t C)) := fun y hy =>
    (addrs_plug t C).mem_iff.2 (by simp [hy])
  have hCf : ∀ y ∈ addrsC C, s'.mem.flag y = s.mem.flag y := fun y hy =>
    hout y (hxN y (Inv.ownedOld (hmemC y hy))) fun ht => hdisC y hy y ht rfl
  have hC' : ∀ f ∈ C, s'.mem.flag f.a = false := fun f hf => by rw [hCf _ (frame_mem hf), hC f hf]
  have hfrO' : List.Perm (fr s'.mem.flag (plugA t C)) (frC s.mem.flag D ++ t.kids) := by
    refine (fr_plug t hC').trans ?_
    rw [frC_congr hCf, fr_kids htop hkid]
    exact hCD.append_right _
  have hfrN' : List.Perm (fr s'.mem.flag (plugA (t.retop s.mem.next) D)) (frC s.mem.flag D ++ t.kids) := by
    refine (fr_plug _ hD').trans ?_
    rw [frC_congr hDf, fr_kids (by simpa using hx') (by simpa using hkid)]
    simp
  have hexO' : List.Perm (ex s'.mem.flag (plugA t C)) (exC s.mem.flag C ++ [t.top]) := by
    refine (ex_plug t hC').trans ?_
    rw [exC_congr hCf, ex_kids htop hkid]
  have hexN' : List.Perm (ex s'.mem.flag (plugA (t.retop s.mem.next) D)) (exC s.mem.flag D ++ [s.mem.next]) := by
    refine (ex_plug _ hD').trans ?_
    rw [exC_congr hDf, ex_kids (by simpa using hx') (by simpa using hkid)]
    simp
  have hext : ex s.mem.flag t = [] := by rw [ex_eq, if_pos hm]
  have hexO := ex_plug (M := s.mem.flag) t hC
  have hexN := ex_plug (M := s.mem.flag) t hD
  rw [hext, List.append_nil] at hexO hexN
  have howned : List.Perm (owned s'.mem.flag (some (plugA t C)) (some (plugA (t.retop s.mem.next) D)))
      (s.mem.next :: owned s.mem.flag (some (plugA t C)) (some (plugA t D))) := by
    unfold owned
    simp only [exO, frO]
    refine ((hexO'.append hexN').append (hfrO'.flatMap_right addrs)).trans ?_
    refine List.Perm.trans ?_ (List.Perm.cons _ ((hexO.append hexN).append (hsh2.flatMap_right addrs))).symm
    simp only [List.flatMap_append, List.flatMap_cons, List.flatMap_nil, List.append_nil]
    rw [addrs_kids t]
    refine List.perm_iff_count.2 fun y => ?_
    simp only [List.count_append, List.count_cons, List.count_nil]
    omega
  have hbodyO : ∀ y ∈ addrs (plugA t C), s'.mem.body y = s.mem.body y := by
    intro y hy
    rw [hbody, if_neg (hxN y (Inv.ownedOld hy))]
    cases D with
    | nil => rfl
    | cons f D =>
      simp only [setHole]
      rw [if_neg]
      rintro rfl
      exact h.exNew (hexN.mem_iff.2 (exC_frame (by simp))) hy
  refine ⟨?_, hD', by simpa using hx'⟩
  refine ⟨?_, ?_, ?_, ?_, ?_, ?_, ?_, ?_⟩
  · have := h.old
    simp only [Holds] at this ⊢
    rw [hold]
    exact ⟨this.1, this.2.1, this.2.2.1, this.2.2.2.congr hbodyO⟩
  · have := h.new
    simp only [Holds] at this ⊢
    have he := erase_plug (erase_retop t s.mem.next) D
    rw [he, hroot, node_plug]
    refine ⟨rfl, by rw [hw]; exact this.2.1, this.2.2.1, ?_⟩
    rw [rep_plug]
    obtain ⟨hr1, hr2⟩ := rep_plug.1 this.2.2.2
    constructor
    · refine hr1.set _ hnD ?_
      intro y hy
      rw [hbody, if_neg (hxN y (h.ownedNew (hmemD y hy)))]
    · rw [rep_iff] at hr2 ⊢
      constructor
      · simp only [retop_top, retop_body]
        rw [hbody, if_pos rfl]
      · rw [retop_kids]
        intro c hc
        refine (hr2.2 c hc).congr ?_
        intro y hy
        refine hbodyO y ?_
        exact fr_sub (M := s.mem.flag) (hsh2.mem_iff.2 (by simp)) (htk c hc y hy)
  · simp only [frO]
    exact hfrO'.trans hfrN'.symm
  · rw [howned.nodup_iff, List.nodup_cons]
    exact ⟨fun hy => hxN _ hy rfl, h.nodup⟩
  · intro f hf c hc y hy
    have hf := hfrO'.mem_iff.1 hf
    rcases List.mem_append.1 hf with hf | hf
    · have hfo : f ∈ fr s.mem.flag (plugA t C) := hfrO.mem_iff.2 (List.mem_append.2 (.inl (hCD.mem_iff.2 hf)))
      have h1 : y ∈ addrs f := by
        rw [addrs_kids]; exact List.mem_cons_of_mem _ (List.mem_flatMap.2 ⟨c, hc, hy⟩)
      have h2 := fr_sub hfo h1
      rw [hout y (hxN y (Inv.ownedOld h2)) ?_]
      · exact h.clean f hfo c hc y hy
      · intro ht
        have hfD : f ∈ frC s.mem.flag D := hf
        have : y ∈ addrsC D := by
          simp only [frC, List.mem_flatMap, List.mem_append] at hfD
          obtain ⟨g, hg, hfg⟩ := hfD
          refine mem_addrsC.2 ⟨g, hg, .inr ?_⟩
          rcases hfg with ⟨d, hd, hfd⟩ | ⟨d, hd, hfd⟩
          · exact .inl ⟨d, hd, fr_sub hfd h1⟩
          · exact .inr ⟨d, hd, fr_sub hfd h1⟩
        exact hdis y this y ht rfl
    · have h0 : t ∈ fr s.mem.flag (plugA t C) := hfrO.mem_iff.2 (by simp)
      have hyf : y ∈ f.kids.flatMap addrs := List.mem_flatMap.2 ⟨c, hc, hy⟩
      have h1 : y ∈ addrs f := by rw [addrs_kids]; exact List.mem_cons_of_mem _ hyf
      have h2 := htk f hf y h1
      rw [hflag, if_neg (by rintro rfl; exact hxt h2), if_neg, if_neg]
      · exact h.clean t h0 f hf y h1
      · intro hyk
        obtain ⟨d, hd, e⟩ := List.mem_map.1 hyk
        have hnk : (t.kids.flatMap addrs).Nodup := by
          rw [addrs_kids, List.nodup_cons] at hnt
          exact hnt.2
        obtain ⟨l, r, ek⟩ := List.append_of_mem hf
        rw [ek] at hnk hd
        simp only [List.flatMap_append, List.flatMap_cons] at hnk
        have hyd : y ∈ addrs d := e ▸ top_mem d
        rw [List.nodup_append] at hnk
        obtain ⟨_, hk2, hk3⟩ := hnk
        rw [List.nodup_append] at hk2
        rcases List.mem_append.1 hd with hd | hd
        · exact hk3 y (List.mem_flatMap.2 ⟨d, hd, hyd⟩) y (List.mem_append.2 (.inl h1)) rfl
        · rcases List.mem_cons.1 hd with hd | hd
          · subst hd
            have := hk2.1
            rw [addrs_kids, List.nodup_cons] at this
            exact this.1 (e ▸ hyf)
          · exact hk2.2.2 y h1 y (List.mem_flatMap.2 ⟨d, hd, hyd⟩) rfl
      · rintro rfl
        rw [addrs_kids, List.nodup_cons] at hnt
        exact hnt.1 (List.mem_flatMap.2 ⟨f, hf, h1⟩)
  · intro y
    rw [howned.mem_iff, List.mem_cons, obj_ne_none, hbody]
    by_cases e : y = s.mem.next
    · simp [e]
    · rw [if_neg e]
      simp only [e, false_or]
      rw [← h.dom y, obj_ne_none]
      cases D with
      | nil => rfl
      | cons f D =>
        simp only [setHole]
        split
        · rename_i e2
          subst e2
          simp only [ne_eq, reduceCtorEq, not_false_iff, true_iff]
          rw [← ne_eq, ← obj_ne_none, h.dom]
          exact h.ownedNew (hmemD _ (frame_mem (by simp)))
        · rfl
  · intro y hy
    rw [hnext]
    rw [obj_ne_none, hbody] at hy
    by_cases e : y = s.mem.next
    · omega
    · rw [if_neg e] at hy
      have : s.mem.obj y ≠ none := by
        cases D with
        | nil => exact obj_ne_none.2 hy
        | cons f D =>
          simp only [setHole] at hy
          split at hy
          · rename_i e2
            subst e2
            exact (h.dom _).2 (h.ownedNew (hmemD _ (frame_mem (by simp))))
          · exact obj_ne_none.2 hy
      have := h.fresh y this
      omega
  · intro y hy
    rcases hlog y hy with hy | ⟨f, hf, rfl⟩
    · exact h.log y hy
    · exact h.exNew (hexN.mem_iff.2 (exC_frame hf))

end Knot.Cow
