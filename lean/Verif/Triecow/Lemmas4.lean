import Verif.Triecow.Lemmas3
/-! # Lemmas: pushing the marks down a path -/
namespace Knot.Cow
open Knot.Trie (Key)

variable {V : Type}

/-! ### Memory operations -/

theorem twigs_of {m : Mem V} {a : Nat} {l : List (Node V)} (h : m.body a = some (.twigs l)) : m.twigs a = .ok l := by
  unfold Mem.twigs
  rw [obj_of h]

theorem key_of {m : Mem V} {a : Nat} {k : Key} (h : m.body a = some (.key k)) : m.key a = .ok k := by
  unfold Mem.key
  rw [obj_of h]

theorem getFlag_of {m : Mem V} {a : Nat} (h : m.obj a ≠ none) : m.getFlag a = .ok (m.flag a) := by
  unfold Mem.getFlag Mem.flag
  cases e : m.obj a with
  | none => exact absurd e h
  | some o => rfl

theorem setFlag_ok {m : Mem V} {a : Nat} (h : m.obj a ≠ none) (f : Bool) :
    ∃ m', m.setFlag a f = .ok m' ∧ (∀ y, m'.flag y = if y = a then f else m.flag y) ∧
      (∀ y, m'.body y = m.body y) ∧ m'.next = m.next ∧ m'.log = m.log := by
  unfold Mem.setFlag
  cases e : m.obj a with
  | none => exact absurd e h
  | some o =>
    refine ⟨_, rfl, ?_, ?_, rfl, rfl⟩
    · intro y; rw [Mem.flag_upd]; rfl
    · intro y
      rw [Mem.body_upd]
      split
      · rename_i h; subst h; simp [Mem.body, e]
      · rfl

theorem alloc_flag (m : Mem V) (b : Body V) (y : Nat) : (m.alloc b).1.flag y = if y = m.next then false else m.flag y := by
  have := Mem.flag_upd m m.next (some ⟨false, b⟩) y
  simpa [Mem.alloc, Mem.flag] using this

theorem alloc_body (m : Mem V) (b : Body V) (y : Nat) :
    (m.alloc b).1.body y = if y = m.next then some b else m.body y := by
  have := Mem.body_upd m m.next (some ⟨false, b⟩) y
  simpa [Mem.alloc, Mem.body] using this

theorem free_ok {m : Mem V} {a : Nat} (h : m.obj a ≠ none) :
    ∃ m', m.free a = .ok m' ∧ (∀ y, m'.obj y = if y = a then none else m.obj y) ∧ m'.next = m.next ∧ m'.log = a :: m.log := by
  unfold Mem.free
  cases e : m.obj a with
  | none => exact absurd e h
  | some o => exact ⟨_, rfl, fun y => rfl, rfl, rfl⟩

/-- The address in a node. -/
def Node.addr : Node V → Nat
  | .leaf k _ => k
  | .branch _ _ a => a

@[simp] theorem node_addr (t : AT V) : t.node.addr = t.top := by cases t <;> rfl

theorem markCow_eq (m : Mem V) (n : Node V) : markCow m n = m.setFlag n.addr true := by cases n <;> rfl

theorem marked_eq (m : Mem V) (n : Node V) : marked m n = m.getFlag n.addr := by cases n <;> rfl

theorem markAll_ok {m : Mem V} {l : List (Node V)} (h : ∀ n ∈ l, m.obj n.addr ≠ none) :
    ∃ m', markAll m l = .ok m' ∧ (∀ y, m'.flag y = if y ∈ l.map Node.addr then true else m.flag y) ∧
      (∀ y, m'.body y = m.body y) ∧ m'.next = m.next ∧ m'.log = m.log := by
  induction l generalizing m with
  | nil => exact ⟨m, rfl, by simp, fun _ => rfl, rfl, rfl⟩
  | cons n l ih =>
    obtain ⟨m1, e1, f1, b1, n1, l1⟩ := setFlag_ok (h n (by simp)) true
    obtain ⟨m2, e2, f2, b2, n2, l2⟩ := ih (m := m1) (by
      intro n' hn'
      rw [obj_ne_none, b1, ← obj_ne_none]
      exact h n' (by simp [hn']))
    refine ⟨m2, ?_, ?_, fun y => by rw [b2, b1], by rw [n2, n1], by rw [l2, l1]⟩
    · unfold markAll
      rw [markCow_eq, e1]
      exact e2
    · intro y
      rw [f2, f1]
      simp only [List.map_cons, List.mem_cons]
      by_cases h1 : y ∈ l.map Node.addr
      · simp [h1]
      · by_cases h2 : y = n.addr <;> simp [h1, h2]

/-! ### Access through a pointer -/

theorem load_ok {s : St V} {n : Node V} {D : List (Frame V)} (hr : s.new.root = rootOf n D) (hD : RepC s.mem D n) :
    load s (hole D) = .ok n := by
  cases D with
  | nil => simp [hole, load, hr, rootOf]
  | cons f D =>
    simp only [hole, load]
    rw [twigs_of hD.1]
    simp [Res.rd]

theorem store_ok {s : St V} {n : Node V} {D : List (Frame V)} (hr : s.new.root = rootOf n D) (hD : RepC s.mem D n)
    (hf : ∀ f ∈ D, s.mem.flag f.a = false) (n' : Node V) :
    ∃ s', store s (hole D) n' = .ok s' ∧ s'.old = s.old ∧ s'.new.weight = s.new.weight ∧
      s'.new.root = rootOf n' D ∧ (∀ y, s'.mem.flag y = s.mem.flag y) ∧
      (∀ y, s'.mem.body y = setHole D n' s.mem.body y) ∧ s'.mem.next = s.mem.next ∧
      (∀ y ∈ s'.mem.log, y ∈ s.mem.log ∨ ∃ f ∈ D, y = f.a) := by
  cases D with
  | nil => exact ⟨_, rfl, rfl, rfl, rfl, fun _ => rfl, fun _ => rfl, rfl, fun y hy => .inl hy⟩
  | cons f D =>
    have ho := obj_of hD.1
    rw [hf f (by simp)] at ho
    simp only [hole, store]
    rw [ho]
    simp only [List.length_append, List.length_cons, List.length_map]
    rw [if_pos (by omega)]
    refine ⟨_, rfl, rfl, rfl, ?_, ?_, ?_, rfl, ?_⟩
    · simpa [rootOf] using hr
    · intro y
      have := Mem.flag_upd s.mem f.a (some ⟨false, .twigs ((f.l.map AT.node ++ n :: f.r.map AT.node).set f.l.length n')⟩) y
      simp only [Mem.flag] at this ⊢
      refine this.trans ?_
      split
      · rename_i h; subst h; simp [ho]
      · rfl
    · intro y
      have := Mem.body_upd s.mem f.a (some ⟨false, .twigs ((f.l.map AT.node ++ n :: f.r.map AT.node).set f.l.length n')⟩) y
      simp only [Mem.body, setHole] at this ⊢
      refine this.trans ?_
      split
      · simp [List.set_append]
      · rfl
    · intro y hy
      rcases List.mem_cons.1 hy with hy | hy
      · exact .inr ⟨f, by simp, hy⟩
      · exact .inl hy

/-! ### One node -/

theorem Inv.parts {s : St V} {To : Option (AT V)} {t : AT V} {D : List (Frame V)} (h : Inv s To (some (plugA t D))) :
    s.new.root = rootOf t.node D ∧ RepC s.mem D t.node ∧ Rep s.mem t := by
  have := h.new
  simp only [Holds] at this
  obtain ⟨h1, _, _, h4⟩ := this
  rw [node_plug] at h1
  exact ⟨h1, rep_plug.1 h4⟩

theorem RepC.same {m m' : Mem V} {C : List (Frame V)} {n : Node V} (h : RepC m C n) (x : Nat) (hx : x ∉ addrsC C)
    (hb : ∀ y, y ≠ x → m'.body y = m.body y) : RepC m' C n :=
  h.congr fun y hy => hb y (by rintro rfl; exact hx hy)

theorem wf_plug {t : AT V} {D : List (Frame V)} (h : Trie.WF (erase (plugA t D))) : Trie.WF (erase t) := by
  induction D generalizing t with
  | nil => exact h
  | cons f D ih =>
    have := ih h
    simp only [Frame.wrap, erase, eraseL_eq] at this
    cases this with
    | branch _ _ hc _ _ => exact hc _ (by simp)

theorem unshare_ok {s : St V} {To : Option (AT V)} {t : AT V} {D : List (Frame V)}
    (h : Inv s To (some (plugA t D))) (hD : ∀ f ∈ D, s.mem.flag f.a = false) :
    ∃ s' x mv, unshare s (hole D) = .ok (s', mv) ∧ Inv s' To (some (plugA (t.retop x) D)) ∧
      (∀ f ∈ D, s'.mem.flag f.a = false) ∧ s'.mem.flag x = false ∧ s'.old = s.old ∧
      s'.new.weight = s.new.weight ∧
      ∀ a i bmp tw, t = .branch a i bmp tw → ∀ j, relocate mv (.slot a j) = .ok (.slot x j) := by
  obtain ⟨p1, p2, p3⟩ := h.parts
  have hwf : Trie.WF (erase t) := by
    have := h.new
    simp only [Holds] at this
    exact wf_plug this.2.2.1
  have halloc := p3.alloc
  have hN : s.mem.next ∉ addrs (plugA t D) := by
    intro hy
    have := h.fresh _ ((h.dom _).2 (h.ownedNew (by simpa [addrsO] using hy)))
    omega
  have hND : s.mem.next ∉ addrsC D := fun hy => hN ((addrs_plug t D).mem_iff.2 (by simp [hy]))
  have hNt : s.mem.next ∉ addrs t := fun hy => hN ((addrs_plug t D).mem_iff.2 (by simp [hy]))
  have htD : ∀ y ∈ addrs t, y ∉ addrsC D := by
    have hn := h.nodupNew
    simp only [addrsO] at hn
    rw [(addrs_plug t D).nodup_iff, List.nodup_append] at hn
    intro y hy hy'
    exact hn.2.2 y hy' y hy rfl
  unfold unshare
  rw [load_ok p1 p2]
  simp only [Res.bind_ok]
  rw [marked_eq, node_addr, getFlag_of (halloc _ (top_mem t))]
  simp only [Res.bind_ok]
  cases hm : s.mem.flag t.top with
  | false =>
    have hsame : t.retop t.top = t := by cases t <;> rfl
    refine ⟨s, t.top, none, ?_, by rw [hsame]; exact h, hD, hm, rfl, rfl, ?_⟩
    · cases t <;> rfl
    · rintro a i bmp tw rfl j; rfl
  | true =>
    cases t with
    | leaf k key v =>
      have hb := ((rep_iff _ _).1 p3).1
      simp only [AT.top, AT.body] at hb hm
      simp only [AT.node]
      rw [key_of hb]
      simp only [Res.bind_ok]
      have hk : key.length < 2147483648 := by
        simp only [erase] at hwf
        cases hwf with
        | leaf h => exact h
      rw [Trie.storedKey_ok key hk]
      simp only [Res.bind_ok]
      have hP2 : RepC (s.mem.alloc (.key key)).1 D (AT.leaf k key v).node :=
        p2.same s.mem.next hND fun y hy => by rw [alloc_body, if_neg hy]
      obtain ⟨s1, e1, o1, w1, r1, f1, b1, n1, l1⟩ := store_ok (s := { s with mem := (s.mem.alloc (.key key)).1 })
        (n := (AT.leaf k key v).node) (D := D) p1 hP2 (by
          intro f hf
          simp only [alloc_flag]
          split
          · rfl
          · exact hD f hf) (.leaf (s.mem.alloc (.key key)).2 v)
      rw [e1]
      simp only [Res.bind_ok]
      have hkN : k ≠ s.mem.next := fun e => hNt (by simp [addrs, ← e])
      have hkD : k ∉ addrsC D := htD k (by simp [addrs])
      have hbk : s1.mem.body k = some (.key key) := by
        rw [b1]
        cases D with
        | nil => simp only [setHole, alloc_body, if_neg hkN]; exact hb
        | cons f D =>
          simp only [setHole, alloc_body, if_neg hkN]
          rw [if_neg (by rintro rfl; exact hkD (frame_mem (by simp)))]
          exact hb
      obtain ⟨m2, e2, f2, b2, n2, l2⟩ := setFlag_ok (m := s1.mem) (a := k) (by rw [obj_ne_none, hbk]; simp) false
      rw [e2]
      simp only [Res.bind_ok]
      have := push (s' := { s1 with mem := m2 }) h hD hm o1 w1 (by rw [r1]; rfl) (by
        intro y
        simp only
        rw [f2, f1]
        simp only [alloc_flag, AT.top, AT.kids, List.map_nil, List.not_mem_nil, if_false]
        by_cases e : y = k
        · simp [e]
        · simp [e]) (by
        intro y
        simp only
        rw [b2, b1]
        cases D with
        | nil => simp only [setHole, alloc_body]; rfl
        | cons f D =>
          simp only [setHole, alloc_body]
          by_cases e : y = s.mem.next
          · rw [if_neg (by rintro rfl; exact hND (e ▸ frame_mem (by simp))), if_pos e]
            simp only [if_pos e]; rfl
          · simp only [if_neg e]; rfl) (by simp only; rw [n2, n1]; rfl) (by
        intro y hy
        simp only [l2] at hy
        exact l1 y hy)
      refine ⟨_, s.mem.next, none, rfl, this.1, this.2.1, by simpa using this.2.2, o1, w1, ?_⟩
      intro a i bmp tw e; cases e
    | branch a i bmp tw =>
      have hb := ((rep_iff _ _).1 p3).1
      simp only [AT.top, AT.body] at hb hm
      have haN : a ≠ s.mem.next := fun e => hNt (by simp [addrs, ← e])
      simp only [AT.node]
      unfold pushOne
      rw [twigs_of hb]
      simp only [Res.bind_ok]
      obtain ⟨m1, e1, f1, b1, n1, l1⟩ := markAll_ok (m := s.mem) (l := tw.map AT.node) (by
        intro n hn
        obtain ⟨c, hc, rfl⟩ := List.mem_map.1 hn
        rw [node_addr]
        refine halloc _ ?_
        rw [addrs_kids]
        exact List.mem_cons_of_mem _ (List.mem_flatMap.2 ⟨c, hc, top_mem c⟩))
      rw [e1]
      simp only [Res.bind_ok]
      obtain ⟨m2, e2, f2, b2, n2, l2⟩ := setFlag_ok (m := m1) (a := a) (by rw [obj_ne_none, b1, hb]; simp) false
      rw [e2]
      simp only [Res.bind_ok]
      have hb2 : m2.body a = some (.twigs (tw.map AT.node)) := by rw [b2, b1, hb]
      have ho2 := obj_of hb2
      rw [f2, if_pos rfl] at ho2
      unfold Mem.copy
      rw [ho2]
      simp only
      obtain ⟨m3, e3, f3, b3, n3, l3⟩ := setFlag_ok (m := (m2.alloc (.twigs (tw.map AT.node))).1)
        (a := (m2.alloc (.twigs (tw.map AT.node))).2) (by rw [obj_ne_none, alloc_body]; simp [Mem.alloc]) false
      rw [e3]
      simp only [Res.bind_ok]
      have hnx : (m2.alloc (.twigs (tw.map AT.node))).2 = s.mem.next := by simp [Mem.alloc, n2, n1]
      have hb3 : ∀ y, m3.body y = if y = s.mem.next then some (.twigs (tw.map AT.node)) else s.mem.body y := by
        intro y
        rw [b3, alloc_body, n2, n1, b2, b1]
      have hf3 : ∀ y, m3.flag y = if y = s.mem.next then false else if y = a then false
          else if y ∈ tw.map AT.top then true else s.mem.flag y := by
        intro y
        rw [f3, alloc_flag, hnx, n2, n1, f2, f1]
        simp only [List.map_map]
        have : (tw.map (Node.addr ∘ AT.node)) = tw.map AT.top := by
          apply List.map_congr_left; intro c _; simp
        rw [this]
        by_cases e : y = s.mem.next <;> simp [e]
      have hP2 : RepC m3 D (AT.branch a i bmp tw).node :=
        p2.same s.mem.next hND fun y hy => by rw [hb3, if_neg hy]
      obtain ⟨s1, e4, o1, w1, r1, f4, b4, n4, l4⟩ := store_ok (s := { s with mem := m3 })
        (n := (AT.branch a i bmp tw).node) (D := D) p1 hP2 (by
          intro f hf
          simp only [hf3]
          have h1 : f.a ∈ addrsC D := frame_mem hf
          rw [if_neg (by rintro e; exact hND (e ▸ h1)), if_neg (by rintro e; exact htD a (by simp [addrs]) (e ▸ h1)), if_neg]
          · exact hD f hf
          · intro hc
            obtain ⟨c, hc, e⟩ := List.mem_map.1 hc
            refine htD c.top ?_ (e ▸ h1)
            rw [addrs_kids]
            exact List.mem_cons_of_mem _ (List.mem_flatMap.2 ⟨c, hc, top_mem c⟩)) (.branch i bmp (m2.alloc (.twigs (tw.map AT.node))).2)
      rw [e4]
      simp only [Res.bind_ok]
      have := push (s' := s1) h hD hm o1 w1 (by rw [r1, hnx]; rfl) (by
        intro y
        rw [f4, hf3]
        rfl) (by
        intro y
        rw [b4]
        cases D with
        | nil => simp only [setHole, hb3]; rfl
        | cons f D =>
          simp only [setHole, hb3]
          by_cases e : y = s.mem.next
          · rw [if_neg (by rintro rfl; exact hND (e ▸ frame_mem (by simp))), if_pos e]
            simp only [if_pos e]; rfl
          · simp only [if_neg e, hnx]; rfl) (by rw [n4]; simp only; rw [n3]; simp [Mem.alloc, n2, n1]) (by
        intro y hy
        have := l4 y hy
        simp only at this
        rw [l3] at this
        simpa [Mem.alloc, Mem.upd, l2, l1] using this)
      refine ⟨_, s.mem.next, some (a, (m2.alloc (.twigs (tw.map AT.node))).2), rfl, this.1, this.2.1, by simpa using this.2.2, o1, w1, ?_⟩
      intro a' i' bmp' tw' e j
      cases e
      simp only [relocate, if_pos, hnx]

/-! ### A path -/

/-- Nodes down a path; the nearest to the root is first. -/
def plugDown (t : AT V) : List (Frame V) → AT V
  | [] => t
  | f :: E => f.wrap (plugDown t E)

theorem plugDown_plug (t : AT V) (E D : List (Frame V)) : plugA (plugDown t E) D = plugA t (E.reverse ++ D) := by
  induction E generalizing D with
  | nil => rfl
  | cons f E ih =>
    have := ih (f :: D)
    simp only [plugA] at this
    simp only [plugDown, List.reverse_cons, List.append_assoc, List.singleton_append]
    exact this

/-- A frame but for its address. -/
def Frame.strip (f : Frame V) : Frame V := { f with a := 0 }

def ptrOf (f : Frame V) : Ptr := .slot f.a f.l.length

theorem pushdown_ok (E : List (Frame V)) : ∀ {s : St V} {To : Option (AT V)} {t : AT V} {D : List (Frame V)} {moved p},
    Inv s To (some (plugA (plugDown t E) D)) → (∀ f ∈ D, s.mem.flag f.a = false) → relocate moved p = .ok (hole D) →
    ∃ s' E' x, pushdown s moved (p :: E.map ptrOf) = .ok (s', hole D :: E'.map ptrOf) ∧
      Inv s' To (some (plugA (plugDown (t.retop x) E') D)) ∧ (∀ f ∈ D, s'.mem.flag f.a = false) ∧
      (∀ f ∈ E', s'.mem.flag f.a = false) ∧ s'.mem.flag x = false ∧ E'.map Frame.strip = E.map Frame.strip ∧ s'.old = s.old ∧
      s'.new.weight = s.new.weight := by
  induction E with
  | nil =>
    intro s To t D moved p h hD hp
    obtain ⟨s1, x, mv, e1, i1, d1, x1, o1, w1, _⟩ := unshare_ok h hD
    refine ⟨s1, [], x, ?_, i1, d1, by simp, x1, rfl, o1, w1⟩
    simp only [List.map_nil, pushdown]
    rw [hp]
    simp only [Res.bind_ok]
    rw [e1]
    rfl
  | cons f E ih =>
    intro s To t D moved p h hD hp
    obtain ⟨s1, x, mv, e1, i1, d1, x1, o1, w1, rl⟩ := unshare_ok h hD
    have hf' : (plugDown t (f :: E)).retop x = plugDown t (({ f with a := x } : Frame V) :: E) := rfl
    rw [hf'] at i1
    have hi : Inv s1 To (some (plugA (plugDown t E) (({ f with a := x } : Frame V) :: D))) := i1
    obtain ⟨s2, E', x2, e2, i2, d2, d3, x3, al, o2, w2⟩ := ih (moved := mv) (p := ptrOf f) hi (by
      intro g hg
      rcases List.mem_cons.1 hg with hg | hg
      · subst hg; exact x1
      · exact d1 g hg) (by
      simp only [ptrOf, hole]
      exact rl f.a f.i f.bmp _ rfl _)
    refine ⟨s2, { f with a := x } :: E', x2, ?_, i2, fun g hg => d2 g (by simp [hg]), ?_, x3, by simp only [List.map_cons, al]; rfl,
      by rw [o2, o1], by rw [w2, w1]⟩
    · rw [pushdown, hp]
      simp only [Res.bind_ok]
      rw [e1]
      simp only [Res.bind_ok, List.map_cons]
      rw [e2]
      rfl
    · intro g hg
      rcases List.mem_cons.1 hg with hg | hg
      · subst hg; exact d2 _ (by simp)
      · exact d3 g hg

end Knot.Cow
