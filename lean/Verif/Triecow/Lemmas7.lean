import Verif.Triecow.Lemmas6
/-! # Lemmas: insertion -/
namespace Knot.Cow
open Knot.Trie (Key)

variable {V : Type}

theorem St.eta_weight {s : St V} {w : Nat} (h : s.new.weight = w) : { s with new := { s.new with weight := w } } = s := by
  subst h; rfl

theorem writeVal_ok {s : St V} {To : Option (AT V)} {k : Nat} {key : Key} {v : V} {C : List (Frame V)}
    (h : Inv s To (some (plugA (.leaf k key v) C))) (hC : ∀ f ∈ C, s.mem.flag f.a = false)
    (hk : s.mem.flag k = false) (w : Option V → V)
    (hlen : s.new.weight = (Trie.toList (erase (plugA (.leaf k key (w (some v))) C))).length)
    (hwf : Trie.WF (erase (plugA (.leaf k key (w (some v))) C))) :
    ∃ s', writeVal s (stackOf C) w = .ok s' ∧ s'.old = s.old ∧
      Inv s' To (some (plugA (.leaf k key (w (some v))) C)) := by
  obtain ⟨p1, p2, p3⟩ := h.parts
  have hex : ∀ v' : V, ex s.mem.flag (.leaf k key v') = [k] := by intro v'; simp [ex, hk]
  have hfr : ∀ v' : V, fr s.mem.flag (.leaf k key v') = [] := by intro v'; simp [fr, hk]
  have hko : s.mem.obj k ≠ none := p3.alloc k (by simp [addrs])
  obtain ⟨s', e1, o1, w1, i1⟩ := finish (s := s) (s0 := s) (t := .leaf k key v) (t' := .leaf k key (w (some v)))
    (w := s.new.weight) h hC rfl rfl (fun _ _ _ => rfl) (by
      have := (rep_iff _ _).1 p3
      exact (rep_iff _ _).2 ⟨this.1, by simp [AT.kids]⟩) (by intro y hy; exact .inl (by simpa [addrs] using hy))
    (by rw [hfr, hfr]) (by simp [hex]) (by rw [hex, hex]; intro y hy; exact .inl hy)
    (by
      intro y
      rw [hex, hex]
      by_cases e : y = k
      · subst e; simp [hko]
      · simp [e]) (Nat.le_refl _) (by
      intro y hy
      rw [hex] at hy
      simp only [List.mem_singleton] at hy
      subst hy
      exact h.fresh _ hko) (fun y hy => .inl hy) hlen hwf
  refine ⟨s', ?_, o1, by rwa [St.eta_weight w1] at i1⟩
  simp only [stackOf, writeVal]
  rw [load_ok p1 p2]
  simp only [Res.bind_ok, AT.node]
  exact e1

/-- What the memory holds after a key was allocated. -/
theorem alloc_obj (m : Mem V) (b : Body V) (y : Nat) :
    (m.alloc b).1.obj y = if y = m.next then some ⟨false, b⟩ else m.obj y := rfl

theorem flag_congr {m m' : Mem V} {y : Nat} (h : m'.obj y = m.obj y) : m'.flag y = m.flag y := by
  unfold Mem.flag; rw [h]

theorem body_congr {m m' : Mem V} {y : Nat} (h : m'.obj y = m.obj y) : m'.body y = m.body y := by
  unfold Mem.body; rw [h]

theorem addChild_ok {s : St V} {To : Option (AT V)} {a i bmp kbit : Nat} {tw : List (AT V)} {C : List (Frame V)}
    {key : Key} {v : V} {r : Trie.Node V}
    (h : Inv s To (some (plugA (.branch a i bmp tw) C))) (hC : ∀ f ∈ C, s.mem.flag f.a = false)
    (ha : s.mem.flag a = false)
    (hf : Trie.addChild i bmp (eraseL tw) kbit (.leaf key v) = .ok r)
    (hlen : s.new.weight + 1 = (Trie.toList (Trie.plug r (pathOf (.branch a i bmp tw) C))).length)
    (hwf : Trie.WF (Trie.plug r (pathOf (.branch a i bmp tw) C))) :
    ∃ s' t', addChild { s with mem := (s.mem.alloc (.key key)).1 } (hole C) i bmp a kbit (.leaf s.mem.next v) = .ok s' ∧
      s'.old = s.old ∧ s'.new.weight = s.new.weight ∧
      Inv { s' with new := { s'.new with weight := s.new.weight + 1 } } To (some (plugA t' C)) ∧
      erase (plugA t' C) = Trie.plug r (pathOf (.branch a i bmp tw) C) := by
  obtain ⟨p1, p2, p3⟩ := h.parts
  have hrep := (rep_iff _ _).1 p3
  simp only [AT.top, AT.body, AT.kids] at hrep
  have hlt : ∀ y ∈ addrs (AT.branch a i bmp tw), y < s.mem.next := fun y hy =>
    h.fresh y (p3.alloc y hy)
  have haN : a < s.mem.next := hlt a (by simp [addrs])
  have hnd : (addrs (AT.branch a i bmp tw)).Nodup := by
    have hn := h.nodupNew
    simp only [addrsO] at hn
    rw [(addrs_plug _ C).nodup_iff, List.nodup_append] at hn
    exact hn.2.1
  unfold Trie.addChild at hf
  split at hf
  · cases hf
  · rename_i hb
    injection hf with hf
    let off := Trie.twigoff bmp kbit
    let tw' := tw.take off ++ AT.leaf s.mem.next key v :: tw.drop off
    let t' : AT V := .branch (s.mem.next + 1) i (bmp ||| 2 ^ kbit) tw'
    have het' : erase t' = r := by
      rw [← hf]
      simp [t', tw', off, erase, eraseL_eq, List.map_take, List.map_drop]
    have hpl : erase (plugA t' C) = Trie.plug r (pathOf (.branch a i bmp tw) C) := by
      rw [← plug_path t' (.branch a i bmp tw) C, het']
    -- the memory
    have hoa : (s.mem.alloc (.key key)).1.obj a = some ⟨false, .twigs (tw.map AT.node)⟩ := by
      rw [alloc_obj, if_neg (by omega), obj_of hrep.1, ha]
    obtain ⟨m2, e2, ob2, n2, l2⟩ := free_ok (m := (s.mem.alloc (.key key)).1) (a := a) (by rw [hoa]; simp)
    let m3 := (m2.alloc (.twigs (tw'.map AT.node))).1
    have hn2 : m2.next = s.mem.next + 1 := by rw [n2]; rfl
    have hob3 : ∀ y, m3.obj y = if y = s.mem.next + 1 then some ⟨false, .twigs (tw'.map AT.node)⟩ else if y = a then none
        else if y = s.mem.next then some ⟨false, .key key⟩ else s.mem.obj y := by
      intro y
      simp only [m3]
      rw [alloc_obj, hn2, ob2, alloc_obj]
    have hkeep : ∀ y, y ≠ a → y < s.mem.next → m3.obj y = s.mem.obj y := by
      intro y h1 h2
      rw [hob3, if_neg (by omega), if_neg h1, if_neg (by omega)]
    have hkid : ∀ c ∈ tw, ∀ y ∈ addrs c, m3.obj y = s.mem.obj y := by
      intro c hc y hy
      have hyt : y ∈ tw.flatMap addrs := List.mem_flatMap.2 ⟨c, hc, hy⟩
      rw [addrs_kids] at hnd hlt
      simp only [AT.top, AT.kids] at hnd hlt
      rw [List.nodup_cons] at hnd
      exact hkeep y (by rintro rfl; exact hnd.1 hyt) (hlt y (List.mem_cons_of_mem _ hyt))
    have hf3 : m3.flag (s.mem.next + 1) = false := by unfold Mem.flag; rw [hob3, if_pos rfl]; rfl
    have hfN : m3.flag s.mem.next = false := by
      unfold Mem.flag; rw [hob3, if_neg (by omega), if_neg (by omega), if_pos rfl]; rfl
    have hfrk : ∀ l : List (AT V), (∀ c ∈ l, c ∈ tw) → l.flatMap (fr m3.flag) = l.flatMap (fr s.mem.flag) := by
      intro l hl
      exact flatMap_congr' fun c hc => fr_congr fun y hy => flag_congr (hkid c (hl c hc) y hy)
    have hexk : ∀ l : List (AT V), (∀ c ∈ l, c ∈ tw) → l.flatMap (ex m3.flag) = l.flatMap (ex s.mem.flag) := by
      intro l hl
      exact flatMap_congr' fun c hc => ex_congr fun y hy => flag_congr (hkid c (hl c hc) y hy)
    have ht1 : ∀ c ∈ tw.take off, c ∈ tw := fun c hc => List.mem_of_mem_take hc
    have ht2 : ∀ c ∈ tw.drop off, c ∈ tw := fun c hc => List.mem_of_mem_drop hc
    have hfrt : fr s.mem.flag (.branch a i bmp tw) = tw.flatMap (fr s.mem.flag) := by
      rw [fr_eq]; simp [AT.top, AT.kids, ha]
    have hext : ex s.mem.flag (.branch a i bmp tw) = a :: tw.flatMap (ex s.mem.flag) := by
      rw [ex_eq]; simp [AT.top, AT.kids, ha]
    have hfrt' : fr m3.flag t' = tw.flatMap (fr s.mem.flag) := by
      rw [fr_eq]
      simp only [t', AT.top, AT.kids, hf3, Bool.false_eq_true, if_false, tw']
      rw [List.flatMap_append, List.flatMap_cons, hfrk _ ht1, hfrk _ ht2]
      rw [show fr m3.flag (AT.leaf s.mem.next key v) = [] by simp [fr, hfN]]
      rw [List.nil_append, ← List.flatMap_append, List.take_append_drop]
    have hext' : List.Perm (ex m3.flag t') ((s.mem.next + 1) :: s.mem.next :: tw.flatMap (ex s.mem.flag)) := by
      rw [ex_eq]
      simp only [t', AT.top, AT.kids, hf3, Bool.false_eq_true, if_false, tw']
      rw [List.flatMap_append, List.flatMap_cons, hexk _ ht1, hexk _ ht2]
      rw [show ex m3.flag (AT.leaf s.mem.next key v) = [s.mem.next] by simp [ex, hfN]]
      refine List.Perm.cons _ ?_
      rw [List.singleton_append]
      refine List.perm_middle.trans ?_
      rw [← List.flatMap_append, List.take_append_drop]
    have hexlt : ∀ y ∈ tw.flatMap (ex s.mem.flag), y < s.mem.next ∧ y ≠ a ∧ y ∈ tw.flatMap addrs := by
      intro y hy
      obtain ⟨c, hc, hy⟩ := List.mem_flatMap.1 hy
      have hyt : y ∈ tw.flatMap addrs := List.mem_flatMap.2 ⟨c, hc, ex_sub hy⟩
      rw [addrs_kids] at hnd hlt
      simp only [AT.top, AT.kids] at hnd hlt
      rw [List.nodup_cons] at hnd
      exact ⟨hlt y (List.mem_cons_of_mem _ hyt), by rintro rfl; exact hnd.1 hyt, hyt⟩
    have hexnd : (tw.flatMap (ex s.mem.flag)).Nodup := by
      have hd := (addrs_split s.mem.flag (AT.branch a i bmp tw)).nodup_iff.1 hnd
      rw [hext] at hd
      rw [List.nodup_append] at hd
      exact (List.nodup_cons.1 hd.1).2
    obtain ⟨s', e1, o1, w1, i1⟩ := finish (s := s) (s0 := { s with mem := m3 }) (t' := t')
      (w := s.new.weight + 1) h hC rfl rfl (by
        intro y h1 h2
        rw [hext] at h2
        exact hkeep y (by rintro rfl; simp at h2) h1) (by
        rw [rep_iff]
        constructor
        · simp only [t', AT.top, AT.body]
          unfold Mem.body
          rw [hob3, if_pos rfl]
          rfl
        · intro c hc
          simp only [t', AT.kids, tw'] at hc
          rcases List.mem_append.1 hc with hc | hc
          · exact (hrep.2 c (ht1 c hc)).congr fun y hy => body_congr (hkid c (ht1 c hc) y hy)
          · rcases List.mem_cons.1 hc with hc | hc
            · subst hc
              rw [rep_iff]
              refine ⟨?_, by simp [AT.kids]⟩
              simp only [AT.top, AT.body]
              unfold Mem.body
              rw [hob3, if_neg (by omega), if_neg (by omega), if_pos rfl]
              rfl
            · exact (hrep.2 c (ht2 c hc)).congr fun y hy => body_congr (hkid c (ht2 c hc) y hy)) (by
        intro y hy
        simp only [t'] at hy
        rw [addrs_kids] at hy
        simp only [AT.top, AT.kids, tw', List.flatMap_append, List.flatMap_cons, List.mem_cons, List.mem_append] at hy
        rcases hy with hy | hy | hy | hy
        · exact .inr (by omega)
        · obtain ⟨c, hc, hy⟩ := List.mem_flatMap.1 hy
          left
          rw [addrs_kids]
          exact List.mem_cons_of_mem _ (List.mem_flatMap.2 ⟨c, ht1 c hc, hy⟩)
        · simp only [addrs, List.mem_singleton] at hy
          exact .inr (by omega)
        · obtain ⟨c, hc, hy⟩ := List.mem_flatMap.1 hy
          left
          rw [addrs_kids]
          exact List.mem_cons_of_mem _ (List.mem_flatMap.2 ⟨c, ht2 c hc, hy⟩)) (by
        simp only
        rw [hfrt', hfrt]) (by
        simp only
        rw [hext'.nodup_iff, List.nodup_cons, List.nodup_cons]
        refine ⟨?_, ?_, hexnd⟩
        · intro hy
          rcases List.mem_cons.1 hy with hy | hy
          · omega
          · have := (hexlt _ hy).1; omega
        · intro hy
          have := (hexlt _ hy).1; omega) (by
        intro y hy
        simp only at hy
        rw [hext'.mem_iff, List.mem_cons, List.mem_cons] at hy
        rw [hext]
        rcases hy with hy | hy | hy
        · exact .inr (by omega)
        · exact .inr (by omega)
        · exact .inl (by simp [hy])) (by
        intro y
        simp only
        rw [hext'.mem_iff, hext, hob3]
        simp only [List.mem_cons]
        by_cases c1 : y = s.mem.next + 1
        · simp [c1]
        · by_cases c2 : y = a
          · subst c2
            have h3 : y ∉ tw.flatMap (ex s.mem.flag) := fun hy => (hexlt y hy).2.1 rfl
            have h4 : ¬ y = s.mem.next := by omega
            simp [c1, h3, h4]
          · by_cases c3 : y = s.mem.next
            · simp [c3]; omega
            · rw [if_neg c1, if_neg c2, if_neg c3]
              simp only [c1, c2, c3, false_or]
              constructor
              · intro hy
                by_cases c4 : y ∈ tw.flatMap (ex s.mem.flag)
                · exact .inl c4
                · exact .inr ⟨hy, c4⟩
              · rintro (hy | hy)
                · refine p3.alloc y ?_
                  rw [addrs_kids]
                  exact List.mem_cons_of_mem _ (hexlt y hy).2.2
                · exact hy.1) (by
        simp only [m3, Mem.alloc]; omega) (by
        intro y hy
        simp only at hy
        rw [hext'.mem_iff, List.mem_cons, List.mem_cons] at hy
        have : m3.next = s.mem.next + 2 := by simp only [m3, Mem.alloc]; omega
        simp only [this]
        rcases hy with hy | hy | hy
        · omega
        · omega
        · have := (hexlt _ hy).1; omega) (by
        intro y hy
        simp only [m3, Mem.alloc, Mem.upd, l2] at hy
        rcases List.mem_cons.1 hy with hy | hy
        · right; rw [hext]; simp [hy]
        · exact .inl hy) (by rw [hpl]; exact hlen) (by rw [hpl]; exact hwf)
    refine ⟨s', t', ?_, o1, w1, i1, hpl⟩
    unfold addChild
    rw [if_neg hb]
    simp only
    rw [show (s.mem.alloc (Body.key key)).1.twigs a = .ok (tw.map AT.node) by unfold Mem.twigs; rw [hoa]]
    simp only [Res.bind_ok]
    unfold Mem.realloc
    rw [hoa]
    simp only
    rw [e2]
    simp only [Res.bind_ok]
    rw [← e1]
    have hnode : tw'.map AT.node = (tw.map AT.node).take off ++ .leaf s.mem.next v :: (tw.map AT.node).drop off := by
      simp [tw', AT.node, List.map_take, List.map_drop]
    simp only [t', AT.node, m3, hnode]
    congr 2

theorem splitNode_ok {s : St V} {To : Option (AT V)} {t : AT V} {idiff tbit kbit : Nat} {C : List (Frame V)}
    {key : Key} {v : V} {r : Trie.Node V}
    (h : Inv s To (some (plugA t C))) (hC : ∀ f ∈ C, s.mem.flag f.a = false)
    (hf : Trie.splitNode (erase t) idiff tbit kbit (.leaf key v) = .ok r)
    (hlen : s.new.weight + 1 = (Trie.toList (Trie.plug r (pathOf t C))).length)
    (hwf : Trie.WF (Trie.plug r (pathOf t C))) :
    ∃ s' t', splitNode { s with mem := (s.mem.alloc (.key key)).1 } (hole C) t.node idiff tbit kbit (.leaf s.mem.next v) = .ok s' ∧
      s'.old = s.old ∧ s'.new.weight = s.new.weight ∧
      Inv { s' with new := { s'.new with weight := s.new.weight + 1 } } To (some (plugA t' C)) ∧
      erase (plugA t' C) = Trie.plug r (pathOf t C) := by
  obtain ⟨p1, p2, p3⟩ := h.parts
  have hlt : ∀ y ∈ addrs t, y < s.mem.next := fun y hy => h.fresh y (p3.alloc y hy)
  have hnd : (addrs t).Nodup := by
    have hn := h.nodupNew
    simp only [addrsO] at hn
    rw [(addrs_plug _ C).nodup_iff, List.nodup_append] at hn
    exact hn.2.1
  -- both orders of the children
  have main : ∀ kids : List (AT V), (kids = [t, .leaf s.mem.next key v] ∨ kids = [.leaf s.mem.next key v, t]) →
      r = .branch idiff (2 ^ tbit ||| 2 ^ kbit) (kids.map erase) →
      ∃ s', store { s with mem := ((s.mem.alloc (.key key)).1.alloc (.twigs (kids.map AT.node))).1 } (hole C)
          (.branch idiff (2 ^ tbit ||| 2 ^ kbit) (s.mem.next + 1)) = .ok s' ∧
        s'.old = s.old ∧ s'.new.weight = s.new.weight ∧
        Inv { s' with new := { s'.new with weight := s.new.weight + 1 } } To
          (some (plugA (.branch (s.mem.next + 1) idiff (2 ^ tbit ||| 2 ^ kbit) kids) C)) ∧
        erase (plugA (.branch (s.mem.next + 1) idiff (2 ^ tbit ||| 2 ^ kbit) kids) C) = Trie.plug r (pathOf t C) := by
    intro kids hkids hr
    let t' : AT V := .branch (s.mem.next + 1) idiff (2 ^ tbit ||| 2 ^ kbit) kids
    have het' : erase t' = r := by rw [hr]; simp [t', erase, eraseL_eq]
    have hpl : erase (plugA t' C) = Trie.plug r (pathOf t C) := by rw [← plug_path t' t C, het']
    let m3 := ((s.mem.alloc (.key key)).1.alloc (.twigs (kids.map AT.node))).1
    have hob3 : ∀ y, m3.obj y = if y = s.mem.next + 1 then some ⟨false, .twigs (kids.map AT.node)⟩
        else if y = s.mem.next then some ⟨false, .key key⟩ else s.mem.obj y := fun y => rfl
    have hkeep : ∀ y, y < s.mem.next → m3.obj y = s.mem.obj y := by
      intro y h2
      rw [hob3, if_neg (by omega), if_neg (by omega)]
    have hf3 : m3.flag (s.mem.next + 1) = false := by unfold Mem.flag; rw [hob3, if_pos rfl]; rfl
    have hfN : m3.flag s.mem.next = false := by
      unfold Mem.flag; rw [hob3, if_neg (by omega), if_pos rfl]; rfl
    have hfrt := fr_congr (M := s.mem.flag) (M' := m3.flag) (t := t) fun y hy => flag_congr (hkeep y (hlt y hy))
    have hext := ex_congr (M := s.mem.flag) (M' := m3.flag) (t := t) fun y hy => flag_congr (hkeep y (hlt y hy))
    have hfrt' : fr m3.flag t' = fr s.mem.flag t := by
      rw [fr_eq]
      simp only [t', AT.top, AT.kids, hf3, Bool.false_eq_true, if_false]
      have hl : fr m3.flag (AT.leaf s.mem.next key v) = [] := by simp [fr, hfN]
      rcases hkids with e | e <;> subst e <;> simp [hfrt, hl]
    have hext' : List.Perm (ex m3.flag t') ((s.mem.next + 1) :: s.mem.next :: ex s.mem.flag t) := by
      rw [ex_eq]
      simp only [t', AT.top, AT.kids, hf3, Bool.false_eq_true, if_false]
      have hl : ex m3.flag (AT.leaf s.mem.next key v) = [s.mem.next] := by simp [ex, hfN]
      refine List.Perm.cons _ ?_
      rcases hkids with e | e <;> subst e <;> simp [hext, hl]
    have hexnd : (ex s.mem.flag t).Nodup := by
      have hd := (addrs_split s.mem.flag t).nodup_iff.1 hnd
      exact (List.nodup_append.1 hd).1
    have hexlt : ∀ y ∈ ex s.mem.flag t, y < s.mem.next := fun y hy => hlt y (ex_sub hy)
    obtain ⟨s', e1, o1, w1, i1⟩ := finish (s := s) (s0 := { s with mem := m3 }) (t' := t')
      (w := s.new.weight + 1) h hC rfl rfl (fun y h1 _ => hkeep y h1) (by
        have hl : Rep m3 (AT.leaf s.mem.next key v) := by
          rw [rep_iff]
          refine ⟨?_, by simp [AT.kids]⟩
          simp only [AT.top, AT.body]
          unfold Mem.body
          rw [hob3, if_neg (by omega), if_pos rfl]
          rfl
        have ht : Rep m3 t := p3.congr fun y hy => body_congr (hkeep y (hlt y hy))
        rw [rep_iff]
        constructor
        · simp only [t', AT.top, AT.body]
          unfold Mem.body
          rw [hob3, if_pos rfl]
          rfl
        · intro c hc
          simp only [t', AT.kids] at hc
          rcases hkids with e | e <;> subst e <;> simp only [List.mem_cons, List.not_mem_nil, or_false] at hc <;>
            rcases hc with hc | hc <;> subst hc <;> assumption) (by
        intro y hy
        simp only [t'] at hy
        rw [addrs_kids] at hy
        simp only [AT.top, AT.kids] at hy
        rcases hkids with e | e <;> subst e <;> simp only [List.flatMap_cons, List.flatMap_nil, List.append_nil, addrs,
          List.mem_cons, List.mem_append, List.not_mem_nil, or_false] at hy <;> rcases hy with hy | hy | hy <;>
          first | exact .inl hy | exact .inr (by omega)) (by
        simp only
        rw [hfrt']) (by
        simp only
        rw [hext'.nodup_iff, List.nodup_cons, List.nodup_cons]
        refine ⟨?_, ?_, hexnd⟩
        · intro hy
          rcases List.mem_cons.1 hy with hy | hy
          · omega
          · have := hexlt _ hy; omega
        · intro hy
          have := hexlt _ hy; omega) (by
        intro y hy
        simp only at hy
        rw [hext'.mem_iff, List.mem_cons, List.mem_cons] at hy
        rcases hy with hy | hy | hy
        · exact .inr (by omega)
        · exact .inr (by omega)
        · exact .inl hy) (by
        intro y
        simp only
        rw [hext'.mem_iff, hob3]
        simp only [List.mem_cons]
        by_cases c1 : y = s.mem.next + 1
        · simp [c1]
        · by_cases c3 : y = s.mem.next
          · simp [c3]
          · rw [if_neg c1, if_neg c3]
            simp only [c1, c3, false_or]
            constructor
            · intro hy
              by_cases c4 : y ∈ ex s.mem.flag t
              · exact .inl c4
              · exact .inr ⟨hy, c4⟩
            · rintro (hy | hy)
              · exact p3.alloc y (ex_sub hy)
              · exact hy.1) (by
        simp only [m3, Mem.alloc]; omega) (by
        intro y hy
        simp only at hy
        rw [hext'.mem_iff, List.mem_cons, List.mem_cons] at hy
        have : m3.next = s.mem.next + 2 := by simp only [m3, Mem.alloc]
        simp only [this]
        rcases hy with hy | hy | hy
        · omega
        · omega
        · have := hexlt _ hy; omega) (fun y hy => .inl hy) (by rw [hpl]; exact hlen) (by rw [hpl]; exact hwf)
    exact ⟨s', e1, o1, w1, i1, hpl⟩
  unfold Trie.splitNode at hf
  dsimp only at hf
  unfold splitNode
  dsimp only
  split at hf
  · rename_i c1 c2
    injection hf with hf
    rw [c1, c2]
    obtain ⟨s', e1, o1, w1, i1, r1⟩ := main [t, .leaf s.mem.next key v] (.inl rfl) (by rw [← hf]; simp [erase])
    exact ⟨s', _, e1, o1, w1, i1, r1⟩
  · rename_i c1 c2
    injection hf with hf
    rw [c1, c2]
    obtain ⟨s', e1, o1, w1, i1, r1⟩ := main [.leaf s.mem.next key v, t] (.inr rfl) (by rw [← hf]; simp [erase])
    exact ⟨s', _, e1, o1, w1, i1, r1⟩
  · cases hf

end Knot.Cow
