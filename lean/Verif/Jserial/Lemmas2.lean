import Verif.Jserial.Lemmas
import Verif.Jserial.Spec
import Verif.Rdataset.Lemmas
/-!
# Lemmas: reading chunks
-/
namespace Knot.Jserial
open WireCtx (beBytes beVal length_beBytes beVal_beBytes)
open Rdataset (Canon Less)

/-- A position from which the given parts are read. -/
def At (p : Pos) (l : List Bytes) : Prop :=
  ∃ (g0 : List Bytes) (g : List (List Bytes)), p = (g0.flatten, g.map List.flatten) ∧ (∀ x ∈ g, x ≠ []) ∧ g0 ++ g.flatten = l

theorem available_cons {p : Pos} {x : Bytes} {l : List Bytes} (h : At p (x :: l)) (hne : x ≠ []) :
    ∃ w ps, available p = some (x ++ w, ps) ∧ At (w, ps) l := by
  obtain ⟨g0, g, rfl, hg, he⟩ := h
  cases g0 with
  | nil =>
    cases g with
    | nil => simp at he
    | cons y g =>
      have hy := hg y (by simp)
      cases y with
      | nil => exact absurd rfl hy
      | cons z y =>
        simp only [List.nil_append, List.flatten_cons, List.cons_append, List.cons.injEq] at he
        refine ⟨y.flatten, g.map List.flatten, ?_, y, g, rfl, fun q hq => hg q (by simp [hq]), he.2⟩
        simp [available, he.1]
  | cons z g0 =>
    simp only [List.cons_append, List.cons.injEq] at he
    refine ⟨g0.flatten, g.map List.flatten, ?_, g0, g, rfl, hg, he.2⟩
    rw [available, if_neg (by rw [List.flatten_cons, he.1]; simp [hne]), List.flatten_cons, he.1]

theorem available_nil {p : Pos} (h : At p []) : available p = none := by
  obtain ⟨g0, g, rfl, hg, he⟩ := h
  obtain ⟨h1, h2⟩ := List.append_eq_nil_iff.mp he
  rw [h1]
  cases g with
  | nil => simp [available]
  | cons y g =>
    have hy := hg y (by simp)
    simp only [List.flatten_cons, List.append_eq_nil_iff] at h2
    exact absurd h2.1 hy

theorem readNum_be {n v : Nat} (w : Bytes) (h : v < 256 ^ n) : readNum n (beBytes n v ++ w) = .ok (v, w) := by
  have hl := length_beBytes n v
  rw [readNum, if_neg (by simp [hl])]
  rw [List.take_append_of_le_length (by omega), List.drop_append_of_le_length (by omega)]
  rw [List.take_of_length_le (by omega), List.drop_of_length_le (by omega), beVal_beBytes, Nat.mod_eq_of_lt h]
  rfl

theorem insertRd_last : ∀ {l : List Bytes} {x : Bytes}, (∀ y ∈ l, Less y x) → Changeset.insertRd x l = l ++ [x] := by
  intro l
  induction l with
  | nil => intro x _; rfl
  | cons y l ih =>
    intro x h
    rw [Changeset.insertRd, Rdataset.cmp_gt_iff.mpr (h y (by simp)), ih (fun z hz => h z (by simp [hz]))]
    rfl

theorem getD_mem {l : List Bytes} {k : Nat} (h : k < l.length) : l.getD k [] ∈ l := by
  rw [List.getD_eq_getElem?_getD, List.getElem?_eq_getElem h]
  exact List.getElem_mem h

theorem insertRd_take {l : List Bytes} (hc : Canon l) {k : Nat} (h : k < l.length) :
    Changeset.insertRd (l.getD k []) (l.take k) = l.take (k + 1) := by
  have e : l.getD k [] = l[k] := by simp [List.getElem?_eq_getElem h]
  rw [e, insertRd_last, List.take_succ_eq_append_getElem h]
  intro y hy
  obtain ⟨i, hi, rfl⟩ := List.mem_iff_getElem.mp hy
  rw [List.getElem_take]
  rw [List.length_take] at hi
  exact List.pairwise_iff_getElem.mp hc i k (by omega) h (by omega)

theorem part_ne (r : Rr) (n : Nat) : part r n ≠ [] := by
  intro h
  have := part_length r n
  rw [h] at this
  have := partSize_pos r n
  simp at *
  omega

/-- Records are read back. -/
theorem readRecords_spec {r : Rr} (hw : Wf r) : ∀ (n k : Nat) (t : Nat) (p : Pos) (l : List Bytes),
    k + n = r.rrs.length → At p (todo r (k + 1) ++ l) → (k ≠ 0 → t = r.ttl) →
    ∃ p', readRecords n (decide (k = 0)) t (r.rrs.take k) p =
        .ok (if n = 0 then t else r.ttl, r.rrs, p') ∧ At p' l := by
  obtain ⟨_, _, _, h4, _, _, h7, h8⟩ := hw
  intro n
  induction n with
  | zero =>
    intro k t p l hk ha _
    rw [todo_end (by omega)] at ha
    refine ⟨p, ?_, ha⟩
    rw [readRecords, List.take_of_length_le (by omega)]
    rfl
  | succ n ih =>
    intro k t p l hk ha ht
    rw [todo_step (by omega), List.cons_append] at ha
    obtain ⟨w, ps, e1, e2⟩ := available_cons ha (part_ne _ _)
    obtain ⟨p', e3, e4⟩ := ih (k + 1) r.ttl (w, ps) l (by omega) e2 (fun _ => rfl)
    refine ⟨p', ?_, e4⟩
    have hlen := h7 _ (getD_mem (by omega : k < r.rrs.length))
    rw [readRecords, e1]
    simp only [part, List.append_assoc]
    rw [readNum_be _ (by simpa using h4), Res.bind_ok, readNum_be _ (by simpa using hlen), Res.bind_ok]
    rw [if_neg (by simp only [List.length_append]; omega)]
    rw [List.take_left, List.drop_left, insertRd_take h8 (by omega)]
    have htt : (if decide (k = 0) = true then r.ttl else t) = r.ttl := by
      by_cases hk0 : k = 0
      · simp [hk0]
      · simp [hk0, ht hk0]
    rw [htt]
    have : decide (k + 1 = 0) = false := by simp
    rw [this] at e3
    rw [e3]
    simp

/-- An RRset is read back. -/
theorem readRr_spec {r : Rr} (hw : Wf r) {p : Pos} {l : List Bytes} (ha : At p (todo r 0 ++ l)) :
    ∃ p', readRr p = .ok (some (r, p')) ∧ At p' l := by
  have hw' := hw
  obtain ⟨⟨n, hn, ho⟩, h2, h3, h4, h5, h6, _⟩ := hw'
  have hL : Dname.LabelsOk n := hn.1
  rw [todo_step (by omega), List.cons_append] at ha
  obtain ⟨w, ps, e1, e2⟩ := available_cons ha (part_ne _ _)
  obtain ⟨p', e3, e4⟩ := readRecords_spec hw r.rrs.length 0 0 (w, ps) l (by omega) e2 (by simp)
  refine ⟨p', ?_, e4⟩
  rw [readRr, e1]
  have hwl := Dname.wire_length n
  simp only [part, List.append_assoc]
  rw [ho, Dname.size_wire _ hL, Res.bind_ok]
  rw [if_neg (by simp only [List.length_append]; omega)]
  rw [← hwl, List.drop_left, List.take_left]
  rw [readNum_be _ (by simpa using h2), Res.bind_ok, readNum_be _ (by simpa using h3), Res.bind_ok,
    readNum_be _ (by simpa using h6), Res.bind_ok]
  simp only [decide_true, List.take_zero] at e3
  simp only
  rw [e3, Res.bind_ok, if_neg (by intro q; exact h5 (List.length_eq_zero_iff.mp q)), ← ho]

theorem readAll_spec : ∀ (l : List Rr) (fuel : Nat) (p : Pos), (∀ r ∈ l, Wf r) → At p (allParts l) → l.length < fuel →
    readAll fuel p = .ok l := by
  intro l
  induction l with
  | nil =>
    intro fuel p _ ha hf
    cases fuel with
    | zero => simp at hf
    | succ fuel => rw [readAll, readRr, available_nil ha]; rfl
  | cons r l ih =>
    intro fuel p hw ha hf
    cases fuel with
    | zero => simp at hf
    | succ fuel =>
      rw [allParts_cons] at ha
      obtain ⟨p', e1, e2⟩ := readRr_spec (hw r (by simp)) ha
      rw [readAll, e1, Res.bind_ok]
      simp only
      rw [ih fuel p' (fun q hq => hw q (by simp [hq])) e2 (by simpa using hf)]
      rfl

theorem part_le {r : Rr} (hw : Wf r) {max : Nat} (hm : Fits max) {x : Bytes} (hx : x ∈ todo r 0) : x.length ≤ max := by
  obtain ⟨⟨n, hn, ho⟩, _, _, _, _, _, h7, _⟩ := hw
  unfold Fits at hm
  simp only [todo, List.mem_map, List.drop_zero, List.mem_range] at hx
  obtain ⟨k, hk, rfl⟩ := hx
  rw [part_length]
  cases k with
  | zero =>
    have : r.owner.length ≤ 255 := by rw [ho, Dname.wire_length]; exact hn.2
    simp only [partSize]; omega
  | succ k =>
    have := h7 _ (getD_mem (by omega : k < r.rrs.length))
    simp only [partSize]; omega

/-- Writing RRsets. -/
theorem write_spec {thresh max : Nat} {junk : Nat → Bytes} (hj : ∀ n, (junk n).length = n) (hm : Fits max)
    {src : List Rr} (hw : ∀ r ∈ src, Wf r) :
    ∃ g : List (List Bytes), write thresh max junk src = .ok (g.map List.flatten) ∧ g.flatten = allParts src ∧
      ∀ x ∈ g, x ≠ [] ∧ total x ≤ max := by
  refine writeLoop_spec hj _ _ (by simp) (fun _ => rfl) ?_ ?_
  · intro x hx
    simp only [left, List.getLast?_nil, allParts, List.mem_flatMap] at hx
    obtain ⟨r, hr, hx⟩ := hx
    exact part_le (hw r hr) hm hx
  · simp only [left, List.getLast?_nil, allParts_length]
    omega

theorem splitLoop_tail (apex : Bytes) : ∀ (l : List Rr) (f : Option (Rr × List Rr)) (soa : Rr) (tree : List Rr),
    (∀ r ∈ l, isApexSoa apex r = false) →
    splitLoop apex f soa tree l = .ok ⟨f.map (·.1), (f.map (·.2)).getD [], soa, tree ++ l⟩ := by
  intro l
  induction l with
  | nil => intro f soa tree _; simp [splitLoop]
  | cons r l ih =>
    intro f soa tree h
    unfold splitLoop
    rw [if_neg (by simp [h r]), ih _ _ _ (fun q hq => h q (by simp [hq]))]
    simp

theorem splitLoop_two (apex : Bytes) {s : Rr} (hs : isApexSoa apex s = true) {a : List Rr}
    (ha : ∀ r ∈ a, isApexSoa apex r = false) :
    ∀ (l : List Rr) (soa : Rr) (tree : List Rr), (∀ r ∈ l, isApexSoa apex r = false) →
    splitLoop apex none soa tree (l ++ s :: a) = .ok ⟨some soa, tree ++ l, s, a⟩ := by
  intro l
  induction l with
  | nil =>
    intro soa tree _
    rw [List.nil_append]
    unfold splitLoop
    rw [if_pos hs]
    rw [splitLoop_tail apex a _ _ _ ha]
    simp
  | cons r l ih =>
    intro soa tree h
    rw [List.cons_append]
    unfold splitLoop
    rw [if_neg (by simp [h r]), ih _ _ (fun q hq => h q (by simp [hq]))]
    simp

/-! ## Differences -/

theorem nodeGet_mem {l : List Rr} {t : Nat} {r : Rr} (h : nodeGet l t = some r) : r ∈ l ∧ r.type = t := by
  refine ⟨List.mem_of_find?_eq_some h, ?_⟩
  have := List.find?_some h
  simpa using this

theorem nodeGet_none {l : List Rr} {t : Nat} : nodeGet l t = none ↔ ∀ r ∈ l, r.type ≠ t := by
  simp [nodeGet, List.find?_eq_none]

theorem nodeGet_eq {l : List Rr} (hn : (l.map (·.type)).Nodup) {r : Rr} (h : r ∈ l) : nodeGet l r.type = some r := by
  induction l with
  | nil => simp at h
  | cons x l ih =>
    simp only [List.map_cons, List.nodup_cons] at hn
    rcases List.mem_cons.mp h with q | q
    · rw [q]; simp [nodeGet]
    · have hne : x.type ≠ r.type := by
        intro e; exact hn.1 (e ▸ List.mem_map_of_mem q)
      have := ih hn.2 q
      simp only [nodeGet] at this ⊢
      rw [List.find?_cons_of_neg (by simpa using hne), this]

/-- What the code gives for one RRset. -/
def diffOne (n : Node) (r : Rr) : Option Rr :=
  if n.apex ∧ r.type = 6 then none
  else
    match nodeGet n.other r.type with
    | none => some r
    | some c =>
      if c.ttl = r.ttl then
        if r.rrs.all (fun x => decide (x ∈ c.rrs)) then none
        else some { r with rrs := Changeset.subtract r.rrs c.rrs }
      else some r

theorem diffOne_type {n : Node} {r r' : Rr} (h : diffOne n r = some r') : r'.type = r.type := by
  unfold diffOne at h
  split at h
  · cases h
  · split at h
    · cases h; rfl
    · split at h
      · split at h
        · cases h
        · cases h; rfl
      · cases h; rfl

theorem diffNode_get {n : Node} (hn : (n.rrs.map (·.type)).Nodup) (t : Nat) :
    nodeGet (diffNode n) t = (nodeGet n.rrs t).bind (diffOne n) := by
  have e : diffNode n = n.rrs.filterMap (diffOne n) := rfl
  rw [e]
  generalize n.rrs = l at hn ⊢
  induction l with
  | nil => rfl
  | cons x l ih =>
    simp only [List.map_cons, List.nodup_cons] at hn
    have ih := ih hn.2
    by_cases hx : x.type = t
    · have h1 : nodeGet (x :: l) t = some x := by simp [nodeGet, hx]
      have h2 : nodeGet l t = none := by
        rw [nodeGet_none]
        intro r hr q
        exact hn.1 (by rw [hx, ← q]; exact List.mem_map_of_mem hr)
      rw [h1]
      rw [h2] at ih
      cases hd : diffOne n x with
      | none => rw [List.filterMap_cons_none hd, ih, Option.bind_some, hd]; rfl
      | some x' =>
        rw [List.filterMap_cons_some hd, Option.bind_some, hd]
        have := diffOne_type hd
        simp [nodeGet, this, hx]
    · have h1 : nodeGet (x :: l) t = nodeGet l t := by
        simp only [nodeGet]; rw [List.find?_cons_of_neg (by simpa using hx)]
      rw [h1, ← ih]
      cases hd : diffOne n x with
      | none => rw [List.filterMap_cons_none hd]
      | some x' =>
        rw [List.filterMap_cons_some hd]
        have := diffOne_type hd
        simp only [nodeGet]
        rw [List.find?_cons_of_neg (by rw [this]; simpa using hx)]

end Knot.Jserial
