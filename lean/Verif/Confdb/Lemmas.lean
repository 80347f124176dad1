import Verif.Confdb.Spec
namespace Knot.Confdb

/-! The store -/

theorem find_remove (d : Db) (k k' : Bytes) : find (remove d k) k' = if k' = k then none else find d k' := by
  unfold find remove
  induction d with
  | nil => split <;> rfl
  | cons p d ih =>
    rw [List.filter_cons]
    by_cases hp : p.1 = k
    · have : (p.1 != k) = false := by simp [hp]
      rw [this]
      simp only [Bool.false_eq_true, if_false]
      rw [ih]
      split
      · rfl
      · rename_i hk
        rw [List.find?_cons]
        have : (p.1 == k') = false := by
          rw [hp]; exact beq_eq_false_iff_ne.2 (fun e => hk e.symm)
        rw [this]
    · have : (p.1 != k) = true := by simpa using hp
      rw [this]
      simp only [if_true]
      rw [List.find?_cons, List.find?_cons]
      by_cases hk : p.1 = k'
      · have : (p.1 == k') = true := by simp [hk]
        rw [this]
        have : k' ≠ k := by rw [← hk]; exact hp
        simp [this]
      · have : (p.1 == k') = false := beq_eq_false_iff_ne.2 hk
        rw [this]
        exact ih

theorem find_insert (d : Db) (k v k' : Bytes) : find (insert d k v) k' = if k' = k then some v else find d k' := by
  unfold insert
  have h : find ((k, v) :: remove d k) k' = if k = k' then some v else find (remove d k) k' := by
    unfold find
    rw [List.find?_cons]
    by_cases hk : k = k'
    · simp [hk]
    · have : (k == k') = false := beq_eq_false_iff_ne.2 hk
      simp [this, hk]
  rw [h, find_remove]
  by_cases hk : k' = k
  · simp [hk]
  · have : k ≠ k' := fun e => hk e.symm
    simp [hk, this]

/-- Each key once. -/
def Uniq (d : Db) : Prop := (d.map (·.1)).Nodup

theorem uniq_remove {d : Db} (h : Uniq d) (k : Bytes) : Uniq (remove d k) :=
  List.Nodup.sublist (List.Sublist.map _ List.filter_sublist) h

theorem uniq_insert {d : Db} (h : Uniq d) (k v : Bytes) : Uniq (insert d k v) := by
  unfold Uniq insert
  rw [List.map_cons, List.nodup_cons]
  refine ⟨?_, uniq_remove h k⟩
  intro hm
  obtain ⟨p, hp, he⟩ := List.mem_map.1 hm
  have := (List.mem_filter.1 hp).2
  dsimp only at he
  rw [he] at this
  simp at this

theorem find_of_mem {d : Db} (h : Uniq d) {p : Bytes × Bytes} (hp : p ∈ d) : find d p.1 = some p.2 := by
  induction d with
  | nil => cases hp
  | cons q d ih =>
    unfold Uniq at h
    rw [List.map_cons, List.nodup_cons] at h
    unfold find
    rw [List.find?_cons]
    rcases List.mem_cons.1 hp with e | hp
    · subst e; simp
    · have hne : (q.1 == p.1) = false := by
        rw [beq_eq_false_iff_ne]
        intro e
        exact h.1 (List.mem_map.2 ⟨p, hp, e.symm⟩)
      rw [hne]
      exact ih h.2 hp

theorem mem_of_find {d : Db} {k v : Bytes} (h : find d k = some v) : (k, v) ∈ d := by
  unfold find at h
  rw [Option.map_eq_some_iff] at h
  obtain ⟨p, hp, rfl⟩ := h
  have h1 := List.find?_some hp
  have h2 := List.mem_of_find?_eq_some hp
  have : p.1 = k := by simpa using h1
  rw [← this]; exact h2

/-! Arrays of values -/

/-- The octets of an array. -/
def enc : List Bytes → Bytes
  | [] => []
  | v :: l => len16 v.length ++ v ++ enc l

/-- Values that fit in the length. -/
def Short (l : List Bytes) : Prop := ∀ v ∈ l, v.length ≤ 65535

theorem len16_val {n : Nat} (h : n ≤ 65535) :
    (UInt8.ofNat (n / 256)).toNat * 256 + (UInt8.ofNat n).toNat = n := by
  simp only [UInt8.toNat_ofNat']
  omega

theorem enc_append (l m : List Bytes) : enc (l ++ m) = enc l ++ enc m := by
  induction l with
  | nil => rfl
  | cons v l ih => simp only [List.cons_append, enc, ih, List.append_assoc]

theorem enc_length (l : List Bytes) : (enc l).length = space true l := by
  induction l with
  | nil => rfl
  | cons v l ih =>
    simp only [space] at ih
    simp only [enc, List.length_append, len16, List.length_cons, List.length_nil, space, List.map_cons, List.sum_cons, ih]
    simp

theorem enc_cons (v : Bytes) (l : List Bytes) :
    enc (v :: l) = UInt8.ofNat (v.length / 256) :: UInt8.ofNat v.length :: (v ++ enc l) := by
  simp [enc, len16]

theorem values_enc {l : List Bytes} (h : Short l) : values (enc l) = l := by
  induction l with
  | nil => rw [enc, values]; intro a b r e; cases e
  | cons v l ih =>
    have hv := h v (.head _)
    rw [enc_cons, values, len16_val hv]
    rw [List.take_left, List.drop_left, ih (fun x hx => h x (.tail _ hx))]

theorem findData_enc {v : Bytes} {l : List Bytes} (h : Short l) (off : Nat) :
    findData v off (enc l) = if v ∈ l then some (off + space true (l.take (l.idxOf v))) else none := by
  induction l generalizing off with
  | nil => rw [enc, findData]; rfl; intro a b r e; cases e
  | cons w l ih =>
    have hw := h w (.head _)
    rw [enc_cons, findData, len16_val hw, List.take_left, List.drop_left]
    by_cases he : w = v
    · subst he
      simp [space]
    · have hne : ¬ (w.length = v.length ∧ w = v) := fun e => he e.2
      rw [if_neg hne, ih (fun x hx => h x (.tail _ hx))]
      have hb : (w == v) = false := beq_eq_false_iff_ne.2 he
      have hiff : v ∈ w :: l ↔ v ∈ l := by
        constructor
        · intro hm
          rcases List.mem_cons.1 hm with e | hm
          · exact absurd e.symm he
          · exact hm
        · exact List.mem_cons_of_mem w
      by_cases hm : v ∈ l
      · rw [if_pos hm, if_pos (hiff.2 hm)]
        rw [List.idxOf_cons, hb]
        simp only [cond_false, List.take_succ_cons, space, if_true, List.map_cons, List.sum_cons]
        congr 1
        omega
      · rw [if_neg hm, if_neg (fun e => hm (hiff.1 e))]

theorem cut_enc {v : Bytes} {l : List Bytes} (hv : v ∈ l) :
    cutData (enc l) (space true (l.take (l.idxOf v))) v.length = enc (l.erase v) := by
  induction l with
  | nil => cases hv
  | cons w l ih =>
    by_cases he : w = v
    · subst he
      rw [List.erase_cons_head]
      unfold cutData
      have : space true ((w :: l).take ((w :: l).idxOf w)) = 0 := by simp [space]
      rw [this, List.take_zero, List.nil_append, enc_cons]
      rw [show 0 + 2 + w.length = w.length + 1 + 1 by omega, List.drop_succ_cons, List.drop_succ_cons, List.drop_left]
    · have hb : (w == v) = false := beq_eq_false_iff_ne.2 he
      have hm : v ∈ l := by
        rcases List.mem_cons.1 hv with e | hm
        · exact absurd e.symm he
        · exact hm
      rw [List.erase_cons_tail (by simpa using he)]
      rw [List.idxOf_cons, hb]
      simp only [cond_false, List.take_succ_cons]
      have hsp : space true (w :: l.take (l.idxOf v)) = w.length + space true (l.take (l.idxOf v)) + 1 + 1 := by
        simp only [space, if_true, List.map_cons, List.sum_cons]; omega
      rw [hsp]
      unfold cutData at ih ⊢
      rw [enc_cons, enc_cons, List.take_succ_cons, List.take_succ_cons]
      rw [show w.length + space true (l.take (l.idxOf v)) + 1 + 1 + 2 + v.length =
        w.length + (space true (l.take (l.idxOf v)) + 2 + v.length) + 1 + 1 by omega]
      rw [List.drop_succ_cons, List.drop_succ_cons, List.take_length_add_append, List.drop_length_add_append,
        List.cons_append, List.cons_append, List.append_assoc, ih hm]

theorem enc_eq_nil {l : List Bytes} : enc l = [] ↔ l = [] := by
  cases l with
  | nil => simp [enc]
  | cons v l => simp [enc_cons]

theorem space_erase {v : Bytes} {l : List Bytes} (hv : v ∈ l) :
    space true (l.erase v) + 2 + v.length = space true l := by
  induction l with
  | nil => cases hv
  | cons w l ih =>
    by_cases he : w = v
    · subst he
      rw [List.erase_cons_head]
      simp only [space, if_true, List.map_cons, List.sum_cons]; omega
    · have hm : v ∈ l := by
        rcases List.mem_cons.1 hv with e | hm
        · exact absurd e.symm he
        · exact hm
      rw [List.erase_cons_tail (by simpa using he)]
      have := ih hm
      simp only [space, if_true, List.map_cons, List.sum_cons] at this ⊢; omega

end Knot.Confdb
