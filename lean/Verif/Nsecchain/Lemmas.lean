import Verif.Nsecchain.Spec
import Verif.Bitmap.Props
import Verif.Dname.Props
/-!
# Lemmas: creating the chain
-/
namespace Knot.Nsecchain
open Dname (Name lowerName canonCmp)

theorem put_same (h : Heap) (x : Name) (n : Node) : put h x n x = n := by simp [put]
theorem put_other {h : Heap} {x y : Name} {n : Node} (hne : y ≠ x) : put h x n y = h y := by simp [put, hne]
theorem put_self (h : Heap) (x : Name) : put h x (h x) = h := by
  funext y
  simp only [put]
  split
  · next e => rw [e]
  · rfl

theorem createNsec_eq {n : Node} (ht : ∀ t ∈ n.types, t < 65536) (x : Name) :
    createNsec n x = (x, Bitmap.encode (listed n)) := by
  unfold createNsec
  rw [← List.foldl_append, C18_write]
  · congr 2
    funext t
    simp only [listed, bitmapTypes, Bool.false_and, Bool.false_eq_true, if_false, List.append_nil, List.mem_append,
      List.mem_filter, List.mem_cons, List.not_mem_nil, or_false]
    congr 1
    cases n.deleg <;> simp <;> grind
  · intro t h
    simp only [bitmapTypes, Bool.false_and, Bool.false_eq_true, if_false, List.append_nil, List.mem_append,
      List.mem_filter, List.mem_cons, List.not_mem_nil, or_false] at h
    rcases h with h | rfl | rfl
    · exact ht t h.1
    · omega
    · omega

theorem removeNsec_same (n : Node) : SameData n (removeNsec n) := by
  refine ⟨rfl, rfl, rfl, ?_, ?_⟩
  · intro t ht
    simp only [removeNsec] at ht
    split at ht <;> exact (List.mem_filter.mp ht).1
  · intro t ht h7 h0
    simp only [removeNsec]
    split <;> simp [List.mem_filter, ht, h7, h0]

theorem SameData.refl (n : Node) : SameData n n := ⟨rfl, rfl, rfl, fun _ h => h, fun _ h _ _ => h⟩

theorem setNext_same (ttl : Nat) (n : Node) (x : Name) : SameData n (setNext ttl n x) := by
  unfold setNext
  simp only
  split
  · exact ⟨rfl, rfl, rfl, fun _ h => h, fun _ h _ _ => h⟩
  · split
    · exact SameData.refl n
    · exact removeNsec_same n

theorem listed_congr {n n' : Node} (ht : n'.types = n.types) (hd : n'.deleg = n.deleg) : listed n' = listed n := by
  funext t; simp only [listed, ht, hd]

/-- A node that points to another. -/
def Points (ttl : Nat) (n : Node) (x : Name) : Prop :=
  ∃ t, n.nsec = [(t, Bitmap.encode (listed n))] ∧ lowerName t = x ∧ n.ttl = ttl

theorem setNext_points {ttl : Nat} {n : Node} (ht : ∀ t ∈ n.types, t < 65536) {x : Name} (hx : lowerName x = x) :
    Points ttl (setNext ttl n x) x := by
  have hl := listed_congr (setNext_same ttl n x).1 (setNext_same ttl n x).2.2.1
  unfold Points
  rw [hl]
  have hc := createNsec_eq ht x
  unfold setNext
  simp only [hc]
  split
  · exact ⟨x, rfl, hx, rfl⟩
  · split
    · next h =>
      obtain ⟨h1, h2⟩ := h
      match hn : n.nsec with
      | [] => rw [hn] at h1; simp at h1
      | [r] =>
        rw [hn] at h1
        simp only [List.map_cons, List.map_nil, List.cons.injEq, Prod.mk.injEq, and_true] at h1
        exact ⟨r.1, by rw [← h1.2], h1.1, h2⟩
      | r :: r' :: l => rw [hn] at h1; simp at h1
    · exact ⟨x, rfl, hx, rfl⟩

/-- Pointing already, nothing is done. -/
theorem setNext_id {ttl : Nat} {n : Node} (ht : ∀ t ∈ n.types, t < 65536) {x : Name} (h : Points ttl n x) :
    setNext ttl n x = n := by
  obtain ⟨t, h1, h2, h3⟩ := h
  have hc := createNsec_eq ht x
  unfold setNext
  simp only [hc, h1, h3, List.map_cons, List.map_nil, h2]
  simp

/-- Signatures of NSEC stay only if it stays. -/
theorem setNext_sigs {ttl : Nat} {n : Node} {x : Name} (hm : 47 ∈ (setNext ttl n x).sigs) :
    setNext ttl n x = n ∨ n.nsec = [] := by
  unfold setNext at hm ⊢
  simp only at hm ⊢
  split
  · next h => exact .inr h
  · next hne =>
    rw [if_neg hne] at hm
    split
    · exact .inl rfl
    · next hno =>
      rw [if_neg hno] at hm
      exfalso
      simp only [removeNsec] at hm
      split at hm
      · simp [List.mem_filter] at hm
      · next h47 => exact h47 (List.mem_filter.mp hm).1

/-- A node made clean. -/
def clean (n : Node) : Node := if n.nsec = [] then n else removeNsec n

theorem clean_same (n : Node) : SameData n (clean n) := by
  unfold clean
  split
  · exact SameData.refl n
  · exact removeNsec_same n

theorem clean_nsec (n : Node) : (clean n).nsec = [] := by
  unfold clean
  split
  · assumption
  · rfl

def NoBareAt (n : Node) : Prop := n.nonauth = false → n.types = [] → n.nsec = [] → n.sigs = []

theorem NoBare.at {names : List Name} {h : Heap} (hb : NoBare names h) {x : Name} (hx : x ∈ names) : NoBareAt (h x) := by
  intro h1 h2 h3
  cases hs : (h x).sigs with
  | nil => rfl
  | cons t l => exact absurd h3 (hb x hx h1 h2 t (by simp [hs])).2

theorem connect_spec (ttl : Nat) (h : Heap) (a b : Name) (hb : NoBareAt (h b)) :
    connect ttl h a b = if Auth (h b) then (put h a (setNext ttl (h a) b), false) else (put h b (clean (h b)), true) := by
  unfold connect
  by_cases ha : Auth (h b)
  · rw [if_pos ha]
    obtain ⟨h1, h2⟩ := ha
    rw [if_neg (by simp [h1, onlyNsec, h2])]
    rw [if_neg (by
      simp only [h1, count, not_or, Bool.false_eq_true, not_false_eq_true, and_true]
      have := List.length_pos_iff.mpr h2
      omega)]
  · rw [if_neg ha]
    by_cases hn : (h b).nsec = []
    · rw [if_neg (by simp [hn])]
      have hcl : clean (h b) = h b := by simp [clean, hn]
      rw [hcl, put_self, if_pos]
      by_cases hna : (h b).nonauth = true
      · exact .inr hna
      · left
        have hna : (h b).nonauth = false := by simpa using hna
        have ht : (h b).types = [] := by
          by_cases ht : (h b).types = []
          · exact ht
          · exact absurd ⟨hna, ht⟩ ha
        have := hb hna ht hn
        simp [count, ht, hn, this]
    · rw [if_pos]
      · simp [clean, hn]
      · refine ⟨hn, ?_⟩
        by_cases hna : (h b).nonauth = true
        · exact .inl hna
        · right
          have hna : (h b).nonauth = false := by simpa using hna
          by_cases ht : (h b).types = []
          · simp [onlyNsec, ht]
          · exact absurd ⟨hna, ht⟩ ha

/-- The nodes of the chain. -/
def members (h : Heap) (l : List Name) : List Name := l.filter (fun x => decide (Auth (h x)))

theorem createLoop_spec (ttl : Nat) : ∀ (l : List Name) (h : Heap) (prev cur : Name) (skip : Bool),
    (prev :: l).Nodup → (∀ x ∈ l, NoBareAt (h x)) → (skip = false → cur = prev) →
    ∃ h' last cur' skip', createLoop ttl h prev cur skip l = (h', last, cur', skip') ∧
      (skip' = false → cur' = last) ∧ (prev :: members h l).getLast? = some last ∧
      (∀ x, x ∉ prev :: l → h' x = h x) ∧ (∀ x ∈ l, ¬ Auth (h x) → h' x = clean (h x)) ∧
      (∀ A x y B, prev :: members h l = A ++ x :: y :: B → h' x = setNext ttl (h x) y) ∧ h' last = h last := by
  intro l
  induction l with
  | nil =>
    intro h prev cur skip _ _ hs
    refine ⟨h, prev, cur, skip, rfl, hs, rfl, fun _ _ => rfl, by simp, ?_, rfl⟩
    intro A x y B hA
    have := congrArg List.length hA
    simp [members] at this
    omega
  | cons c l ih =>
    intro h prev cur skip hnd hnb hs
    simp only [List.nodup_cons, List.mem_cons, not_or] at hnd
    obtain ⟨⟨hpc, hpl⟩, hcl, hndl⟩ := hnd
    rw [createLoop, connect_spec ttl h prev c (hnb c (by simp))]
    by_cases ha : Auth (h c)
    · rw [if_pos ha]
      simp only [Bool.false_eq_true, if_false]
      generalize hh1 : put h prev (setNext ttl (h prev) c) = h1
      have hsame : ∀ x, x ≠ prev → h1 x = h x := fun x hx => by rw [← hh1]; exact put_other hx
      have hmem : members h1 l = members h l := by
        apply List.filter_congr
        intro x hx
        rw [hsame x (fun e => hpl (e ▸ hx))]
      obtain ⟨h', last, cur', skip', e1, e2, e3, e4, e5, e6, e7⟩ := ih h1 c c false
        (by simp [hcl, hndl]) (fun x hx => by rw [hsame x (fun e => hpl (e ▸ hx))]; exact hnb x (by simp [hx]))
        (fun _ => rfl)
      have hm : members h (c :: l) = c :: members h l := by simp [members, ha]
      refine ⟨h', last, cur', skip', e1, e2, ?_, ?_, ?_, ?_, ?_⟩
      · rw [hm, List.getLast?_cons_cons, ← hmem]; exact e3
      · intro x hx
        simp only [List.mem_cons, not_or] at hx
        rw [e4 x (by simp [hx]), hsame x hx.1]
      · intro x hx hna
        rcases List.mem_cons.mp hx with q | q
        · rw [q] at hna; exact absurd ha hna
        · have hxp : x ≠ prev := fun e => hpl (e ▸ q)
          rw [e5 x q (by rw [hsame x hxp]; exact hna), hsame x hxp]
      · intro A x y B hA
        rw [hm] at hA
        cases A with
        | nil =>
          simp only [List.nil_append, List.cons.injEq] at hA
          obtain ⟨rfl, rfl, _⟩ := hA
          rw [e4 prev (by simp [hpc, hpl]), ← hh1, put_same]
        | cons a A =>
          simp only [List.cons_append, List.cons.injEq] at hA
          obtain ⟨rfl, hA⟩ := hA
          rw [← hmem] at hA
          have hx : x ∈ c :: l := by
            have : x ∈ c :: members h1 l := by rw [hA]; simp
            rcases List.mem_cons.mp this with q | q
            · simp [q]
            · exact List.mem_cons_of_mem _ (List.mem_filter.mp q).1
          have hxp : x ≠ prev := by
            intro e
            rcases List.mem_cons.mp hx with q | q
            · exact hpc (e ▸ q)
            · exact hpl (e ▸ q)
          rw [e6 A x y B hA, hsame x hxp]
      · have hx : last ∈ c :: members h1 l := List.mem_of_getLast? e3
        have hxp : last ≠ prev := by
          intro e
          rcases List.mem_cons.mp hx with q | q
          · exact hpc (e ▸ q)
          · exact hpl (e ▸ (List.mem_filter.mp q).1)
        rw [e7, hsame last hxp]
    · rw [if_neg ha]
      simp only [if_true]
      generalize hh1 : put h c (clean (h c)) = h1
      have hsame : ∀ x, x ≠ c → h1 x = h x := fun x hx => by rw [← hh1]; exact put_other hx
      have hmem : members h1 l = members h l := by
        apply List.filter_congr
        intro x hx
        rw [hsame x (fun e => hcl (e ▸ hx))]
      obtain ⟨h', last, cur', skip', e1, e2, e3, e4, e5, e6, e7⟩ := ih h1 prev c true
        (by simp [hpl, hndl]) (fun x hx => by rw [hsame x (fun e => hcl (e ▸ hx))]; exact hnb x (by simp [hx]))
        (by simp)
      have hm : members h (c :: l) = members h l := by simp [members, ha]
      rw [hmem] at e3 e6
      have hne : ∀ x ∈ prev :: members h l, x ≠ c := by
        intro x hx e
        rcases List.mem_cons.mp hx with q | q
        · exact hpc (q ▸ e)
        · exact hcl (e ▸ (List.mem_filter.mp q).1)
      refine ⟨h', last, cur', skip', e1, e2, by rw [hm]; exact e3, ?_, ?_, ?_, ?_⟩
      · intro x hx
        simp only [List.mem_cons, not_or] at hx
        rw [e4 x (by simp [hx]), hsame x hx.2.1]
      · intro x hx hna
        rcases List.mem_cons.mp hx with q | q
        · rw [q, e4 c (by simp [Ne.symm hpc, hcl]), ← hh1, put_same]
        · have hxp : x ≠ c := fun e => hcl (e ▸ q)
          rw [e5 x q (by rw [hsame x hxp]; exact hna), hsame x hxp]
      · intro A x y B hA
        rw [hm] at hA
        rw [e6 A x y B hA, hsame x (hne x (by rw [hA]; simp))]
      · rw [e7, hsame last (hne last (List.mem_of_getLast? e3))]

/-- Going round a list. -/
theorem round_cases {l : List Name} {a : Name} {i : Nat} {x y : Name} (hx : (a :: l)[i]? = some x)
    (hy : (a :: l)[(i + 1) % (a :: l).length]? = some y) :
    (∃ A B, a :: l = A ++ x :: y :: B) ∨ ((a :: l).getLast? = some x ∧ y = a) := by
  have hi : i < (a :: l).length := (List.getElem?_eq_some_iff.mp hx).1
  have hx' : (a :: l)[i] = x := (List.getElem?_eq_some_iff.mp hx).2
  by_cases hlast : i + 1 < (a :: l).length
  · left
    rw [Nat.mod_eq_of_lt hlast] at hy
    have hy' : (a :: l)[i + 1] = y := (List.getElem?_eq_some_iff.mp hy).2
    refine ⟨(a :: l).take i, (a :: l).drop (i + 2), ?_⟩
    rw [← hx', ← hy', ← List.drop_eq_getElem_cons hlast, ← List.drop_eq_getElem_cons hi, List.take_append_drop]
  · right
    have he : i + 1 = (a :: l).length := by omega
    rw [he, Nat.mod_self] at hy
    refine ⟨?_, by simpa using hy.symm⟩
    rw [List.getLast?_eq_getElem?, ← he]
    simpa using hx

end Knot.Nsecchain
