import Verif.Queue.Model
/-!
# C23: the worker queue is a FIFO queue (pointer-level refinement)
-/
namespace Knot
open Queue

namespace Queue

/-- Consecutive nodes point to each other. -/
def Linked (m : Mem) : List Nat → Prop
  | a :: b :: t => m.next a = b ∧ m.prev b = a ∧ Linked m (b :: t)
  | _ => True

/-- The memory holds a well-formed doubly linked list `l` with the nodes `xs`. -/
structure Rep (m : Mem) (l : LList) (xs : List Nat) : Prop where
  linked : Linked m (l.head :: xs ++ [l.tail])
  first : m.prev l.head = 0
  last : m.next l.tail = 0
  nodup : (l.head :: xs ++ [l.tail]).Nodup
  nonnull : 0 ∉ l.head :: xs ++ [l.tail]

theorem linked_append (m : Mem) (A : List Nat) (p : Nat) (B : List Nat) :
    Linked m (A ++ p :: B) ↔ Linked m (A ++ [p]) ∧ Linked m (p :: B) := by
  induction A with
  | nil => simp [Linked]
  | cons a A ih =>
    cases A with
    | nil => simp [Linked]; grind
    | cons b A =>
      simp only [List.cons_append, Linked] at ih ⊢
      rw [ih]
      grind

theorem linked_frame_left (m m' : Mem) (A : List Nat) (p : Nat) (h : Linked m (A ++ [p]))
    (hn : ∀ x ∈ A, m'.next x = m.next x) (hp : ∀ x, (x ∈ A ∨ x = p) → m'.prev x = m.prev x) :
    Linked m' (A ++ [p]) := by
  induction A with
  | nil => simp [Linked]
  | cons a A ih =>
    cases A with
    | nil =>
      simp only [List.cons_append, List.nil_append, Linked] at h ⊢
      exact ⟨by rw [hn a (by simp)]; exact h.1, by rw [hp p (by simp)]; exact h.2.1, trivial⟩
    | cons b A =>
      simp only [List.cons_append, Linked] at h ih ⊢
      refine ⟨by rw [hn a (by simp)]; exact h.1, by rw [hp b (by simp)]; exact h.2.1, ?_⟩
      exact ih h.2.2 (fun x hx => hn x (by simp [hx])) (fun x hx => hp x (by
        rcases hx with hx | hx
        · left; simp [hx]
        · right; exact hx))

theorem linked_frame_right (m m' : Mem) (q : Nat) (B : List Nat) (h : Linked m (q :: B))
    (hn : ∀ x, (x ∈ B ∨ x = q) → m'.next x = m.next x) (hp : ∀ x ∈ B, m'.prev x = m.prev x) :
    Linked m' (q :: B) := by
  induction B generalizing q with
  | nil => simp [Linked]
  | cons b B ih =>
    simp only [Linked] at h ⊢
    refine ⟨by rw [hn q (by simp)]; exact h.1, by rw [hp b (by simp)]; exact h.2.1, ?_⟩
    exact ih b h.2.2 (fun x hx => hn x (by simp; grind)) (fun x hx => hp x (by simp [hx]))

/-- Linking a new node `n` between `p` and `q`. -/
theorem linked_insert (m m' : Mem) (A B : List Nat) (p q n : Nat) (h : Linked m (A ++ p :: q :: B))
    (hd : (A ++ p :: q :: B).Nodup) (hn : n ∉ A ++ p :: q :: B)
    (h1 : ∀ x, m'.next x = if x = n then q else if x = p then n else m.next x)
    (h2 : ∀ x, m'.prev x = if x = n then p else if x = q then n else m.prev x) :
    Linked m' (A ++ p :: n :: q :: B) := by
  rw [linked_append] at h ⊢
  obtain ⟨hA, hB⟩ := h
  simp only [Linked] at hB ⊢
  simp only [List.nodup_append, List.nodup_cons, List.mem_cons, List.mem_append] at hd hn
  refine ⟨?_, by rw [h1]; grind, by rw [h2]; grind, by rw [h1]; grind, by rw [h2]; grind, ?_⟩
  · refine linked_frame_left m m' A p hA ?_ ?_
    · intro x hx; rw [h1]; grind
    · intro x hx; rw [h2]; grind
  · refine linked_frame_right m m' q B hB.2.2 ?_ ?_
    · intro x hx; rw [h1]; grind
    · intro x hx; rw [h2]; grind

/-- Unlinking the node `n` between `p` and `q`. -/
theorem linked_remove (m m' : Mem) (A B : List Nat) (p q n : Nat) (h : Linked m (A ++ p :: n :: q :: B))
    (hd : (A ++ p :: n :: q :: B).Nodup)
    (h1 : ∀ x, m'.next x = if x = n then 0 else if x = p then q else m.next x)
    (h2 : ∀ x, m'.prev x = if x = n then 0 else if x = q then p else m.prev x) :
    Linked m' (A ++ p :: q :: B) := by
  rw [linked_append] at h ⊢
  obtain ⟨hA, hB⟩ := h
  simp only [Linked] at hB ⊢
  simp only [List.nodup_append, List.nodup_cons, List.mem_cons] at hd
  refine ⟨?_, by rw [h1]; grind, by rw [h2]; grind, ?_⟩
  · refine linked_frame_left m m' A p hA ?_ ?_
    · intro x hx; rw [h1]; grind
    · intro x hx; rw [h2]; grind
  · refine linked_frame_right m m' q B hB.2.2.2.2 ?_ ?_
    · intro x hx; rw [h1]; grind
    · intro x hx; rw [h2]; grind

theorem linked_neighbours (m : Mem) (A B : List Nat) (p q : Nat) (h : Linked m (A ++ p :: q :: B)) :
    m.next p = q ∧ m.prev q = p := by
  rw [linked_append] at h
  exact ⟨h.2.1, h.2.2.1⟩

/-- The last node before the tail. -/
theorem split_tail (l : LList) (xs : List Nat) : ∃ A p, l.head :: xs = A ++ [p] :=
  ⟨(l.head :: xs).dropLast, (l.head :: xs).getLast (by simp), (List.dropLast_concat_getLast (by simp)).symm⟩

theorem walk_rep (m : Mem) (l : LList) (xs : List Nat) (n : Nat) (h : Linked m (n :: xs ++ [l.tail]))
    (h0 : 0 ∉ n :: xs ++ [l.tail]) (hl : m.next l.tail = 0) (fuel : Nat) (hf : xs.length + 1 < fuel) :
    walk m fuel n = .ok (n :: xs) := by
  induction xs generalizing n fuel with
  | nil =>
    obtain ⟨f, rfl⟩ : ∃ f, fuel = f + 2 := ⟨fuel - 2, by simp at hf; omega⟩
    simp only [List.cons_append, List.nil_append, Linked, List.mem_cons] at h h0
    have e1 : n ≠ 0 := by grind
    have e2 : l.tail ≠ 0 := by grind
    simp [walk, Mem.getNext, e1, e2, h.1, hl]
  | cons b xs ih =>
    obtain ⟨f, rfl⟩ : ∃ f, fuel = f + 1 := ⟨fuel - 1, by omega⟩
    simp only [List.cons_append, Linked, List.mem_cons] at h h0
    have e1 : n ≠ 0 := by grind
    have e2 : b ≠ 0 := by grind
    have := ih b h.2.2 (by simp only [List.cons_append, List.mem_cons]; grind) f (by simp at hf; omega)
    simp [walk, Mem.getNext, e1, e2, h.1, this]

end Queue

/-- C23 (linked list). `init_list` creates the empty list. -/
theorem C23_init (m : Mem) (l : LList) (h : l.head ≠ l.tail) (h1 : l.head ≠ 0) (h2 : l.tail ≠ 0) :
    ∃ m', initList m l = .ok m' ∧ Rep m' l [] ∧ m'.data = m.data := by
  have h' : l.tail ≠ l.head := Ne.symm h
  refine ⟨{ m with next := setAt (setAt m.next l.head l.tail) l.tail 0,
                   prev := setAt (setAt m.prev l.head 0) l.tail l.head }, ?_, ⟨?_, ?_, ?_, ?_, ?_⟩, rfl⟩
  · simp [initList, Mem.setNext, Mem.setPrev, h1, h2]
  · simp [Linked, setAt, h]
  · simp [setAt, h]
  · simp [setAt]
  · simp [h]
  · simp; exact ⟨Ne.symm h1, Ne.symm h2⟩

/-- C23 (linked list). `add_tail` appends a new node. -/
theorem C23_add_tail (m : Mem) (l : LList) (xs : List Nat) (n : Nat) (h : Rep m l xs) (h0 : n ≠ 0)
    (hn : n ∉ l.head :: xs ++ [l.tail]) :
    ∃ m', addTail m l n = .ok m' ∧ Rep m' l (xs ++ [n]) ∧ m'.data = m.data := by
  obtain ⟨A, p, hA⟩ := split_tail l xs
  have hlk := h.linked
  have hnd := h.nodup
  have hnn := h.nonnull
  rw [hA, List.append_assoc, List.singleton_append] at hlk hnd hn hnn
  obtain ⟨e1, e2⟩ := linked_neighbours m A [] p l.tail hlk
  simp only [List.nodup_append, List.nodup_cons, List.mem_cons, List.mem_append] at hn hnn hnd
  have t0 : l.tail ≠ 0 := by grind
  have p0 : p ≠ 0 := by grind
  have nt : l.tail ≠ n := by grind
  have np : p ≠ n := by grind
  have pt : p ≠ l.tail := by grind
  refine ⟨{ m with next := setAt (setAt m.next n l.tail) p n,
                   prev := setAt (setAt m.prev n p) l.tail n }, ?_, ⟨?_, ?_, ?_, ?_, ?_⟩, rfl⟩
  · have := h.last
    simp [addTail, Mem.setNext, Mem.setPrev, Mem.getPrev, Mem.getNext, h0, t0, p0, e2, setAt, nt, Ne.symm pt, this]
  · have he : l.head :: (xs ++ [n]) ++ [l.tail] = A ++ p :: n :: l.tail :: [] := by
      rw [← List.cons_append, hA]; simp
    rw [he]
    refine linked_insert m _ A [] p l.tail n hlk ?_ ?_ ?_ ?_
    · have := h.nodup; rw [hA, List.append_assoc, List.singleton_append] at this; exact this
    · simp only [List.mem_append, List.mem_cons]; exact hn
    · intro x; simp only [setAt]; grind
    · intro x; simp only [setAt]; grind
  · have hh : l.head ≠ l.tail ∧ l.head ≠ n := by
      have h1 := h.nodup
      have : l.head ∈ A ++ [p] := by rw [← hA]; simp
      simp only [List.mem_append, List.mem_cons] at this
      grind
    simp [setAt, hh.1, hh.2, h.first]
  · simp [setAt, Ne.symm pt, nt, h.last]
  · have h1 := h.nodup
    rw [hA] at h1
    rw [← List.cons_append, hA]
    simp only [List.nodup_append, List.nodup_cons, List.mem_cons, List.mem_append] at h1 ⊢
    grind
  · have h1 := h.nonnull
    rw [hA] at h1
    rw [← List.cons_append, hA]
    simp only [List.mem_append, List.mem_cons] at h1 ⊢
    grind

/-- C23 (linked list). `add_head` prepends a new node. -/
theorem C23_add_head (m : Mem) (l : LList) (xs : List Nat) (n : Nat) (h : Rep m l xs) (h0 : n ≠ 0)
    (hn : n ∉ l.head :: xs ++ [l.tail]) :
    ∃ m', addHead m l n = .ok m' ∧ Rep m' l (n :: xs) ∧ m'.data = m.data := by
  obtain ⟨q, B, hB⟩ : ∃ q B, xs ++ [l.tail] = q :: B := by
    cases xs with
    | nil => exact ⟨_, _, rfl⟩
    | cons a t => exact ⟨_, _, rfl⟩
  have hlk := h.linked
  have hnd := h.nodup
  have hnn := h.nonnull
  have hta : l.tail ∈ q :: B := by rw [← hB]; simp
  rw [List.cons_append, hB] at hlk hnd hn hnn
  obtain ⟨e1, e2⟩ := linked_neighbours m [] B l.head q hlk
  simp only [List.nodup_cons, List.mem_cons] at hn hnn hnd hta
  have hd0 : l.head ≠ 0 := by grind
  have q0 : q ≠ 0 := by grind
  have nh : l.head ≠ n := by grind
  have nq : q ≠ n := by grind
  have hq : l.head ≠ q := by grind
  have htl : l.tail ≠ n ∧ l.tail ≠ l.head := by grind
  refine ⟨{ m with next := setAt (setAt m.next n q) l.head n,
                   prev := setAt (setAt m.prev n l.head) q n }, ?_, ⟨?_, ?_, ?_, ?_, ?_⟩, rfl⟩
  · have := h.first
    simp [addHead, Mem.setNext, Mem.setPrev, Mem.getPrev, Mem.getNext, h0, hd0, q0, e1, setAt, nh, hq, this]
  · rw [List.cons_append, List.cons_append, hB]
    refine linked_insert m _ [] B l.head q n hlk ?_ ?_ ?_ ?_
    · have := h.nodup; rw [List.cons_append, hB] at this; exact this
    · simp only [List.nil_append, List.mem_cons]; exact hn
    · intro x; simp only [setAt]; grind
    · intro x; simp only [setAt]; grind
  · simp [setAt, hq, nh, h.first]
  · simp [setAt, htl.1, htl.2, h.last]
  · rw [List.cons_append, List.cons_append, hB]
    simp only [List.nodup_cons, List.mem_cons]
    grind
  · rw [List.cons_append, List.cons_append, hB]
    simp only [List.mem_cons]
    grind

/-- C23 (linked list). `insert_node` puts a new node behind a given one. -/
theorem C23_insert (m : Mem) (l : LList) (xs ys : List Nat) (a n : Nat) (h : Rep m l (xs ++ a :: ys))
    (h0 : n ≠ 0) (hn : n ∉ l.head :: (xs ++ a :: ys) ++ [l.tail]) :
    ∃ m', insertNode m n a = .ok m' ∧ Rep m' l (xs ++ a :: n :: ys) ∧ m'.data = m.data := by
  obtain ⟨q, B, hB⟩ : ∃ q B, ys ++ [l.tail] = q :: B := by
    cases ys with
    | nil => exact ⟨_, _, rfl⟩
    | cons a t => exact ⟨_, _, rfl⟩
  have hlk := h.linked
  have hnd := h.nodup
  have hnn := h.nonnull
  have hta : l.tail ∈ q :: B := by rw [← hB]; simp
  have hre : ∀ zs, l.head :: (xs ++ a :: zs) ++ [l.tail] = (l.head :: xs) ++ a :: (zs ++ [l.tail]) := by simp
  rw [hre, hB] at hlk hnd hn hnn
  obtain ⟨e1, e2⟩ := linked_neighbours m (l.head :: xs) B a q hlk
  simp only [List.nodup_append, List.nodup_cons, List.mem_cons, List.mem_append] at hn hnn hnd hta
  have a0 : a ≠ 0 := by grind
  have q0 : q ≠ 0 := by grind
  refine ⟨{ m with next := setAt (setAt m.next n q) a n,
                   prev := setAt (setAt m.prev n a) q n }, ?_, ⟨?_, ?_, ?_, ?_, ?_⟩, rfl⟩
  · simp [insertNode, Mem.setNext, Mem.setPrev, Mem.getNext, h0, a0, q0, e1, setAt]
  · rw [hre, show (n :: ys) ++ [l.tail] = n :: (ys ++ [l.tail]) from rfl, hB]
    refine linked_insert m _ (l.head :: xs) B a q n hlk ?_ ?_ ?_ ?_
    · have := h.nodup; rw [hre, hB] at this; exact this
    · simp only [List.mem_append, List.mem_cons]; exact hn
    · intro x; simp only [setAt]; grind
    · intro x; simp only [setAt]; grind
  · have := h.first; simp only [setAt]; grind
  · have := h.last; simp only [setAt]; grind
  · rw [hre, show (n :: ys) ++ [l.tail] = n :: (ys ++ [l.tail]) from rfl, hB]
    simp only [List.nodup_append, List.nodup_cons, List.mem_cons]
    grind
  · rw [hre, show (n :: ys) ++ [l.tail] = n :: (ys ++ [l.tail]) from rfl, hB]
    simp only [List.mem_append, List.mem_cons]
    grind

/-- C23 (linked list). `rem_node` takes out exactly the given node, anywhere in the list. -/
theorem C23_rem_node (m : Mem) (l : LList) (xs ys : List Nat) (n : Nat) (h : Rep m l (xs ++ n :: ys)) :
    ∃ m', remNode m n = .ok m' ∧ Rep m' l (xs ++ ys) ∧ m'.data = m.data := by
  obtain ⟨q, B, hB⟩ : ∃ q B, ys ++ [l.tail] = q :: B := by
    cases ys with
    | nil => exact ⟨_, _, rfl⟩
    | cons a t => exact ⟨_, _, rfl⟩
  obtain ⟨A, p, hA⟩ := split_tail l xs
  have hlk := h.linked
  have hnd := h.nodup
  have hnn := h.nonnull
  have hta : l.tail ∈ q :: B := by rw [← hB]; simp
  have hha : l.head ∈ A ++ [p] := by rw [← hA]; simp
  have hre : l.head :: (xs ++ n :: ys) ++ [l.tail] = A ++ p :: n :: q :: B := by
    rw [← hB]
    have : l.head :: (xs ++ n :: ys) ++ [l.tail] = (l.head :: xs) ++ n :: (ys ++ [l.tail]) := by simp
    rw [this, hA]; simp
  have hre2 : l.head :: (xs ++ ys) ++ [l.tail] = A ++ p :: q :: B := by
    rw [← hB]
    have : l.head :: (xs ++ ys) ++ [l.tail] = (l.head :: xs) ++ (ys ++ [l.tail]) := by simp
    rw [this, hA]; simp
  rw [hre] at hlk hnd hnn
  have e1 := linked_neighbours m A (q :: B) p n hlk
  have e2 := linked_neighbours m (A ++ [p]) B n q (by simpa using hlk)
  have hnd' := hnd
  simp only [List.nodup_append, List.nodup_cons, List.mem_cons, List.mem_append] at hnn hnd hta hha
  have n0 : n ≠ 0 := by grind
  have p0 : p ≠ 0 := by grind
  have q0 : q ≠ 0 := by grind
  refine ⟨{ m with next := setAt (setAt m.next p q) n 0,
                   prev := setAt (setAt m.prev q p) n 0 }, ?_, ⟨?_, ?_, ?_, ?_, ?_⟩, rfl⟩
  · simp [remNode, Mem.setNext, Mem.setPrev, Mem.getNext, Mem.getPrev, n0, p0, q0, e1.2, e2.1]
  · rw [hre2]
    refine linked_remove m _ A B p q n hlk hnd' ?_ ?_
    · intro x; simp only [setAt]
    · intro x; simp only [setAt]
  · have := h.first; simp only [setAt]; grind
  · have := h.last; simp only [setAt]; grind
  · rw [hre2]
    simp only [List.nodup_append, List.nodup_cons, List.mem_cons]
    grind
  · rw [hre2]
    simp only [List.mem_append, List.mem_cons]
    grind

/-- C23 (linked list). Walking the list visits exactly its nodes in order, and so the size is the
number of nodes. -/
theorem C23_size (m : Mem) (l : LList) (xs : List Nat) (h : Rep m l xs) (fuel : Nat)
    (hf : xs.length < fuel) : listSize m l fuel = .ok xs.length := by
  have hlk := h.linked
  have hnn := h.nonnull
  cases xs with
  | nil =>
    obtain ⟨f, rfl⟩ : ∃ f, fuel = f + 1 := ⟨fuel - 1, by omega⟩
    simp only [List.cons_append, List.nil_append, Linked, List.mem_cons] at hlk hnn
    have e1 : l.head ≠ 0 := by grind
    have e2 : l.tail ≠ 0 := by grind
    simp [listSize, Mem.getNext, e1, hlk.1, walk, e2, h.last]
  | cons a t =>
    simp only [List.cons_append, Linked, List.mem_cons] at hlk hnn
    have e1 : l.head ≠ 0 := by grind
    have := walk_rep m l t a hlk.2.2 (by simp only [List.cons_append, List.mem_cons]; grind) h.last fuel
      (by simpa using hf)
    simp [listSize, Mem.getNext, e1, hlk.1, this]

namespace Queue

/-- One request to the queue. An enqueue carries the address the allocator returned. -/
inductive Op where
  | enqueue (task addr : Nat)
  | dequeue

/-- The specification: a FIFO list of tasks (null tasks are refused). Answers of the dequeue
requests are collected; 0 means that the queue was empty. -/
def fifo : List Nat → List Op → List Nat × List Nat
  | q, [] => ([], q)
  | q, .enqueue t _ :: os => fifo (if t = 0 then q else q ++ [t]) os
  | [], .dequeue :: os => let r := fifo [] os; (0 :: r.1, r.2)
  | t :: q, .dequeue :: os => let r := fifo q os; (t :: r.1, r.2)

/-- Run a history on the pointer structure, collecting the answers of the dequeue requests. -/
def run (m : Mem) (l : LList) : List Op → Res (List Nat × Mem)
  | [] => .ok ([], m)
  | .enqueue t a :: os => do let m ← Queue.enqueue m l t a; run m l os
  | .dequeue :: os => do
    let (t, m) ← Queue.dequeue m l
    let (r, m) ← run m l os
    .ok (t :: r, m)

/-- The allocator never returns null or an address of a live node: along the history, with `xs` the
live nodes. -/
def AllocOk (l : LList) : List Nat → List Op → Prop
  | _, [] => True
  | xs, .enqueue t a :: os =>
    if t = 0 then AllocOk l xs os
    else a ≠ 0 ∧ a ≠ l.head ∧ a ≠ l.tail ∧ a ∉ xs ∧ AllocOk l (xs ++ [a]) os
  | xs, .dequeue :: os => AllocOk l xs.tail os

end Queue

/-- C23. Every history of enqueue and dequeue requests on a fresh queue answers exactly like a FIFO
queue: tasks come out in the order they were enqueued, each exactly once; nothing is lost, and the
list structure stays well-formed. -/
theorem C23_fifo (m : Mem) (l : LList) (hne : l.head ≠ l.tail) (h1 : l.head ≠ 0) (h2 : l.tail ≠ 0)
    (ops : List Queue.Op) (ha : AllocOk l [] ops) :
    ∃ m0 m' xs, initList m l = .ok m0 ∧ run m0 l ops = .ok ((fifo [] ops).1, m') ∧
      Rep m' l xs ∧ xs.map m'.data = (fifo [] ops).2 := by
  have gen : ∀ (ops : List Queue.Op) (m : Mem) (xs : List Nat), Rep m l xs → AllocOk l xs ops →
      (∀ x ∈ xs, m.data x ≠ 0) →
      ∃ m' xs', run m l ops = .ok ((fifo (xs.map m.data) ops).1, m') ∧ Rep m' l xs' ∧
        xs'.map m'.data = (fifo (xs.map m.data) ops).2 := by
    intro ops
    induction ops with
    | nil => intro m xs h _ _; exact ⟨m, xs, rfl, h, rfl⟩
    | cons o os ih =>
      intro m xs h ha hd
      cases o with
      | enqueue t a =>
        by_cases ht : t = 0
        · simp only [AllocOk, ht, if_true] at ha
          obtain ⟨m', xs', g1, g2, g3⟩ := ih m xs h ha hd
          refine ⟨m', xs', ?_, g2, ?_⟩
          · simp [run, Queue.enqueue, ht, fifo, g1]
          · simp [fifo, ht, g3]
        · simp only [AllocOk, if_neg ht] at ha
          obtain ⟨a0, ah, at', ax, ha⟩ := ha
          have h' : Rep { m with data := setAt m.data a t } l xs := ⟨by
            have := h.linked
            have key : ∀ L, Linked m L → Linked { m with data := setAt m.data a t } L := by
              intro L
              induction L with
              | nil => intro _; trivial
              | cons x L ihL =>
                cases L with
                | nil => intro _; trivial
                | cons y L => intro hL; exact ⟨hL.1, hL.2.1, ihL hL.2.2⟩
            exact key _ this, h.first, h.last, h.nodup, h.nonnull⟩
          obtain ⟨m1, e1, e2, e3⟩ := C23_add_tail { m with data := setAt m.data a t } l xs a h' a0 (by
            simp only [List.cons_append, List.mem_cons, List.mem_append]; grind)
          have hdat : (xs ++ [a]).map m1.data = xs.map m.data ++ [t] := by
            rw [e3]
            simp only [List.map_append, List.map_cons, List.map_nil, setAt, if_true]
            congr 1
            apply List.map_congr_left
            intro x hx
            simp only [setAt]
            rw [if_neg (by rintro rfl; exact ax hx)]
          obtain ⟨m', xs', g1, g2, g3⟩ := ih m1 (xs ++ [a]) e2 ha (by
            intro x hx
            rw [e3]
            simp only [setAt]
            split
            · exact ht
            · rename_i hxa
              exact hd x (by simp only [List.mem_append, List.mem_singleton] at hx; grind))
          rw [hdat] at g1 g3
          refine ⟨m', xs', ?_, g2, ?_⟩
          · simp [run, Queue.enqueue, ht, ptrlistAdd, e1, fifo, g1]
          · simp [fifo, ht, g3]
      | dequeue =>
        have hlk := h.linked
        have hnn := h.nonnull
        cases xs with
        | nil =>
          simp only [List.cons_append, List.nil_append, Linked, List.mem_cons] at hlk hnn
          have n1 : l.head ≠ 0 := by grind
          have n2 : l.tail ≠ 0 := by grind
          have hq : Queue.dequeue m l = .ok (0, m) := by
            simp [Queue.dequeue, isEmpty, Mem.getNext, n1, n2, hlk.1, h.last]
          simp only [AllocOk, List.tail_nil] at ha
          obtain ⟨m', xs', g1, g2, g3⟩ := ih m [] h ha hd
          refine ⟨m', xs', ?_, g2, ?_⟩
          · simp only [List.map_nil] at g1
            simp [run, hq, fifo, g1]
          · simpa [fifo] using g3
        | cons x xs =>
          obtain ⟨m1, e1, e2, e3⟩ := C23_rem_node m l [] xs x (by simpa using h)
          have hx0 : ∃ y L, xs ++ [l.tail] = y :: L ∧ y ≠ 0 := by
            cases xs with
            | nil => exact ⟨_, _, rfl, by simp only [List.cons_append, List.nil_append, List.mem_cons] at hnn; grind⟩
            | cons y t => exact ⟨_, _, rfl, by simp only [List.cons_append, List.mem_cons] at hnn; grind⟩
          obtain ⟨y, L, hy, hy0⟩ := hx0
          simp only [List.cons_append, hy, Linked, List.mem_cons] at hlk hnn
          have n1 : l.head ≠ 0 := by grind
          have n2 : x ≠ 0 := by grind
          have hq : Queue.dequeue m l = .ok (m.data x, m1) := by
            simp [Queue.dequeue, isEmpty, Mem.getNext, n1, n2, hlk.1, hlk.2.2.1, hy0, e1]
          simp only [AllocOk, List.tail_cons] at ha
          rw [List.nil_append] at e2
          obtain ⟨m', xs', g1, g2, g3⟩ := ih m1 xs e2 ha (by
            intro z hz; rw [e3]; exact hd z (by simp [hz]))
          rw [e3] at g1 g3
          refine ⟨m', xs', ?_, g2, ?_⟩
          · simp [run, hq, fifo, g1]
          · simpa [fifo] using g3
  obtain ⟨m0, e1, e2, e3⟩ := C23_init m l hne h1 h2
  obtain ⟨m', xs, g1, g2, g3⟩ := gen ops m0 [] e2 ha (by simp)
  exact ⟨m0, m', xs, e1, g1, g2, g3⟩

example : AllocOk ⟨1, 2⟩ [] [.enqueue 70 3, .enqueue 71 4, .dequeue, .enqueue 72 3, .dequeue, .dequeue, .dequeue] := by
  simp [AllocOk]
example : (fifo [] [.enqueue 70 3, .enqueue 71 4, .dequeue, .enqueue 72 3, .dequeue, .dequeue, .dequeue]).1
    = [70, 71, 72, 0] := by decide

end Knot
