import Verif.Prelude
/-!
# Model of the binary heap and the binary search macro
(src/contrib/ucw/heap.c, heap.h, binsearch.h)

Heap elements are identified by a number (their address). The array `data` and the `pos` field of
the elements are functions. `lt a b` stands for `cmp(a, b) < 0`. Allocation does not fail.
-/
namespace Knot.Heap

/-- `struct heap`, together with the `pos` fields of all elements. Source: src/contrib/ucw/heap.h:19-30. -/
structure H where
  num : Nat
  maxSize : Nat
  data : Nat → Nat
  pos : Nat → Nat

def upd (f : Nat → Nat) (a v : Nat) : Nat → Nat := fun x => if x = a then v else f x

/-- `heap_init`. Source: src/contrib/ucw/heap.c:50-60. -/
def init (initSize : Nat) (data pos : Nat → Nat) : H :=
  ⟨0, if initSize ≠ 0 then initSize else 512, data, pos⟩

/-- `heap_swap` of the slots `i` and `j`. Source: src/contrib/ucw/heap.c:39-48. -/
def swap (h : H) (i j : Nat) : H :=
  if i = j then h
  else
    let tmp := h.data i
    let data := upd (upd h.data i (h.data j)) j tmp
    let p := h.pos (data i)
    let pos := upd h.pos (data i) (h.pos (data j))
    { h with data := data, pos := upd pos (data j) p }

/-- `_heap_bubble_down`. The loop is entered with `e ≥ 1` only (with 0 the C loop would not end).
Source: src/contrib/ucw/heap.c:68-80. -/
def bubbleDown (lt : Nat → Nat → Bool) (h : H) (e : Nat) : H :=
  if e = 0 then h
  else if 2 * e > h.num then h
  else if lt (h.data e) (h.data (2 * e)) && (2 * e == h.num || lt (h.data e) (h.data (2 * e + 1))) then h
  else
    let e1 := if (2 * e != h.num && lt (h.data (2 * e + 1)) (h.data (2 * e))) then 2 * e + 1 else 2 * e
    bubbleDown lt (swap h e e1) e1
termination_by h.num - e
decreasing_by
  rename_i h0 h1 h2
  have hn : ∀ i j, (swap h i j).num = h.num := by
    intro i j; unfold swap; split <;> rfl
  simp only [hn]
  split <;> omega

/-- `_heap_bubble_up`. Source: src/contrib/ucw/heap.c:82-91. -/
def bubbleUp (lt : Nat → Nat → Bool) (h : H) (e : Nat) : H :=
  if e > 1 then
    if lt (h.data (e / 2)) (h.data e) then h
    else bubbleUp lt (swap h e (e / 2)) (e / 2)
  else h
termination_by e

/-- `heap_replace`. Slots outside of the heap are undefined behaviour.
Source: src/contrib/ucw/heap.c:93-103. -/
def replace (lt : Nat → Nat → Bool) (h : H) (p e : Nat) : Res H :=
  if p = 0 ∨ p > h.num then .ub
  else
    let h := { h with data := upd h.data p e, pos := upd h.pos e p }
    .ok (if p == 1 || lt (h.data (p / 2)) e then bubbleDown lt h p else bubbleUp lt h p)

/-- `heap_delmin`. Source: src/contrib/ucw/heap.c:105-114. -/
def delmin (lt : Nat → Nat → Bool) (h : H) : H :=
  if h.num = 0 then h
  else
    let h := if h.num > 1 then swap h 1 h.num else h
    let h := { h with pos := upd h.pos (h.data h.num) 0 }
    let h := { h with num := h.num - 1 }
    bubbleDown lt h 1

/-- `heap_insert`. Writing outside of the allocated array is undefined behaviour.
Source: src/contrib/ucw/heap.c:116-131. -/
def insert (lt : Nat → Nat → Bool) (h : H) (e : Nat) : Res H :=
  let h := if h.num = h.maxSize then { h with maxSize := h.maxSize * 2 } else h
  let h := { h with num := h.num + 1 }
  if h.num > h.maxSize then .ub
  else
    let h := { h with data := upd h.data h.num e, pos := upd h.pos e h.num }
    .ok (bubbleUp lt h h.num)

/-- `heap_find`. Source: src/contrib/ucw/heap.c:133-136. -/
def find (h : H) (e : Nat) : Nat := h.pos e

/-- `heap_delete`. Slots outside of the heap are undefined behaviour.
Source: src/contrib/ucw/heap.c:138-153. -/
def delete (lt : Nat → Nat → Bool) (h : H) (e : Nat) : Res H :=
  if e = 0 ∨ e > h.num then .ub
  else
    let h := swap h e h.num
    let h := { h with pos := upd h.pos (h.data h.num) 0 }
    let h := { h with num := h.num - 1 }
    let h := if lt (h.data e) (h.data (h.num + 1)) then bubbleUp lt h e else bubbleDown lt h e
    .ok (if h.num > 512 ∧ h.num < h.maxSize / 2 then { h with maxSize := h.maxSize / 2 } else h)

/-- The loop of `BIN_SEARCH_FIRST_GE_CMP` on indices `l`, `r`; `p i` is `ary_lt_x(ary, i, x)`.
The index arithmetic `(l + r) / 2` on `unsigned` does not wrap for `r ≤ 2^31`.
Source: src/contrib/ucw/binsearch.h:23-34. -/
def binSearch (p : Nat → Bool) (l r : Nat) : Nat :=
  if l < r then
    if p ((l + r) / 2) then binSearch p ((l + r) / 2 + 1) r else binSearch p l ((l + r) / 2)
  else l
termination_by r - l

/-- `BIN_SEARCH_FIRST_GE`. Source: src/contrib/ucw/binsearch.h:44. -/
def firstGe (ary : List Nat) (x : Nat) : Nat := binSearch (fun i => decide (ary.getD i 0 < x)) 0 ary.length

/-- `BIN_SEARCH_EQ` (`none` is -1). Source: src/contrib/ucw/binsearch.h:50. -/
def searchEq (ary : List Nat) (x : Nat) : Option Nat :=
  let i := firstGe ary x
  if i ≥ ary.length ∨ ary.getD i 0 ≠ x then none else some i

end Knot.Heap
