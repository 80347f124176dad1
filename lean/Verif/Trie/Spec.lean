import Verif.Dname.Spec
/-!
# Specification of an ordered map (independent of the trie)

A map is the list of its entries in ascending order of the keys; keys are byte strings in
lexicographic order, a proper prefix being smaller.
-/
namespace Knot.OrdMap

abbrev Key := List UInt8
variable {V : Type}

/-- Byte order of keys. -/
def keyLt (a b : Key) : Prop := Dname.lexCmp Dname.byteCmp a b = .lt

instance (a b : Key) : Decidable (keyLt a b) := inferInstanceAs (Decidable (_ = _))

/-- Strictly ascending keys. -/
def Sorted (m : List (Key × V)) : Prop := m.Pairwise (fun a b => keyLt a.1 b.1)

/-- The value stored under a key. -/
def lookup (m : List (Key × V)) (k : Key) : Option V := (m.find? (fun e => e.1 == k)).map (·.2)

/-- Store the value `w (value found)` under a key. -/
def insertWith (k : Key) (w : Option V → V) : List (Key × V) → List (Key × V)
  | [] => [(k, w none)]
  | e :: m => if e.1 = k then (k, w (some e.2)) :: m
      else if keyLt k e.1 then (k, w none) :: e :: m
      else e :: insertWith k w m

/-- Remove a key. -/
def erase (k : Key) (m : List (Key × V)) : List (Key × V) := m.filter (fun e => e.1 != k)

/-- The entries not above a key. -/
def upTo (k : Key) (m : List (Key × V)) : List (Key × V) := m.filter (fun e => decide (¬ keyLt k e.1))

/-- The last entry not above a key, with a flag telling whether it is the key itself. -/
def floor (m : List (Key × V)) (k : Key) : Option (Bool × Key × V) :=
  ((upTo k m).getLast?).map (fun e => (e.1 == k, e))

/-- The first `n` bytes of the key end with a zero byte that is not the last byte of the key, and some key in the
map begins with them (a name in the map is at or below that ancestor of the key). -/
def ClosedAt (m : List (Key × V)) (k : Key) (n : Nat) : Prop :=
  0 < n ∧ n < k.length ∧ k[n - 1]? = some 0 ∧ ∃ e ∈ m, k.take n <+: e.1

/-- The greatest such length, 0 if there is none. -/
def IsBase (m : List (Key × V)) (k : Key) (n : Nat) : Prop := (n = 0 ∨ ClosedAt m k n) ∧ ∀ n', ClosedAt m k n' → n' ≤ n

/-- Movements of a cursor. -/
inductive Move where
  | next | prev | nextLoop | prevLoop | parent
deriving DecidableEq

/-- The key is a proper beginning of the other. -/
def isProper (a b : Key) : Bool := a.isPrefixOf b && a != b

/-- Where a cursor at entry number `n` goes; `none` is past either end. `parent` is the last entry
before it whose key is a proper beginning of its key. -/
def move (m : List (Key × V)) (n : Nat) : Move → Option Nat
  | .next => if n + 1 < m.length then some (n + 1) else none
  | .prev => if n = 0 then none else some (n - 1)
  | .nextLoop => some ((n + 1) % m.length)
  | .prevLoop => some (if n = 0 then m.length - 1 else n - 1)
  | .parent => (List.range n).reverse.find? (fun j => match m[j]?, m[n]? with
      | some a, some b => isProper a.1 b.1
      | _, _ => false)

/-- Where a cursor is after some movements. -/
def moves (m : List (Key × V)) (n : Option Nat) (mvs : List Move) : Option Nat :=
  mvs.foldl (fun c mv => c.bind (fun i => move m i mv)) n

/-- The first entry, if there is one. -/
def start (m : List (Key × V)) : Option Nat := if m.length = 0 then none else some 0

/-- Operations on a map. -/
inductive Op (V : Type) where
  | put (k : Key) (w : Option V → V)
  | del (k : Key)
  | clear
  | get (k : Key)
  | floor (k : Key)
  | weight
  /-- delete the entry reached from the first one by some movements -/
  | delAt (mvs : List Move)

/-- Answers of the operations. -/
inductive Out (V : Type) where
  | done
  | value (v : Option V)
  | entry (e : Option (Bool × Key × V))
  | number (n : Nat)

/-- What an operation does to the map and answers. -/
def step (m : List (Key × V)) : Op V → List (Key × V) × Out V
  | .put k w => (insertWith k w m, .done)
  | .del k => (erase k m, .value (lookup m k))
  | .clear => ([], .done)
  | .get k => (m, .value (lookup m k))
  | .floor k => (m, .entry (floor m k))
  | .weight => (m, .number m.length)
  | .delAt mvs =>
    match moves m (start m) mvs with
    | some n => (m.eraseIdx n, .value ((m[n]?).map (·.2)))
    | none => (m, .value none)

/-- A history of operations. -/
def run (m : List (Key × V)) : List (Op V) → List (Key × V) × List (Out V)
  | [] => (m, [])
  | o :: os => ((run (step m o).1 os).1, (step m o).2 :: (run (step m o).1 os).2)

/-- The entries seen by a cursor that starts at entry `n` and makes the movements in turn, until it
falls off. -/
def tour (m : List (Key × V)) (n : Option Nat) : List Move → List (Option (Key × V))
  | [] => [n.bind (fun i => m[i]?)]
  | mv :: mvs => n.bind (fun i => m[i]?) :: tour m (n.bind (fun i => move m i mv)) mvs

/-- A fold over the values in order that stops at the first nonzero code. -/
def walk {S : Type} (f : S → V → S × Int) : List V → S → S × Int
  | [], s => (s, 0)
  | v :: vs, s => if (f s v).2 = 0 then walk f vs (f s v).1 else f s v

end Knot.OrdMap
