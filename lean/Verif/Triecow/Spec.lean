import Verif.Trie.Spec
/-!
# Specification of transactions on an ordered map (independent of the trie)

A map is a list of entries in ascending order of the keys, `Verif/Trie/Spec.lean`. A transaction works on a
copy of it; both maps can be read until the transaction ends.
-/
namespace Knot.OrdMap

/-- What can be asked for. -/
inductive Cmd (V : Type) where
  /-- open a transaction -/
  | begin
  /-- store `w (value found)` under a key -/
  | put (k : Key) (w : Option V → V)
  /-- remove a key -/
  | del (k : Key)
  /-- keep the new map -/
  | commit
  /-- keep the old map -/
  | rollback

/-- Keys must be shorter than 2^31 bytes. -/
def Cmd.small {V : Type} : Cmd V → Prop
  | .put k _ => k.length < 2147483648
  | _ => True

/-- No transaction, or one with the old and the new map. -/
inductive Db (V : Type) where
  | idle (m : List (Key × V))
  | opened (old new : List (Key × V))

/-- A command with the value it answers; a command out of place does nothing. -/
def Db.step {V : Type} : Db V → Cmd V → Db V × Option V
  | .idle m, .begin => (.opened m m, none)
  | .opened o n, .put k w => (.opened o (insertWith k w n), none)
  | .opened o n, .del k => (.opened o (erase k n), lookup n k)
  | .opened _ n, .commit => (.idle n, none)
  | .opened o _, .rollback => (.idle o, none)
  | d, _ => (d, none)

/-- A history and its answers. -/
def Db.run {V : Type} (d : Db V) : List (Cmd V) → Db V × List (Option V)
  | [] => (d, [])
  | c :: cs => (((d.step c).1.run cs).1, (d.step c).2 :: ((d.step c).1.run cs).2)

end Knot.OrdMap
