import Verif.WireCtx.Model
import Verif.Dname.Model
/-!
# Model of the records of the databases: knot_lmdb_make_key() and knot_lmdb_unmake_key()
(src/knot/journal/knot_lmdb.c)
-/
namespace Knot.Lmdb
open WireCtx

/-- An argument of knot_lmdb_make_key() with its format letter. Strings and names are given by
the memory they point to. Source: src/knot/journal/knot_lmdb.c:602-630. -/
inductive Arg where
  | b (v : Nat) | h (v : Nat) | i (v : Nat) | l (v : Nat)
  | s (mem : Bytes) | n (mem : Bytes) | d (data : Bytes)
  deriving DecidableEq, Repr

/-- strlen(): reading past the end of the memory is undefined. -/
def strlen : Bytes → Res Nat
  | [] => .ub
  | c :: t => if c = 0 then .ok 0 else do
    let n ← strlen t
    .ok (n + 1)

/-- The size of one part, src/knot/journal/knot_lmdb.c:644-675. -/
def argSize : Arg → Res Nat
  | .b _ => .ok 1
  | .h _ => .ok 2
  | .i _ => .ok 4
  | .l _ => .ok 8
  | .s m => do
    let n ← strlen m
    .ok (n + 1)
  | .n m => Dname.size m
  | .d x => .ok x.length

/-- The sum of the sizes, src/knot/journal/knot_lmdb.c:642-676. -/
def keySize : List Arg → Res Nat
  | [] => .ok 0
  | a :: as => do
    let n ← argSize a
    let r ← keySize as
    .ok (n + r)

/-- Read `n` octets of memory (an argument of `memcpy`). -/
def fetch (m : Bytes) (n : Nat) : Res Bytes := if n ≤ m.length then .ok (m.take n) else .ub

/-- One step of make_key_part(), src/knot/journal/knot_lmdb.c:603-629. -/
def putArg (c : Ctx) : Arg → Res Ctx
  | .b v => writeU c 1 v
  | .h v => writeU c 2 v
  | .i v => writeU c 4 v
  | .l v => writeU c 8 v
  | .s m => do
    let n ← strlen m
    let x ← fetch m (n + 1)
    write c x
  | .n m => do
    let n ← Dname.size m
    let x ← fetch m n
    write c x
  | .d x => write c x

/-- The loop of make_key_part(), src/knot/journal/knot_lmdb.c:602-630. -/
def putArgs (c : Ctx) : List Arg → Res Ctx
  | [] => .ok c
  | a :: as => do
    let c ← putArg c a
    putArgs c as

/-- make_key_part(), src/knot/journal/knot_lmdb.c:594-633. -/
def makeKeyPart (mem : Bytes) (args : List Arg) : Res (Bytes × Bool) := do
  let c ← putArgs (init mem mem.length) args
  .ok (c.mem, decide (c.error = none ∧ available c = 0))

/-- knot_lmdb_make_key(), src/knot/journal/knot_lmdb.c:635-691 (allocation succeeds; the
contents of fresh memory do not matter and are taken as zeros). An empty key is a NULL pointer. -/
def makeKey (args : List Arg) : Res Bytes := do
  let n ← keySize args
  if n = 0 then .ok []
  else
    let (m, succ) ← makeKeyPart (List.replicate n 0) args
    if succ then .ok m else .ub

/-- A format letter of knot_lmdb_unmake_key(); the flag tells that the place for the value was
given (not NULL). Source: src/knot/journal/knot_lmdb.c:711-758. -/
inductive Fmt where
  | b (get : Bool) | h (get : Bool) | i (get : Bool) | l (get : Bool)
  | s (get : Bool) | n (get : Bool) | d (get : Bool) (size : Nat)
  deriving DecidableEq, Repr

/-- What one step stores: nothing, a number, a pointer into the record (given by the memory
from there on) or a copy of octets. -/
inductive Val where
  | skip | num (v : Nat) | ptr (mem : Bytes) | data (d : Bytes)
  deriving DecidableEq, Repr

/-- A number of `n` octets: skipped or read. -/
def getNum (c : Ctx) (get : Bool) (n : Nat) : Res (Val × Ctx) :=
  if get then do
    let (v, c) ← readU c n
    .ok (.num v, c)
  else .ok (.skip, skip c n)

/-- The result of a string or name found at the current position. -/
def ptrVal (c : Ctx) (get : Bool) : Val := if get then .ptr (c.mem.drop c.pos) else .skip

/-- One step of unmake_key_part(), src/knot/journal/knot_lmdb.c:709-759. The octets of `D` are
copied before the bounds are checked. -/
def getFmt (c : Ctx) : Fmt → Res (Val × Ctx)
  | .b g => getNum c g 1
  | .h g => getNum c g 2
  | .i g => getNum c g 4
  | .l g => getNum c g 8
  | .s g => do
    let n ← strlen (c.mem.drop c.pos)
    .ok (ptrVal c g, skip c ((n + 1 : Nat) : Int))
  | .n g => do
    let n ← Dname.size (c.mem.drop c.pos)
    .ok (ptrVal c g, skip c (n : Int))
  | .d g n =>
    if g then do
      let x ← load c.mem c.pos n
      .ok (.data x, skip c n)
    else .ok (.skip, skip c n)

/-- The loop of unmake_key_part(), src/knot/journal/knot_lmdb.c:708-760: it ends when the format
is used up, after an error, or when the octets are used up. -/
def getFmts (c : Ctx) : List Fmt → Res (List Val × Ctx)
  | [] => .ok ([], c)
  | f :: fs =>
    if c.error = none ∧ 0 < available c then do
      let (v, c) ← getFmt c f
      let (vs, c) ← getFmts c fs
      .ok (v :: vs, c)
    else .ok ([], c)

/-- unmake_key_part(), src/knot/journal/knot_lmdb.c:702-762: the values stored and the result. -/
def unmakeKey (mem : Bytes) (len : Nat) (fmt : List Fmt) : Res (List Val × Bool) := do
  let (vs, c) ← getFmts (initConst mem len) fmt
  .ok (vs, decide (c.error = none ∧ available c = 0))

end Knot.Lmdb
