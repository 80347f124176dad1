import Verif.Prelude
/-!
# Model of the wire buffer context (src/contrib/wire_ctx.h)

The memory the context points to is `mem`, which may be longer than the declared `size`. Every
access outside `mem` is undefined behaviour. `size_t` arithmetic is on `Nat`; `size` and all
offsets are assumed to be far below 2^63, as they are sizes of allocated objects.
-/
namespace Knot.WireCtx

abbrev Bytes := List UInt8

/-- `wire_ctx_t`. `pos` is `position - wire`. Source: src/contrib/wire_ctx.h:35-41. -/
structure Ctx where
  mem : Bytes
  size : Nat
  pos : Nat
  error : Option Err
  readonly : Bool
  deriving DecidableEq, Repr

/-- `wire_ctx_init`. Source: src/contrib/wire_ctx.h:46-59. -/
def init (mem : Bytes) (size : Nat) : Ctx := ⟨mem, size, 0, none, false⟩

/-- `wire_ctx_init_const`. Source: src/contrib/wire_ctx.h:67-75. -/
def initConst (mem : Bytes) (size : Nat) : Ctx := { init mem size with readonly := true }

/-- `wire_ctx_set_offset`. Source: src/contrib/wire_ctx.h:96-110. -/
def setOffset (c : Ctx) (offset : Nat) : Ctx :=
  if c.error ≠ none then c
  else if offset > c.size then { c with error := some .erange }
  else { c with pos := offset }

/-- `wire_ctx_available`. Source: src/contrib/wire_ctx.h:117-122. -/
abbrev available (c : Ctx) : Nat := c.size - c.pos

/-- `wire_ctx_skip`. Source: src/contrib/wire_ctx.h:129-151. -/
def skip (c : Ctx) (offset : Int) : Ctx :=
  if c.error ≠ none then c
  else if offset ≥ 0 then
    if offset.toNat > available c then { c with error := some .erange }
    else { c with pos := c.pos + offset.toNat }
  else
    if (-offset).toNat > c.pos then { c with error := some .erange }
    else { c with pos := c.pos - (-offset).toNat }

/-- `wire_ctx_can_read` (`none` is `KNOT_EOK`). Source: src/contrib/wire_ctx.h:156-169. -/
def canRead (c : Ctx) (n : Nat) : Option Err :=
  match c.error with
  | some e => some e
  | none => if available c < n then some .efewdata else none

/-- `wire_ctx_can_write`. Source: src/contrib/wire_ctx.h:174-191. -/
def canWrite (c : Ctx) (n : Nat) : Option Err :=
  match c.error with
  | some e => some e
  | none => if c.readonly then some .eacces else if available c < n then some .espace else none

/-- `memcpy` from memory: out of bounds is undefined. -/
def load (mem : Bytes) (pos n : Nat) : Res Bytes :=
  if pos + n ≤ mem.length then .ok ((mem.drop pos).take n) else .ub

/-- `memcpy` to memory: out of bounds is undefined. -/
def store (mem : Bytes) (pos : Nat) (data : Bytes) : Res Bytes :=
  if pos + data.length ≤ mem.length then
    .ok (mem.take pos ++ data ++ mem.drop (pos + data.length))
  else .ub

/-- `wire_ctx_read`: the bytes delivered and the new context.
Source: src/contrib/wire_ctx.h:194-214. -/
def read (c : Ctx) (n : Nat) : Res (Bytes × Ctx) :=
  if c.error ≠ none then .ok (List.replicate n 0, c)
  else match canRead c n with
    | some e => .ok (List.replicate n 0, { c with error := some e })
    | none => do
      let d ← load c.mem c.pos n
      .ok (d, { c with pos := c.pos + n })

/-- `wire_ctx_write`. Source: src/contrib/wire_ctx.h:258-280. -/
def write (c : Ctx) (data : Bytes) : Res Ctx :=
  if c.error ≠ none then .ok c
  else if data.length = 0 then .ok c
  else match canWrite c data.length with
    | some e => .ok { c with error := some e }
    | none => do
      let m ← store c.mem c.pos data
      .ok { c with mem := m, pos := c.pos + data.length }

/-- `wire_ctx_clear`. Source: src/contrib/wire_ctx.h:327-347. -/
def clear (c : Ctx) (n : Nat) : Res Ctx :=
  if c.error ≠ none then .ok c
  else if n = 0 then .ok c
  else match canWrite c n with
    | some e => .ok { c with error := some e }
    | none => do
      let m ← store c.mem c.pos (List.replicate n 0)
      .ok { c with mem := m, pos := c.pos + n }

/-- `wire_ctx_copy` between two contexts over different memory: new destination and source.
Source: src/contrib/wire_ctx.h:349-372. -/
def copy (dst src : Ctx) (n : Nat) : Res (Ctx × Ctx) :=
  if n = 0 ∨ dst.error ≠ none then .ok (dst, src)
  else if canRead src n ≠ none then .ok ({ dst with error := some .efewdata }, src)
  else match canWrite dst n with
    | some e => .ok ({ dst with error := some e }, src)
    | none => do
      let d ← load src.mem src.pos n
      let m ← store dst.mem dst.pos d
      .ok ({ dst with mem := m, pos := dst.pos + n }, { src with pos := src.pos + n })

/-- `wire_ctx_printf`, with the formatted text `s` (without its terminating NUL) as a parameter:
`vsnprintf` stores at most `max - 1` characters and a NUL. Neither the sticky error nor the
read-only flag is consulted. Source: src/contrib/wire_ctx.h:312-325. -/
def printf (c : Ctx) (s : Bytes) : Res Ctx := do
  let max := available c
  let m ← if max = 0 then .ok c.mem else store c.mem c.pos (s.take (max - 1) ++ [0])
  if s.length > max then .ok { c with mem := m, error := some .espace }
  else .ok { c with mem := m, pos := c.pos + s.length }

/-- The bytes of `htobeN(v)` in memory order, `n` bytes. Source: src/libknot/endian.h. -/
def beBytes : Nat → Nat → Bytes
  | 0, _ => []
  | n + 1, v => UInt8.ofNat (v / 256 ^ n % 256) :: beBytes n v

/-- `beNtoh` of bytes in memory order. Source: src/libknot/endian.h. -/
def beVal : Bytes → Nat
  | [] => 0
  | b :: t => b.toNat * 256 ^ t.length + beVal t

/-- `wire_ctx_write_u8`, `_u16`, `_u32`, `_u64` for `n` = 1, 2, 4, 8; the argument has the unsigned
type of the same width. Source: src/contrib/wire_ctx.h:282-297, 306-310. -/
def writeU (c : Ctx) (n : Nat) (v : Nat) : Res Ctx := write c (beBytes n v)

/-- `wire_ctx_write_u48`: bytes 1..6 of the big-endian `value << 8`.
Source: src/contrib/wire_ctx.h:299-304. -/
def writeU48 (c : Ctx) (v : Nat) : Res Ctx :=
  write c (((beBytes 8 (v * 256 % 18446744073709551616)).drop 1).take 6)

/-- `wire_ctx_read_u8`, `_u16`, `_u32`, `_u64`. Source: src/contrib/wire_ctx.h:216-238, 249-255. -/
def readU (c : Ctx) (n : Nat) : Res (Nat × Ctx) := do
  let (d, c) ← read c n
  .ok (beVal d, c)

/-- `wire_ctx_read_u48`: six bytes are placed behind one zero byte, one zero byte remains behind.
Source: src/contrib/wire_ctx.h:240-247. -/
def readU48 (c : Ctx) : Res (Nat × Ctx) := do
  let (d, c) ← read c 6
  .ok (beVal (0 :: d ++ [0]) / 256, c)

end Knot.WireCtx
