import Verif.Prelude
import Verif.WireCtx.Model
/-!
# Model of the OPT pseudo record and EDNS options (src/libknot/rrtype/opt.c)

An OPT record is its rdata (exactly one record in the set) and its TTL. The functions use the wire
buffer context, whose model (C26) is used here. Memory allocation always succeeds.
-/
namespace Knot.Edns
open Knot.WireCtx

/-! ## TTL fields -/

/-- The three calls storing the TTL in wire order and moving to a byte.
Source: src/libknot/rrtype/opt.c:79-84. -/
def ttlCtx (ttl offset : Nat) : Res Ctx := do
  let w ← writeU (init [0, 0, 0, 0] 4) 4 ttl
  .ok (setOffset w offset)

/-- `knot_edns_get_ext_rcode` (offset 0), `knot_edns_get_version` (offset 1).
Source: src/libknot/rrtype/opt.c:76-86, 111-121. -/
def getTtlByte (ttl offset : Nat) : Res Nat := do
  let w ← ttlCtx ttl offset
  let (v, _) ← readU w 1
  .ok v

/-- `set_value_to_ttl`; `knot_edns_set_ext_rcode` (offset 0), `knot_edns_set_version` (offset 1).
Source: src/libknot/rrtype/opt.c:88-109, 123-128. -/
def setTtlByte (ttl offset value : Nat) : Res Nat := do
  let w ← ttlCtx ttl offset
  let w ← writeU w 1 value
  let (v, _) ← readU (setOffset w 0) 4
  .ok v

/-- `knot_edns_do`. Source: src/libknot/rrtype/opt.h:260-265. -/
def getDo (ttl : Nat) : Bool := decide (ttl &&& 32768 ≠ 0)

/-- `knot_edns_set_do`. Source: src/libknot/rrtype/opt.h:275-280. -/
def setDo (ttl : Nat) : Nat := ttl ||| 32768

/-- `knot_edns_whole_rcode`. Source: src/libknot/rrtype/opt.h:192-197. -/
def wholeRcode (ext rcode : Nat) : Nat := ((ext <<< 4) ||| rcode) % 65536

/-! ## Options -/

/-- `edns_add`: the new rdata and the offset of the option data. The length of the new rdata is an
`uint16_t`; a failed assertion is undefined behaviour (with `NDEBUG` the caller would then write the
option data outside the rdata). Source: src/libknot/rrtype/opt.c:140-176. -/
def ednsAdd (rdata : Bytes) (code size : Nat) : Res (Bytes × Nat) := do
  let newLen := (rdata.length + 4 + size) % 65536
  let w ← write (init (List.replicate newLen 0) newLen) rdata
  let w ← writeU w 2 code
  let w ← writeU w 2 size
  let offset := w.pos
  let w ← clear w size
  if available w ≠ 0 then .ub
  else if w.error ≠ none then .ub
  else .ok (w.mem, offset)

/-- `knot_edns_reserve_option`. Source: src/libknot/rrtype/opt.c:178-196. -/
def reserveOption (rdata : Bytes) (code size : Nat) : Res (Bytes × Nat) := ednsAdd rdata code size

/-- `knot_edns_add_option`. Source: src/libknot/rrtype/opt.c:198-216. -/
def addOption (rdata : Bytes) (code : Nat) (data : Bytes) : Res Bytes := do
  let (b, off) ← ednsAdd rdata code data.length
  store b off data

/-- One iteration of the loops over options: code of the option and the context behind it.
Source: src/libknot/rrtype/opt.c:241-244, 272-275. -/
def optStep (w : Ctx) : Res (Nat × Ctx) := do
  let (code, w) ← readU w 2
  let (len, w) ← readU w 2
  .ok (code, skip w len)

/-- The loop of `knot_edns_get_option`. The fuel is the number of iterations; running out of it would
be an endless loop. Source: src/libknot/rrtype/opt.c:240-249. -/
def getLoop (code : Nat) : Nat → Ctx → Res (Option Nat)
  | 0, _ => .ub
  | fuel + 1, w =>
    if available w > 0 ∧ w.error = none then do
      let pos := w.pos
      let (optCode, w) ← optStep w
      if w.error = none ∧ optCode = code then .ok (some pos) else getLoop code fuel w
    else .ok none

/-- The start of the search: behind the option at `previous`.
Source: src/libknot/rrtype/opt.c:231-238. -/
def getStart (rdata : Bytes) (previous : Option Nat) : Res Ctx :=
  let w := initConst rdata rdata.length
  match previous with
  | none => .ok w
  | some p => do
    let (len, w) ← readU (setOffset w (p + 2)) 2
    .ok (skip w len)

/-- `knot_edns_get_option`: offset of the option. `previous` is an offset in the rdata.
Source: src/libknot/rrtype/opt.c:218-252. -/
def getOption (rdata : Bytes) (code : Nat) (previous : Option Nat) : Res (Option Nat) :=
  if rdata.length = 0 then .ok none
  else do
    let w ← getStart rdata previous
    getLoop code (rdata.length + 1) w

/-- The loop of `knot_edns_get_options`. Source: src/libknot/rrtype/opt.c:270-279. -/
def getsLoop : Nat → Ctx → (Nat → Option Nat) → Res (Ctx × (Nat → Option Nat))
  | 0, _, _ => .ub
  | fuel + 1, w, ptr =>
    if available w > 0 ∧ w.error = none then do
      let pos := w.pos
      let (optCode, w) ← optStep w
      getsLoop fuel w (if w.error = none ∧ optCode ≤ 17
        then (fun c => if c = optCode then some pos else ptr c) else ptr)
    else .ok (w, ptr)

/-- `knot_edns_get_options`: for each code the offset of its option; `none` if there is no rdata.
Source: src/libknot/rrtype/opt.c:254-288. -/
def getOptions (rdata : Bytes) : Res (Option (Nat → Option Nat)) :=
  if rdata.length = 0 then .ok none
  else do
    let (w, ptr) ← getsLoop (rdata.length + 1) (initConst rdata rdata.length) (fun _ => none)
    match w.error with
    | some e => .err e
    | none => .ok (some ptr)

/-- `knot_edns_alignment_size`; `none` is −1. Source: src/libknot/rrtype/opt.c:290-307. -/
def alignmentSize (pkt opt block : Nat) : Option Nat :=
  if opt = 0 ∨ block = 0 then none
  else if (pkt + opt) % block = 0 then none
  else
    let modulo := (pkt + opt + 4) % block
    some (if modulo = 0 then 0 else block - modulo)

/-! ## Client subnet -/

/-- `knot_edns_client_subnet_t`; the address has 16 bytes. -/
structure Ecs where
  family : Nat
  sourceLen : Nat
  scopeLen : Nat
  address : Bytes
  deriving DecidableEq, Repr

/-- Size of the address of a family. Source: src/libknot/rrtype/opt.c:327-331, 350-359. -/
def famSize (f : Nat) : Option Nat := if f = 1 then some 4 else if f = 2 then some 16 else none

/-- `ecs_prefix_size`. Source: src/libknot/rrtype/opt.c:364-367. -/
def prefixSize (p : Nat) : Nat := (p + 7) / 8

/-- `ecs_prefix_lsb_mask`. Source: src/libknot/rrtype/opt.c:369-377. -/
def lsbMask (p : Nat) : Nat := if p % 8 = 0 then 255 else (255 <<< (8 - p % 8)) % 256

/-- `dst->position[-1] &= mask`. -/
def maskLast (w : Ctx) (mask : Nat) : Res Ctx :=
  if w.pos = 0 then .ub
  else do
    let b ← Res.rd w.mem (w.pos - 1)
    let m ← store w.mem (w.pos - 1) [UInt8.ofNat (b.toNat &&& mask)]
    .ok { w with mem := m }

/-- `ecs_write_address`: new destination and source. The conversion of the prefix to `int8_t` and
back is the identity on bytes. Source: src/libknot/rrtype/opt.c:382-397. -/
def writeAddress (dst src : Ctx) (pfx : Nat) : Res (Ctx × Ctx) :=
  let count := prefixSize pfx
  if count > 0 then do
    let (dst, src) ← copy dst src count
    if dst.error ≠ none then .ok (dst, src)
    else do
      let dst ← maskLast dst (lsbMask pfx)
      let dst ← clear dst (available dst)
      .ok (dst, src)
  else do
    let dst ← clear dst (available dst)
    .ok (dst, src)

/-- `ecs_is_valid`. Source: src/libknot/rrtype/opt.c:402-413. -/
def ecsValid (e : Ecs) : Bool :=
  match famSize e.family with
  | none => false
  | some n => decide (e.sourceLen ≤ n * 8) && decide (e.scopeLen ≤ n * 8)

/-- `knot_edns_client_subnet_size`. Source: src/libknot/rrtype/opt.c:415-426. -/
def ecsSize (e : Ecs) : Nat := if ecsValid e then 4 + prefixSize e.sourceLen else 0

/-- `knot_edns_client_subnet_write` into a buffer of `option_len` bytes: the buffer after success.
Source: src/libknot/rrtype/opt.c:428-453. -/
def ecsWrite (option : Bytes) (e : Ecs) : Res Bytes :=
  if !ecsValid e then .err .einval
  else do
    let w ← writeU (init option option.length) 2 e.family
    let w ← writeU w 1 e.sourceLen
    let w ← writeU w 1 e.scopeLen
    let (w, _) ← writeAddress w (initConst e.address 16) e.sourceLen
    match w.error with
    | some er => .err er
    | none => .ok w.mem

/-- `knot_edns_client_subnet_parse`. Source: src/libknot/rrtype/opt.c:455-483. -/
def ecsParse (option : Bytes) : Res Ecs := do
  let (family, w) ← readU (initConst option option.length) 2
  let (sourceLen, w) ← readU w 1
  let (scopeLen, w) ← readU w 1
  let (addr, w) ← writeAddress (init (List.replicate 16 0) 16) w sourceLen
  if addr.error ≠ none ∨ w.error ≠ none then .err .emalf
  else
    let r : Ecs := ⟨family, sourceLen, scopeLen, addr.mem⟩
    if !ecsValid r then .err .emalf else .ok r

/-! ## Keepalive and cookies -/

/-- `knot_edns_keepalive_size`. Source: src/libknot/rrtype/opt.c:535-539. -/
def keepaliveSize (timeout : Nat) : Nat := if timeout > 0 then 2 else 0

/-- `knot_edns_keepalive_write`. Source: src/libknot/rrtype/opt.c:541-556. -/
def keepaliveWrite (option : Bytes) (timeout : Nat) : Res Bytes :=
  if timeout = 0 then .ok option
  else do
    let w ← writeU (init option option.length) 2 timeout
    match w.error with
    | some e => .err e
    | none => .ok w.mem

/-- `knot_edns_keepalive_parse`. Source: src/libknot/rrtype/opt.c:558-578. -/
def keepaliveParse (option : Bytes) : Res Nat :=
  if option.length > 0 then do
    let (t, w) ← readU (initConst option option.length) 2
    if w.error ≠ none then .err .emalf else .ok t
  else .ok 0

/-- `knot_edns_cookie_size`. Source: src/libknot/rrtype/opt.c:621-635. -/
def cookieSize (cc sc : Bytes) : Nat :=
  if cc.length ≠ 8 then 0
  else if sc.length = 0 then 8
  else if sc.length < 8 ∨ sc.length > 32 then 0
  else cc.length + sc.length

/-- `knot_edns_cookie_write`; an absent server cookie is empty.
Source: src/libknot/rrtype/opt.c:637-658. -/
def cookieWrite (option cc sc : Bytes) : Res Bytes :=
  if cc.length ≠ 8 then .err .einval
  else do
    let w ← write (init option option.length) cc
    if sc.length > 0 ∧ (sc.length < 8 ∨ sc.length > 32) then .err .einval
    else do
      let w ← write w sc
      match w.error with
      | some e => .err e
      | none => .ok w.mem

/-- `knot_edns_cookie_parse`: client and server cookie. Source: src/libknot/rrtype/opt.c:660-687. -/
def cookieParse (option : Bytes) : Res (Bytes × Bytes) :=
  if option.length ≠ 8 ∧ (option.length < 16 ∨ option.length > 40) then .err .emalf
  else do
    let cc ← load option 0 8
    let sc ← load option 8 (option.length - 8)
    .ok (cc, sc)

end Knot.Edns
