import Verif.WireCtx.Model
/-!
# Model of the control protocol (src/libknot/control/control.c)

The network is a list of what arrives: each element is the data of one arrival, delivered by one recvmsg() as far as there
is room, an empty one is a timeout, and the end of the list is a disconnect. Sending always succeeds: net_stream_send()
sends all the data (src/contrib/net.c:573-630, 693-719, 773-776). `N` is CTL_BUFF_SIZE, which can be set at compile time
(src/libknot/control/control.c:34-37). Strings of C are byte lists without NUL; memory allocation succeeds.
-/
namespace Knot.Ctl
open WireCtx (Ctx load store)

abbrev Bytes := List UInt8

/-- knot_ctl_type_t, src/libknot/control/control.h:46-51. -/
inductive Kind where
  | fin | data | extra | block
  deriving DecidableEq, Repr

/-- type_to_code(), src/libknot/control/control.c:73-82. -/
def Kind.code : Kind → Nat
  | .fin => 0 | .data => 1 | .extra => 2 | .block => 3

/-- code_to_type(), src/libknot/control/control.c:84-93. -/
def toKind (code : Nat) : Option Kind :=
  if code = 0 then some .fin else if code = 1 then some .data else if code = 2 then some .extra
  else if code = 3 then some .block else none

/-- is_data_type(), src/libknot/control/control.c:95-104. -/
def Kind.isData : Kind → Bool
  | .data => true | .extra => true | _ => false

/-- code_to_idx(), src/libknot/control/control.c:115-123, with the 12 items of knot_ctl_idx_t,
src/libknot/control/control.h:29-43. -/
def toIdx (code : Nat) : Option Nat := if code < 16 ∨ code ≥ 16 + 12 then none else some (code - 16)

/-- struct knot_ctl, src/libknot/control/control.c:48-71. `sent` is what has been sent, `net` what arrives. -/
structure St where
  out : Ctx
  inp : Ctx
  data : List (Option Bytes)
  sent : Bytes
  net : List Bytes

/-- reset_buffers(), src/libknot/control/control.c:125-129, after accepting or connecting. -/
def start (N : Nat) (bufOut bufIn : Bytes) (net : List Bytes) : St :=
  ⟨WireCtx.init bufOut N, WireCtx.init bufIn 0, List.replicate 12 none, [], net⟩

/-! ## Sending -/

/-- `net_stream_send(ctx->sock, w->wire, wire_ctx_offset(w), …)` and `*w = wire_ctx_init(w->wire, CTL_BUFF_SIZE)`,
src/libknot/control/control.c:330-336, 386-392. -/
def flush (N : Nat) (s : St) : St :=
  { s with sent := s.sent ++ s.out.mem.take s.out.pos, out := WireCtx.init s.out.mem N }

/-- ensure_output(), src/libknot/control/control.c:319-339. -/
def ensureOutput (N : Nat) (s : St) (len : Nat) : St := if WireCtx.available s.out ≥ len then s else flush N s

/-- The data in send_item(), src/libknot/control/control.c:356-382: the error, if any. -/
def sendData (N : Nat) (s : St) : Option Bytes → Res (Option Err × St)
  | none => .ok (none, s)
  | some d =>
    if d.length > 65535 then .ok (some .erange, s)
    else do
      let s := ensureOutput N s 2
      let w ← WireCtx.writeU s.out 2 d.length
      if w.error ≠ none then .ok (w.error, { s with out := w })
      else do
        let s := ensureOutput N { s with out := w } d.length
        let w ← WireCtx.write s.out d
        .ok (w.error, { s with out := w })

/-- send_item(), src/libknot/control/control.c:341-396. -/
def sendItem (N : Nat) (s : St) (code : Nat) (d : Option Bytes) (fl : Bool) : Res (Option Err × St) := do
  let s := ensureOutput N s 1
  let w ← WireCtx.writeU s.out 1 code
  if w.error ≠ none then .ok (w.error, { s with out := w })
  else do
    let (e, s) ← sendData N { s with out := w } d
    match e with
    | some e => .ok (some e, s)
    | none => .ok (none, if fl ∧ s.out.pos > 0 then flush N s else s)

/-- The loop in knot_ctl_send(), src/libknot/control/control.c:418-431, from item `i` on. -/
def sendItems (N : Nat) (s : St) (i : Nat) : List (Option Bytes) → Res (Option Err × St)
  | [] => .ok (none, s)
  | none :: l => sendItems N s (i + 1) l
  | some d :: l => do
    let (e, s) ← sendItem N s (16 + i) (some d) false
    match e with
    | some e => .ok (some e, s)
    | none => sendItems N s (i + 1) l

/-- knot_ctl_send(), src/libknot/control/control.c:398-434. No data is a list without items. -/
def send (N : Nat) (s : St) (k : Kind) (data : List (Option Bytes)) : Res (Option Err × St) := do
  let (e, s) ← sendItem N s k.code none (!k.isData)
  match e with
  | some e => .ok (some e, s)
  | none => if k.isData then sendItems N s 0 data else .ok (none, s)

/-! ## Receiving -/

/-- The loop in ensure_input(), src/libknot/control/control.c:449-459, with net_base_recv(), src/contrib/net.c:721-740:
the memory and the number of bytes in it. When there is no room recvmsg() returns 0, which is taken as a disconnect. -/
def recvLoop (N len : Nat) (mem : Bytes) (avail : Nat) : List Bytes → Res (Option Err × Bytes × Nat × List Bytes)
  | [] => .ok (some .econn, mem, avail, [])
  | c :: net =>
    if c.length = 0 then .ok (some .etimeout, mem, avail, net)
    else if c.length > N - avail then do
      let mem ← store mem avail (c.take (N - avail))
      if N < len then .ok (some .econn, mem, N, c.drop (N - avail) :: net)
      else .ok (none, mem, N, c.drop (N - avail) :: net)
    else do
      let mem ← store mem avail c
      if avail + c.length < len then recvLoop N len mem (avail + c.length) net
      else .ok (none, mem, avail + c.length, net)

/-- ensure_input(), src/libknot/control/control.c:436-464. On an error the context is not updated, but the data has been
moved in the buffer and more may have been added. -/
def ensureInput (N : Nat) (s : St) (len : Nat) : Res (Option Err × St) :=
  if WireCtx.available s.inp ≥ len then .ok (none, s)
  else do
    let d ← load s.inp.mem s.inp.pos (WireCtx.available s.inp)
    let mem ← store s.inp.mem 0 d
    let (e, mem, n, net) ← recvLoop N len mem (WireCtx.available s.inp) s.net
    match e with
    | some e => .ok (some e, { s with inp := { s.inp with mem }, net })
    | none => .ok (none, { s with inp := WireCtx.init mem n, net })

/-- receive_item_code(), src/libknot/control/control.c:466-481. -/
def receiveCode (N : Nat) (s : St) : Res (Option Err × Nat × St) := do
  let (e, s) ← ensureInput N s 1
  match e with
  | some e => .ok (some e, 0, s)
  | none => do
    let (v, w) ← WireCtx.readU s.inp 1
    .ok (w.error, v, { s with inp := w })

/-- The second half of receive_item_value(), src/libknot/control/control.c:497-512. -/
def receiveBody (N : Nat) (s : St) (n : Nat) : Res (Option Err × Bytes × St) := do
  let (e, s) ← ensureInput N s n
  match e with
  | some e => .ok (some e, [], s)
  | none => do
    let (d, w) ← WireCtx.read s.inp n
    .ok (w.error, d, { s with inp := w })

/-- receive_item_value(), src/libknot/control/control.c:483-513. -/
def receiveValue (N : Nat) (s : St) : Res (Option Err × Bytes × St) := do
  let (e, s) ← ensureInput N s 2
  match e with
  | some e => .ok (some e, [], s)
  | none => do
    let (n, w) ← WireCtx.readU s.inp 2
    if w.error ≠ none then .ok (w.error, [], { s with inp := w })
    else receiveBody N { s with inp := w } n

/-- The loop in knot_ctl_receive(), src/libknot/control/control.c:528-569; `have` is the type found. The fuel is not
reached. -/
def receiveLoop (N : Nat) : Nat → St → Option Kind → Res (Option Err × Kind × St)
  | 0, _, _ => .ub
  | fuel + 1, s, hv => do
    let (e, code, s) ← receiveCode N s
    match e with
    | some e => .ok (some e, hv.getD .fin, s)
    | none =>
      match toKind code with
      | some k =>
        match hv with
        | some t =>
          let w := WireCtx.skip s.inp (-1)
          if w.error ≠ none then .ub else .ok (none, t, { s with inp := w })
        | none => if k.isData then receiveLoop N fuel s (some k) else .ok (none, k, s)
      | none =>
        match toIdx code with
        | none => .ok (some .einval, hv.getD .fin, s)
        | some i => do
          let (e, d, s) ← receiveValue N s
          match e with
          | some e => .ok (some e, hv.getD .fin, s)
          | none => if i < s.data.length then receiveLoop N fuel { s with data := s.data.set i (some d) } hv else .ub

/-- The bytes not yet read. -/
def pending (s : St) : Bytes := (s.inp.mem.drop s.inp.pos).take (WireCtx.available s.inp) ++ s.net.flatten

/-- knot_ctl_receive(), src/libknot/control/control.c:515-577: the type and the data. -/
def receive (N : Nat) (s : St) : Res (Option Err × Kind × List (Option Bytes) × St) := do
  let (e, k, s) ← receiveLoop N ((pending s).length + 1) { s with data := List.replicate 12 none } none
  .ok (e, k, s.data, s)

end Knot.Ctl
