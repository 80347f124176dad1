import Verif.Prelude
/-!
# Model of DNS over TCP streams
(src/libknot/xdp/tcp_iobuf.c, used by the XDP and QUIC servers; src/contrib/net.c, used by sockets)

Allocation does not fail. The counters `buffers_total` and `outbufs_total` are integers.
-/
namespace Knot.Tcp

abbrev Bytes := List UInt8

/-! ## Incoming segments (src/libknot/xdp/tcp_iobuf.c) -/

/-- The persistent buffer of a connection: the `iov_len` bytes at `iov_base`, and the size of the
allocation behind `iov_base`. -/
structure InBuf where
  bytes : Bytes
  cap : Nat
  deriving DecidableEq, Repr

/-- `tcp_payload_len`. Source: src/libknot/xdp/tcp_iobuf.c:42-48. -/
def payloadLen : Bytes → Nat
  | hi :: lo :: _ => hi.toNat * 256 + lo.toNat
  | _ => 0

/-- `buffer_alloc_size` for `n ≤ 2^63`. Source: src/libknot/xdp/tcp_iobuf.c:69-83. -/
def allocSize (n : Nat) : Nat :=
  if n = 0 then 0
  else
    let x := (n - 1) ||| 0x3f
    let x := x ||| (x >>> 1)
    let x := x ||| (x >>> 2)
    let x := x ||| (x >>> 4)
    let x := x ||| (x >>> 8)
    let x := x ||| (x >>> 16)
    let x := x ||| (x >>> 32)
    x + 1

/-- The counting loops of `knot_tcp_inbufs_upd` over complete messages in the segment: their number
and the sum of their lengths (used only with `alloc_bufs`).
Source: src/libknot/xdp/tcp_iobuf.c:132-146. -/
def countLoop (data : Bytes) : Nat × Nat :=
  match data with
  | hi :: lo :: t =>
    if hi.toNat * 256 + lo.toNat ≤ t.length then
      let r := countLoop (t.drop (hi.toNat * 256 + lo.toNat))
      (r.1 + 1, r.2 + (hi.toNat * 256 + lo.toNat))
    else (0, 0)
  | _ => (0, 0)
termination_by data.length
decreasing_by simp only [List.length_drop, List.length_cons]; omega

/-- The loops that deliver `n` messages from the segment: the messages and the rest of the segment.
`room` is what is left of the memory allocated for copies (`none` without copying). Exceeding it,
a failed assertion in `iov_inc` and reading past the segment are undefined.
Source: src/libknot/xdp/tcp_iobuf.c:174-194. -/
def collect : Nat → Option Nat → Bytes → Res (List Bytes × Bytes)
  | 0, _, data => .ok ([], data)
  | n + 1, room, data =>
    let len := payloadLen data
    if data.length < 2 then .ub
    else if (data.drop 2).length < len then .ub
    else if (match room with | some r => decide (r < len) | none => false) then .ub
    else do
      let (ms, rest) ← collect n (room.map (· - len)) ((data.drop 2).drop len)
      .ok ((data.drop 2).take len :: ms, rest)

/-- What the counting part finds: number of finished messages and bytes to be copied. The
subtraction in `data_offset` wraps when the buffer holds more than a message, then the comparison
with the segment length fails. Source: src/libknot/xdp/tcp_iobuf.c:116-147. -/
def counts (allocBufs : Bool) (buffer data : Bytes) : Nat × Nat :=
  if buffer.length ≥ 2 then
    if buffer.length - 2 ≤ payloadLen buffer ∧ data.length ≥ payloadLen buffer - (buffer.length - 2) then
      let r := countLoop (data.drop (payloadLen buffer - (buffer.length - 2)))
      (r.1 + 1, (if allocBufs then r.2 else 0) + payloadLen buffer)
    else (0, 0)
  else
    let r := countLoop data
    (r.1, if allocBufs then r.2 else 0)

/-- Output of the finished messages: buffer, messages, rest of the segment, change of the total.
Source: src/libknot/xdp/tcp_iobuf.c:149-196. -/
def emit (allocBufs : Bool) (cnt area : Nat) (b : InBuf) (data : Bytes) (total : Int) :
    Res (InBuf × List Bytes × Bytes × Int) :=
  if cnt = 0 then .ok (b, [], data, total)
  else if b.bytes.length ≥ 2 then
    let bf := b.bytes.drop 2
    let need := payloadLen b.bytes - bf.length
    if area < bf.length + need ∨ data.length < need ∨ payloadLen b.bytes < bf.length then .ub
    else do
      let (ms, rest) ← collect (cnt - 1) (if allocBufs then some (area - (bf.length + need)) else none) (data.drop need)
      .ok (⟨[], 0⟩, (bf ++ data.take need) :: ms, rest, total - allocSize b.bytes.length)
  else do
    let (ms, rest) ← collect cnt (if allocBufs then some area else none) data
    .ok (b, ms, rest, total)

/-- Storing of the incomplete rest. Source: src/libknot/xdp/tcp_iobuf.c:198-212. -/
def keep (b : InBuf) (data : Bytes) (total : Int) : Res (InBuf × Int) :=
  if data.length > 0 then
    let orig := allocSize b.bytes.length
    let new := allocSize (b.bytes.length + data.length)
    let cap := if orig < new then new else b.cap
    let total := if orig < new then total + (new - orig : Int) else total
    if b.bytes.length + data.length > cap then .ub
    else .ok (⟨b.bytes ++ data, cap⟩, total)
  else .ok (b, total)

/-- The part of `knot_tcp_inbufs_upd` behind the completion of the length bytes.
Source: src/libknot/xdp/tcp_iobuf.c:111-214. -/
def updMain (allocBufs : Bool) (b : InBuf) (data : Bytes) (total : Int) : Res (InBuf × List Bytes × Int) := do
  let (cnt, area) := counts allocBufs b.bytes data
  let (b, ms, rest, total) ← emit allocBufs cnt area b data total
  let (b, total) ← keep b rest total
  .ok (b, ms, total)

/-- `knot_tcp_inbufs_upd`: the new buffer, the messages appended to the result list and the new
total. Source: src/libknot/xdp/tcp_iobuf.c:86-215. -/
def inbufsUpd (allocBufs : Bool) (b : InBuf) (data : Bytes) (total : Int) : Res (InBuf × List Bytes × Int) :=
  match data with
  | [] => .ok (b, [], total)
  | d :: t =>
    if b.bytes.length = 1 then
      if b.cap < 2 then .ub
      else
        match t with
        | [] => .ok (⟨b.bytes ++ [d], b.cap⟩, [], total)
        | _ => updMain allocBufs ⟨b.bytes ++ [d], b.cap⟩ t total
    else updMain allocBufs b data total

/-- A connection that receives the segments one after another: buffer, all messages, total. -/
def feed (allocBufs : Bool) (b : InBuf) (total : Int) : List Bytes → Res (InBuf × List Bytes × Int)
  | [] => .ok (b, [], total)
  | s :: ss => do
    let (b, ms, total) ← inbufsUpd allocBufs b s total
    let (b, ms', total) ← feed allocBufs b total ss
    .ok (b, ms ++ ms', total)

/-! ## Outgoing segments -/

/-- `knot_tcp_outbuf_t`. Source: src/libknot/xdp/tcp_iobuf.h:34-40. -/
structure Seg where
  len : Nat
  seqno : Nat
  sent : Bool
  bytes : Bytes
  deriving DecidableEq, Repr

/-- The loop of `knot_tcp_outbufs_add` (without `ignore_lastbyte`). `newlen` is a `uint16_t`; a
segment shorter than the prefix and an endless loop are undefined.
Source: src/libknot/xdp/tcp_iobuf.c:229-250. -/
def addLoop (mss : Nat) (pre data : Bytes) : Res (List Seg) :=
  if _h : data = [] then .ok []
  else
    let newlen := min (data.length + pre.length) mss % 65536
    if newlen < pre.length then .ub
    else if _h2 : newlen = 0 then .ub
    else do
      let rest ← addLoop mss [] (data.drop (newlen - pre.length))
      .ok (⟨newlen, 0, false, pre ++ data.take (newlen - pre.length)⟩ :: rest)
termination_by data.length + pre.length
decreasing_by
  have : 0 < data.length := List.length_pos_iff.mpr _h
  simp only [List.length_drop, List.length_nil]
  omega

/-- `knot_tcp_outbufs_add`. Source: src/libknot/xdp/tcp_iobuf.c:218-252. -/
def outbufsAdd (bufs : List Seg) (data : Bytes) (mss : Nat) : Res (List Seg) :=
  if data.length > 65535 then .err .elimit
  else do
    let s ← addLoop mss [UInt8.ofNat (data.length / 256), UInt8.ofNat (data.length % 256)] data
    .ok (bufs ++ s)

/-- `seqno_lower`. Source: src/libknot/xdp/tcp_iobuf.c:254-261. -/
def seqnoLower (seqno ackno acknoMin : Nat) : Bool :=
  if acknoMin ≤ ackno then decide (seqno ≥ acknoMin) && decide (seqno ≤ ackno)
  else decide (seqno ≥ acknoMin) || decide (seqno ≤ ackno)

/-- `knot_tcp_outbufs_ack`: the remaining segments. Source: src/libknot/xdp/tcp_iobuf.c:264-273. -/
def outbufsAck (ackno : Nat) : List Seg → List Seg
  | [] => []
  | s :: t =>
    if s.sent && seqnoLower ((s.seqno + s.len) % 4294967296) ackno ((ackno + 4294967296 - 2147483647) % 4294967296)
    then outbufsAck ackno t else s :: t

/-- The first loop of `knot_tcp_outbufs_can_send`: segments left and window left.
Source: src/libknot/xdp/tcp_iobuf.c:279-284. -/
def skipSent (resend : Bool) : List Seg → Int → List Seg × Int
  | [], w => ([], w)
  | s :: t, w => if s.sent && !resend then skipSent resend t (w - s.len) else (s :: t, w)

/-- The second loop: how many segments fit. Source: src/libknot/xdp/tcp_iobuf.c:286-291. -/
def fitCount : List Seg → Int → Nat
  | [], _ => 0
  | s :: t, w => if w ≥ s.len then fitCount t (w - s.len) + 1 else 0

/-- `knot_tcp_outbufs_can_send`: `send_start` (as the list from there on) and `send_count`.
Source: src/libknot/xdp/tcp_iobuf.c:276-292. -/
def canSend (bufs : List Seg) (window : Int) (resend : Bool) : List Seg × Nat :=
  let (start, w) := skipSent resend bufs window
  (start, fitCount start w)

/-! ## Sockets (src/contrib/net.c) -/

/-- Result of one `sendmsg`/`recvmsg`: number of bytes, interrupted, not ready, other error. -/
inductive P | ret (n : Nat) | eintr | again | fail
  deriving DecidableEq, Repr

/-- Result of one `poll`: ready, transient error, timeout, other error. -/
inductive W | ready | retry | timeout | fail
  deriving DecidableEq, Repr

/-- `msg_iov_shift`; the final assertion. Source: src/contrib/net.c:535-553. -/
def iovShift {α : Type} : List (List α) → Nat → Res (List (List α))
  | iov, 0 => .ok iov
  | [], _ + 1 => .ub
  | v :: vs, n + 1 => if v.length > n + 1 then .ok (v.drop (n + 1) :: vs) else iovShift vs (n + 1 - v.length)

/-- The waiting loop; `none`: the results of `poll` ran out (still waiting), otherwise success or
the error to return, and the results left. Source: src/contrib/net.c:595-621. -/
def waitLoop : List W → Option (Option Err × List W)
  | [] => none
  | .ready :: ws => some (none, ws)
  | .retry :: ws => waitLoop ws
  | .timeout :: ws => some (some .etimeout, ws)
  | .fail :: ws => some (some .econn, ws)

/-- Outcome of an I/O call together with the elements transferred, in order. -/
structure Io (α : Type) where
  res : Res Nat
  moved : List α
  deriving DecidableEq, Repr

/-- `io_exec`. An element of `iov` is the list of the memory cells it covers; the kernel transfers
cells from the front. `avail` is the number of cells the peer is able to transfer at all. The lists
`ps` and `ws` are the results of the system calls; `none`: they ran out (still running). The number
of bytes returned by a system call does not exceed what it was offered.
Source: src/contrib/net.c:573-628. -/
def ioExec {α : Type} (oneshot : Bool) (avail total : Nat) :
    List P → List W → List (List α) → List α → Option (Io α)
  | [], _, _, _ => none
  | .eintr :: ps, ws, iov, done => ioExec oneshot avail total ps ws iov done
  | .fail :: _, _, _, done => some ⟨.err .econn, done⟩
  | .again :: ps, ws, iov, done =>
    match waitLoop ws with
    | none => none
    | some (some e, _) => some ⟨.err e, done⟩
    | some (none, ws) => ioExec oneshot avail total ps ws iov done
  | .ret n :: ps, ws, iov, done =>
    let k := min n (min iov.flatten.length (avail - done.length))
    let done' := done ++ iov.flatten.take k
    if k = 0 then some ⟨.err .econn, done⟩
    else if oneshot ∨ done'.length = total then some ⟨.ok done'.length, done'⟩
    else
      match iovShift iov k with
      | .ub => some ⟨.ub, done'⟩
      | .err e => some ⟨.err e, done'⟩
      | .ok iov' =>
        match waitLoop ws with
        | none => none
        | some (some e, _) => some ⟨.err e, done'⟩
        | some (none, ws) => ioExec oneshot avail total ps ws iov' done'

/-- `net_dns_tcp_send`: the result and the bytes that went to the peer.
Source: src/contrib/net.c:785-816. -/
def dnsTcpSend (msg : Bytes) (avail : Nat) (ps : List P) (ws : List W) : Option (Io UInt8) :=
  if msg.length > 65535 then some ⟨.err .einval, []⟩
  else
    match ioExec false avail (2 + msg.length) ps ws
        [[UInt8.ofNat (msg.length / 256), UInt8.ofNat (msg.length % 256)], msg] [] with
    | none => none
    | some ⟨.ok _, m⟩ => some ⟨.ok msg.length, m⟩
    | some r => some r

/-- Addresses `0 .. n-1` of a receive buffer. -/
def cells (n : Nat) : List Nat := List.range n

/-- Receive buffer after `moved` of its cells got the bytes `data`, from zeroed memory. -/
def fill (n : Nat) (moved : List Nat) (data : Bytes) : Bytes :=
  (moved.zip data).foldl (fun m p => m.set p.1 p.2) (List.replicate n 0)

/-- `net_dns_tcp_recv` from a stream on which the bytes `stream` will arrive, into a buffer of `size`
bytes: the message, and how much of the stream was consumed. `ps1`, `ws1` are the results of system
calls during the first `recv_data`, `ps2`, `ws2` during the second one.
Source: src/contrib/net.c:818-852. -/
def dnsTcpRecv (stream : Bytes) (size : Nat) (ps1 : List P) (ws1 : List W) (ps2 : List P) (ws2 : List W) :
    Option (Res Bytes × Nat) :=
  match ioExec false stream.length 2 ps1 ws1 [cells 2] [] with
  | none => none
  | some ⟨.ub, m⟩ => some (.ub, m.length)
  | some ⟨.err e, m⟩ => some (.err e, m.length)
  | some ⟨.ok _, m⟩ =>
    let pktsize := payloadLen (fill 2 m stream)
    if size < pktsize then some (.err .espace, m.length)
    else
      match ioExec false (stream.length - m.length) pktsize ps2 ws2 [cells pktsize] [] with
      | none => none
      | some ⟨.ub, m2⟩ => some (.ub, m.length + m2.length)
      | some ⟨.err e, m2⟩ => some (.err e, m.length + m2.length)
      | some ⟨.ok n, m2⟩ => some (.ok ((fill pktsize m2 (stream.drop m.length)).take n), m.length + m2.length)

end Knot.Tcp
