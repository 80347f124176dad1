import Verif.Pktparse.Model
import Verif.Acl.Model
/-!
# Model of the PROXY v2 header (src/contrib/proxyv2/proxyv2.c, src/knot/server/proxyv2.c, src/knot/server/handler.c)

A received message is the buffer it was received into and its length; the buffer may be longer, with octets of earlier messages.
Reading of the header beyond the length is undefined. Simplifications: memory is never exhausted; of a message that could not be
parsed only the count of octets parsed is kept, see `pktParse`.
-/
namespace Knot.Proxy
open Sockaddr (Addr Fam)
open Pktparse (received parseQuestion parse)

abbrev Bytes := List UInt8

/-- PROXYV2_SIG, src/contrib/proxyv2/proxyv2.c:36. -/
def sig : Bytes := [0x0D, 0x0A, 0x0D, 0x0A, 0x00, 0x0D, 0x0A, 0x51, 0x55, 0x49, 0x54, 0x0A]

/-- An octet of a message. -/
def byte (buf : Bytes) (len i : Nat) : Res UInt8 :=
  if i < len then
    match buf[i]? with
    | some b => .ok b
    | none => .ub
  else .ub

/-- A field of two octets of a message, `ntohs()`. -/
def field16 (buf : Bytes) (len i : Nat) : Res Nat := do
  let a ← byte buf len i
  let b ← byte buf len (i + 1)
  .ok (a.toNat * 256 + b.toNat)

/-- Octets of a message. -/
def octets (buf : Bytes) (len i n : Nat) : Res Bytes :=
  if i + n ≤ len ∧ len ≤ buf.length then .ok ((buf.drop i).take n) else .ub

/-- proxyv2_header_offset(), src/contrib/proxyv2/proxyv2.c:110-151; none is KNOT_EMALF. -/
def headerOffset (buf : Bytes) (len : Nat) : Res (Option Nat) :=
  if len < 16 then .ok none
  else do
    let s ← octets buf len 0 12
    if s ≠ sig then .ok none
    else do
      let vc ← byte buf len 12
      if vc ≠ 0x21 then .ok none
      else do
        let l ← field16 buf len 14
        if 16 + l < len then .ok (some (16 + l)) else .ok none

/-- proxyv2_addr_store(), src/contrib/proxyv2/proxyv2.c:153-214; none is KNOT_EMALF. -/
def addrStore (buf : Bytes) (len : Nat) : Res (Option Addr) := do
  let fa ← byte buf len 13
  if fa = 0x12 then
    if 16 + 12 < len then do
      let raw ← octets buf len 16 4
      let port ← field16 buf len 24
      .ok (some ⟨.inet, raw, port⟩)
    else .ok none
  else if fa = 0x22 then
    if 16 + 36 < len then do
      let raw ← octets buf len 16 16
      let port ← field16 buf len 48
      .ok (some ⟨.inet6, raw, port⟩)
    else .ok none
  else .ok none

/-- `htons()` into memory. -/
def wire16 (n : Nat) : Bytes := [(n / 256).toUInt8, (n % 256).toUInt8]

/-- proxyv2_write_header(), src/contrib/proxyv2/proxyv2.c:216-286; `dgram` none is an unknown type of socket, the result none is
KNOT_EINVAL. PROXYV2_HEADER_MAXLEN is 52. -/
def writeHeader (buflen : Nat) (dgram : Option Bool) (src dst : Addr) : Option Bytes :=
  if buflen < 52 then none
  else
    match dgram with
    | none => none
    | some d =>
      let t : UInt8 := if d then 0x2 else 0x1
      if src.fam = .inet then
        some (sig ++ [0x21, 0x10 + t] ++ wire16 12 ++ (src.raw ++ dst.raw ++ wire16 src.port ++ wire16 dst.port))
      else if src.fam = .inet6 then
        some (sig ++ [0x21, 0x20 + t] ++ wire16 36 ++ (src.raw ++ dst.raw ++ wire16 src.port ++ wire16 dst.port))
      else none

/-- The configuration: server.proxy-allowlist and whether it is used; `le` is the order of octets of the host. -/
structure Conf where
  le : Bool
  enabled : Bool
  allow : List Acl.Range
  deriving DecidableEq, Repr

/-- proxyv2_header_strip() up to the parsing of the inner message, src/knot/server/proxyv2.c:22-66: the place of the inner message
and the address; none is an error. -/
def strip (c : Conf) (remote : Addr) (buf : Bytes) (len : Nat) : Res (Option (Nat × Addr)) :=
  if !c.enabled then .ok none
  else do
    match ← headerOffset buf len with
    | none => .ok none
    | some off =>
      if ← Acl.addrRangeMatch c.le remote c.allow then do
        match ← addrStore buf len with
        | none => .ok none
        | some a => .ok (some (off, a))
      else .ok none

/-- A packet: where it starts in the buffer, its size, the count of octets parsed, and whether parsing succeeded. -/
structure Packet where
  start : Nat
  size : Nat
  parsed : Nat
  done : Bool
  deriving DecidableEq, Repr

/-- knot_pkt_new() and knot_pkt_parse() of the message from `start` on, src/libknot/packet/pkt.c:573-625, 772-787. If a record is
refused, the count of octets parsed is at least that of the header and at most the size, which may have been lowered by a TSIG;
`more` and `rest` stand for them. -/
def pktParse (buf : Bytes) (start len more rest : Nat) : Res Packet :=
  match parse false true (buf.drop start) (len - start) with
  | .ok p => .ok ⟨start, p.size, p.parsed, true⟩
  | .ub => .ub
  | .err _ =>
    if len - start < 12 then .ok ⟨start, len - start, 0, false⟩
    else
      match parseQuestion (received (buf.drop start) (len - start)) with
      | .ok _ => .ok ⟨start, 12 + more + rest, 12 + more, false⟩
      | _ => .ok ⟨start, len - start, 12, false⟩

/-- What becomes of a message. -/
inductive Out where
  | ignored
  /-- refused with FORMERR -/
  | formerr (remote : Addr)
  /-- processed as a message that starts here, from this address -/
  | served (start : Nat) (remote : Addr)
  deriving DecidableEq, Repr

/-- process_query_in(), src/knot/nameserver/process_query.c:124-145, and the first check of process_query_out(), lines 591-597. -/
def consume (buf : Bytes) (q : Packet) (remote : Addr) : Out :=
  if q.parsed < 12 then .ignored
  else if 128 ≤ (buf[q.start + 2]?).getD 0 then .ignored
  else if q.parsed < q.size then .formerr remote
  else .served q.start remote

/-- A decrement of a size_t. -/
def dec (n : Nat) : Nat := if n = 0 then 18446744073709551615 else n - 1

/-- The second parsing, src/knot/server/proxyv2.c:69 and src/knot/server/handler.c:34-40. -/
def inner (remote a : Addr) (buf : Bytes) (off len more rest : Nat) : Res Out := do
  let q ← pktParse buf off len more rest
  if q.done then .ok (consume buf q a) else .ok (consume buf { q with parsed := dec q.parsed } remote)

/-- handle_query(), src/knot/server/handler.c:26-44. `m` and `m'` are the counts of the two parsings, see `pktParse`. -/
def handleQuery (c : Conf) (udp : Bool) (remote : Addr) (buf : Bytes) (len : Nat) (m m' : Nat × Nat) : Res Out := do
  let q ← pktParse buf 0 len m.1 m.2
  if q.done || q.parsed = 0 then .ok (consume buf q remote)
  else if udp then do
    match ← strip c remote buf len with
    | none => .ok (consume buf { q with parsed := dec q.parsed } remote)
    | some (off, a) => inner remote a buf off len m'.1 m'.2
  else .ok (consume buf { q with parsed := dec q.parsed } remote)

end Knot.Proxy
