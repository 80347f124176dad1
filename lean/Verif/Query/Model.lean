import Verif.Prelude
import Verif.Zonedb.Spec
/-!
# Processing of a query

src/knot/nameserver/process_query.c. What answers the query in its class (internet_process_query() and so on) and the hooks
of modules are arbitrary functions of the state. They touch the response by the calls in `Act` only. Failure of memory
allocation, statistics and logging are left out.
-/
namespace Knot.Query
open Dname (Name)

abbrev Bytes := List UInt8

/-! ## The header -/

/-- The header of a message, src/libknot/packet/wire.h:31-50: the two bytes of flags as they are. -/
structure Hdr where
  id : Nat
  f1 : UInt8
  f2 : UInt8
  qd : Nat
  an : Nat
  ns : Nat
  ar : Nat
  deriving DecidableEq, Repr

/-- knot_wire_get_opcode(), src/libknot/packet/wire.h:431-436. -/
def Hdr.opcode (h : Hdr) : UInt8 := (h.f1 &&& 0x78) >>> 3

/-- knot_wire_set_tc(), src/libknot/packet/wire.h:372-376. -/
def Hdr.setTc (h : Hdr) : Hdr := { h with f1 := h.f1 ||| 0x02 }

/-- knot_wire_set_aa(), src/libknot/packet/wire.h:407-411. -/
def Hdr.setAa (h : Hdr) : Hdr := { h with f1 := h.f1 ||| 0x04 }

/-- knot_wire_set_rcode(), src/libknot/packet/wire.h:507-512. -/
def Hdr.setRcode (h : Hdr) (rcode : Nat) : Hdr := { h with f2 := (h.f2 &&& 0xf0) ||| UInt8.ofNat rcode }

/-- The header in knot_pkt_init_response(), src/libknot/packet/pkt.c:340-356, and then knot_wire_clear_cd(), src/libknot/packet/wire.h:543-547:
QR set; TC, AD, RA, AA, Z and CD cleared. -/
def Hdr.response (h : Hdr) (question : Bytes) : Hdr :=
  { h with f1 := (((h.f1 ||| 0x80) &&& 0xfd) &&& 0xfb), f2 := ((((h.f2 &&& 0xdf) &&& 0x7f) &&& 0xbf) &&& 0xef),
           qd := if question = [] then 0 else h.qd, an := 0, ns := 0, ar := 0 }

/-! ## The query and the response -/

/-- knotd_query_proto_t, src/knot/include/module.h:391-397. -/
inductive Proto where
  | udp | tcp | quic | tls
  deriving DecidableEq, Repr

/-- The family of the address of the client. -/
inductive Family where
  | inet | inet6 | unix | other
  deriving DecidableEq, Repr

/-- The OPT record of a query: what is read of it. Of the option client subnet: its length and whether it can be parsed. -/
structure QOpt where
  payload : Nat
  version : Nat
  dnssec : Bool
  nsid : Bool
  ecs : Option (Nat × Bool)
  expire : Bool
  deriving DecidableEq, Repr

/-- The query after knot_pkt_parse(): the question as on the wire, empty if there is none; the length of its TSIG record. -/
structure Query where
  hdr : Hdr
  size : Nat
  parsed : Nat
  question : Bytes
  qname : Name
  qtype : Nat
  qclass : Nat
  opt : Option QOpt
  tsig : Option Nat
  deriving DecidableEq, Repr

/-- An EDNS option: its code, the length of its data, its value as a number if it is one. -/
structure Item where
  code : Nat
  len : Nat
  val : Nat
  deriving DecidableEq, Repr

/-- An OPT record to be sent. -/
structure Opt where
  payload : Nat
  ext : Nat
  version : Nat
  dnssec : Bool
  items : List Item
  deriving DecidableEq, Repr

/-- knot_edns_wire_size(), src/libknot/rrtype/opt.h:126-131. It is knot_rrset_size() too, as the owner is the root. -/
def Opt.wireSize (o : Opt) : Nat := 11 + (o.items.map (fun i => 4 + i.len)).sum

/-- knot_edns_add_option() and knot_edns_reserve_option(), src/libknot/rrtype/opt.c:178-216. -/
def Opt.add (o : Opt) (i : Item) : Opt := { o with items := o.items ++ [i] }

/-- knot_pkt_t, src/libknot/packet/pkt.h:74-111, of the response: the OPT record with its position. -/
structure Pkt where
  hdr : Hdr
  question : Bytes
  size : Nat
  reserved : Nat
  maxSize : Nat
  current : Nat
  opt : Option (Nat × Opt)
  deriving DecidableEq, Repr

/-- The zone of a query: whether it has contents, whether it is a catalog, the times of its expiration. -/
structure Zone where
  contents : Bool
  catalog : Bool
  dnssecExpire : Nat
  nextExpire : Nat
  soaExpire : Nat
  deriving DecidableEq, Repr

/-- knotd_qdata_t, src/knot/include/module.h:421-439, with its extra: `key` is the length of the TSIG record that signing
with the key adds. -/
structure Qdata where
  rcode : Nat := 0
  ede : Option Nat := none
  truncated : Bool := false
  rcodeTsig : Nat := 0
  key : Option Nat := none
  opt : Option Opt := none
  optPos : Option Nat := none
  zone : Option Zone := none
  deriving DecidableEq, Repr

/-- The state of processing. -/
structure St where
  pkt : Pkt
  qd : Qdata
  deriving DecidableEq, Repr

/-- knot_layer_state_t, src/knot/query/layer.h:29-38, as far as processing of queries uses it. -/
inductive LState where
  | noop | consume | produce | done | fail | final
  deriving DecidableEq, Repr

/-! ## The packet -/

/-- pkt_remaining(), src/libknot/packet/pkt.c:108-113. -/
def remaining (p : Pkt) : Nat := (p.maxSize + 65536 * (p.size + p.reserved) - p.size - p.reserved) % 65536

/-- knot_pkt_reserve(), src/libknot/packet/pkt.c:410-423. -/
def reserve (p : Pkt) (n : Nat) : Option Pkt := if n ≤ remaining p then some { p with reserved := p.reserved + n } else none

/-- knot_pkt_reclaim(), src/libknot/packet/pkt.c:426-438. -/
def reclaim (p : Pkt) (n : Nat) : Option Pkt := if n ≤ p.reserved then some { p with reserved := p.reserved - n } else none

/-- knot_pkt_begin(), src/libknot/packet/pkt.c:441-456. -/
def begin (p : Pkt) (sec : Nat) : Pkt := if sec < p.current then p else { p with current := sec }

/-- knot_pkt_init_response(), src/libknot/packet/pkt.c:322-363, then knot_wire_clear_cd(). -/
def initResponse (p : Pkt) (q : Query) : Option Pkt :=
  if 12 + q.question.length > p.maxSize then none
  else some { p with hdr := q.hdr.response q.question, question := q.question, size := 12 + q.question.length, reserved := 0,
                     current := 0, opt := none }

/-- pkt_rr_wirecount_add(), src/libknot/packet/pkt.c:128-137. -/
def count (h : Hdr) (sec n : Nat) : Hdr :=
  if sec = 0 then { h with an := h.an + n } else if sec = 1 then { h with ns := h.ns + n } else { h with ar := h.ar + n }

/-- knot_pkt_put_rotate(), src/libknot/packet/pkt.c:501-571, of `n` records that take `len` bytes. -/
def putRr (p : Pkt) (n len : Nat) (notrunc : Bool) : Pkt :=
  if len ≤ remaining p then { p with hdr := count p.hdr p.current n, size := p.size + len }
  else if notrunc then p
  else { p with hdr := p.hdr.setTc }

/-- knot_pkt_put() of the OPT record. -/
def putOpt (p : Pkt) (o : Opt) : Option Pkt :=
  if o.wireSize ≤ remaining p then
    some { p with hdr := count p.hdr p.current 1, size := p.size + o.wireSize, opt := some (p.size, o) }
  else none

/-! ## What modules and handlers do -/

/-- One step of a handler or a hook. -/
inductive Act where
  /-- knot_pkt_begin() -/
  | begin (sec : Nat)
  /-- knot_pkt_put() -/
  | put (n len : Nat) (notrunc : Bool)
  /-- knot_pkt_reserve() for TSIG -/
  | reserve (n : Nat)
  /-- put_cookie(), src/knot/modules/cookies/cookies.c:121-146 -/
  | cookie (len : Nat)
  /-- knot_wire_set_aa() -/
  | aa
  /-- knot_wire_set_tc() -/
  | tc
  /-- qdata->rcode -/
  | rcode (r : Nat)
  /-- qdata->rcode_ede -/
  | ede (e : Nat)
  /-- qdata->err_truncated -/
  | truncated
  /-- qdata->sign.tsig_key and qdata->rcode_tsig by process_query_acl_check() and process_query_verify() -/
  | tsig (key : Option Nat) (rcode : Nat)
  deriving DecidableEq, Repr

/-- One step. -/
def act (s : St) : Act → St
  | .begin sec => { s with pkt := begin s.pkt sec }
  | .put n len t => { s with pkt := putRr s.pkt n len t }
  | .reserve n => { s with pkt := (reserve s.pkt n).getD s.pkt }
  | .cookie len => ⟨(reserve s.pkt (4 + len)).getD s.pkt, { s.qd with opt := s.qd.opt.map (fun o => o.add ⟨10, len, 0⟩) }⟩
  | .aa => { s with pkt := { s.pkt with hdr := s.pkt.hdr.setAa } }
  | .tc => { s with pkt := { s.pkt with hdr := s.pkt.hdr.setTc } }
  | .rcode r => { s with qd := { s.qd with rcode := r } }
  | .ede e => { s with qd := { s.qd with ede := some e } }
  | .truncated => { s with qd := { s.qd with truncated := true } }
  | .tsig k r => { s with qd := { s.qd with key := k, rcodeTsig := r } }

/-- All steps. -/
def run (s : St) (l : List Act) : St := l.foldl act s

/-- A hook or a handler: what it does in this state, and the next state. -/
abbrev Hook := St → List Act × LState

/-- The configuration, the client and the modules. -/
structure Env where
  /-- udp-max-payload-ipv4 -/
  max4 : Nat
  /-- udp-max-payload-ipv6 -/
  max6 : Nat
  /-- the length of nsid, 0 for none -/
  nsid : Nat
  /-- edns-client-subnet -/
  ecs : Bool
  proto : Proto
  family : Family
  /-- the time -/
  now : Nat
  zonedb : List (Name × Zone)
  /-- the decision about a transfer of a catalog, with the length of TSIG of the key -/
  acl : Option (Option Nat)
  /-- the hooks at the beginning, those for all zones first -/
  beginHooks : Option Zone → List Hook
  /-- internet_process_query() and so on -/
  handler : Hook
  /-- knot_chaos_answer(): the rcode -/
  chaos : St → List Act × Nat
  /-- the hooks at the end -/
  endHooks : Option Zone → List Hook

/-! ## The functions -/

/-- knotd_query_type_t, src/knot/include/module.h:381-389. -/
inductive QType where
  | invalid | normal | axfr | ixfr | notify | update
  deriving DecidableEq, Repr

/-- query_type(), src/knot/nameserver/process_query.c:43-58. -/
def queryType (q : Query) : QType :=
  if q.hdr.opcode = 0 then
    if q.qtype = 0 then .invalid else if q.qtype = 252 then .axfr else if q.qtype = 251 then .ixfr else .normal
  else if q.hdr.opcode = 4 then .notify
  else if q.hdr.opcode = 5 then .update
  else .invalid

/-- process_query_in(), src/knot/nameserver/process_query.c:124-145. -/
def consume (q : Query) : LState :=
  if q.parsed < 12 then .noop else if q.hdr.f1 &&& 0x80 ≠ 0 then .noop else .produce

/-- The second search in answer_zone_find(), src/knot/nameserver/process_query.c:216-223. -/
def zoneDirect (db : List (Name × Zone)) (q : Query) : Option Zone :=
  if queryType q = .normal then Zones.deepest db q.qname else Zones.find db q.qname

/-- answer_zone_find(), src/knot/nameserver/process_query.c:189-226. -/
def zoneFind (db : List (Name × Zone)) (q : Query) : Option Zone :=
  if q.qclass ≠ 1 ∧ q.qclass ≠ 255 then none
  else if q.qtype = 43 ∧ q.qname ≠ [] then (Zones.deepest db q.qname.tail).or (zoneDirect db q)
  else zoneDirect db q

/-- answer_edns_reserve(), src/knot/nameserver/process_query.c:228-236. -/
def ednsReserve (s : St) : Option St :=
  match s.qd.opt with
  | none => some s
  | some o => (reserve s.pkt o.wireSize).map (fun p => { s with pkt := p })

/-- The size in the OPT record, src/knot/nameserver/process_query.c:246-261. -/
def maxPayload (e : Env) : Option Nat :=
  match e.family with
  | .inet => some e.max4
  | .inet6 => some e.max6
  | .unix => some (min e.max4 e.max6)
  | .other => none

/-- NSID, src/knot/nameserver/process_query.c:278-292. -/
def addNsid (e : Env) (o : QOpt) (r : Opt) : Opt := if o.nsid && decide (0 < e.nsid) then r.add ⟨3, e.nsid, 0⟩ else r

/-- The option of the client subnet if it counts, src/knot/nameserver/process_query.c:295-297. -/
def ecsOf (e : Env) (o : QOpt) : Option (Nat × Bool) := if e.ecs then o.ecs else none

/-- answer_edns_init(), src/knot/nameserver/process_query.c:238-322: whether it succeeded. -/
def ednsInit (e : Env) (q : Query) (s : St) : Bool × St :=
  match q.opt with
  | none => (true, s)
  | some o =>
    match maxPayload e with
    | none => (false, s)
    | some m =>
      let r := addNsid e o ⟨m, 0, 0, o.dnssec, []⟩
      let rcode := if o.version ≠ 0 then 16 else s.qd.rcode
      match ecsOf e o with
      | some (_, false) => (false, { s with qd := { s.qd with opt := some r, rcode := 1 } })
      | some (n, true) =>
        match ednsReserve { s with qd := { s.qd with opt := some (r.add ⟨8, n, 0⟩), rcode := rcode } } with
        | none => (false, { s with qd := { s.qd with opt := some (r.add ⟨8, n, 0⟩), rcode := rcode } })
        | some s => (true, s)
      | none =>
        match ednsReserve { s with qd := { s.qd with opt := some r, rcode := rcode } } with
        | none => (false, { s with qd := { s.qd with opt := some r, rcode := rcode } })
        | some s => (true, s)

/-- knot_time_min(), src/contrib/time.h:100-107: 0 is never. -/
def timeMin (a b : Nat) : Nat := if a = 0 ∨ b = 0 then a + b else min a b

/-- The value of EXPIRE, src/knot/nameserver/process_query.c:366-373: `MAX(0, expire - time(NULL))` is in uint64_t, and then
in uint32_t. -/
def expireTimer (z : Zone) (now : Nat) : Nat :=
  if timeMin z.dnssecExpire z.nextExpire = 0 then z.soaExpire
  else (timeMin z.dnssecExpire z.nextExpire + 2 ^ 64 - now) % 2 ^ 64 % 2 ^ 32

/-- EDE, src/knot/nameserver/process_query.c:346-362. -/
def addEde (s : St) (o : Opt) : Opt :=
  match s.qd.ede with
  | none => o
  | some c => if 6 ≤ remaining s.pkt then o.add ⟨15, 2, c⟩ else o

/-- EXPIRE, src/knot/nameserver/process_query.c:364-389. -/
def addExpire (e : Env) (q : Query) (s : St) (o : Opt) : Opt :=
  match q.opt, s.qd.zone with
  | some qo, some z =>
    if qo.expire && z.contents && !z.catalog && decide (8 ≤ remaining s.pkt) then o.add ⟨9, 4, expireTimer z e.now⟩ else o
  | _, _ => o

/-- knot_edns_alignment_size(), src/libknot/rrtype/opt.c:291-308. -/
def alignment (pkt opt block : Nat) : Option Nat :=
  if opt = 0 ∨ block = 0 then none
  else if (pkt + opt) % block = 0 then none
  else some (if (pkt + opt + 4) % block = 0 then 0 else block - (pkt + opt + 4) % block)

/-- Padding, src/knot/nameserver/process_query.c:397-406, with knot_pkt_default_padding_size(),
src/libknot/packet/pkt.h:399-411, for a response. -/
def addPadding (e : Env) (p : Pkt) (o : Opt) : Opt :=
  if e.proto = .quic ∨ e.proto = .tls then
    match alignment (p.size + p.reserved) o.wireSize 468 with
    | none => o
    | some n => o.add ⟨12, n, 0⟩
  else o

/-- answer_edns_put(), src/knot/nameserver/process_query.c:324-419: whether it succeeded. The section is the additional one,
as it was begun before; writing the option client subnet in the space for it succeeds. -/
def ednsPut (e : Env) (q : Query) (s : St) : Bool × St :=
  match s.qd.opt with
  | none => (true, s)
  | some o =>
    let o' := addExpire e q s (addEde s o)
    match reclaim s.pkt o.wireSize with
    | none => (false, { s with qd := { s.qd with opt := some o' } })
    | some p =>
      let o'' := addPadding e p o'
      match putOpt p o'' with
      | none => (false, ⟨{ p with hdr := p.hdr.setTc }, { s.qd with opt := some o'' }⟩)
      | some p' => (true, ⟨p', { s.qd with opt := some o'', optPos := some p.size }⟩)

/-- The limit for the response, src/knot/nameserver/process_query.c:439-461. -/
def limit (e : Env) (q : Query) : Option Nat :=
  if e.proto = .udp then
    match q.opt with
    | none => some 512
    | some o =>
      match e.family with
      | .inet => some (max 512 (min o.payload e.max4))
      | .inet6 => some (max 512 (min o.payload e.max6))
      | _ => none
  else some 65535

/-- The code if there is no question, src/knot/nameserver/process_query.c:464-476. -/
def noQuestion (q : Query) : Nat := if q.hdr.opcode = 0 ∨ q.hdr.opcode = 4 ∨ q.hdr.opcode = 5 then 1 else 4

/-- The check of the client of a catalog, src/knot/nameserver/process_query.c:484-491, with process_query_acl_check(),
684-784. -/
def catalogCheck (e : Env) (q : Query) (s : St) : St :=
  match s.qd.zone with
  | none => s
  | some z =>
    if z.catalog && decide (queryType q = .normal) then
      match e.acl with
      | none => { s with qd := { s.qd with rcode := 9, rcodeTsig := 0, key := none, zone := none } }
      | some k => { s with qd := { s.qd with key := k } }
    else s

/-- prepare_answer(), src/knot/nameserver/process_query.c:422-494: whether it succeeded. -/
def prepare (e : Env) (q : Query) (s : St) : Bool × St :=
  match initResponse s.pkt q with
  | none => (false, s)
  | some p =>
    match ednsInit e q { s with pkt := p } with
    | (false, s) => (false, s)
    | (true, s) =>
      if s.qd.rcode ≠ 0 then (false, s)
      else
        match limit e q with
        | none => (false, { s with pkt := { s.pkt with maxSize := 512 } })
        | some m =>
          if q.question = [] then
            (false, ⟨{ s.pkt with maxSize := m }, { s.qd with rcode := noQuestion q }⟩)
          else (true, catalogCheck e q ⟨{ s.pkt with maxSize := m }, { s.qd with zone := zoneFind e.zonedb q }⟩)

/-- knot_edns_set_ext_rcode_wire(), src/libknot/rrtype/opt.h:218-222. Where there is no OPT record any more, nothing of the
message changes: that is after its end. -/
def setExt (p : Pkt) (pos ext : Nat) : Pkt :=
  match p.opt with
  | none => p
  | some (a, o) => if a = pos then { p with opt := some (a, { o with ext := ext }) } else p

/-- set_rcode_to_packet(), src/knot/nameserver/process_query.c:496-511. -/
def setRcode (s : St) : St :=
  if s.qd.rcode / 16 % 256 ≠ 0 then
    match s.qd.optPos with
    | none => { s with pkt := { s.pkt with hdr := s.pkt.hdr.setRcode 2 } }
    | some pos =>
      { s with pkt := { setExt s.pkt pos (s.qd.rcode / 16 % 256) with hdr := s.pkt.hdr.setRcode (s.qd.rcode % 16) } }
  else { s with pkt := { s.pkt with hdr := s.pkt.hdr.setRcode (s.qd.rcode % 16) } }

/-- knot_tsig_append() at the end of knot_tsig_sign() and knot_tsig_add(): a record of `n` bytes. -/
def appendTsig (p : Pkt) (n : Nat) : Option Pkt :=
  if p.size + n ≤ p.maxSize then some { p with hdr := { p.hdr with ar := p.hdr.ar + 1 }, size := p.size + n } else none

/-- The length of the TSIG record that process_query_sign_response(), src/knot/nameserver/process_query.c:857-905, adds. -/
def tsigLen (q : Query) (d : Qdata) : Option Nat :=
  match d.key with
  | some n => if d.rcodeTsig = 0 ∨ d.rcodeTsig = 18 then some n else if d.rcodeTsig ≠ 0 then q.tsig else none
  | none => if d.rcodeTsig ≠ 0 then q.tsig else none

/-- process_query_sign_response(), src/knot/nameserver/process_query.c:857-905: whether it succeeded. It fails for lack of
space. -/
def sign (q : Query) (s : St) : Bool × St :=
  match tsigLen q s.qd with
  | none => (true, s)
  | some n =>
    match appendTsig s.pkt n with
    | some p => (true, { s with pkt := p })
    | none => (false, { s with qd := { s.qd with rcode := 2, rcodeTsig := 0 } })

/-- TC in process_query_err(), src/knot/nameserver/process_query.c:525-528. -/
def errTrunc (s : St) : St :=
  if s.qd.truncated then { s with pkt := { s.pkt with hdr := s.pkt.hdr.setAa.setTc } } else s

/-- OPT in process_query_err(), src/knot/nameserver/process_query.c:535-539. -/
def errOpt (e : Env) (q : Query) (s : St) : St :=
  match ednsReserve s with
  | none => { s with qd := { s.qd with rcode := 1 } }
  | some s' =>
    match ednsPut e q s' with
    | (true, s) => s
    | (false, s) => { s with qd := { s.qd with rcode := 1 } }

/-- The code by default, src/knot/nameserver/process_query.c:542-545. -/
def errRcode (s : St) : St :=
  if s.qd.rcode = 0 ∧ s.qd.truncated = false then { s with qd := { s.qd with rcode := 2 } } else s

/-- The signature, src/knot/nameserver/process_query.c:549-551. -/
def errSign (q : Query) (s : St) : St :=
  match sign q s with
  | (true, s) => s
  | (false, s) => setRcode s

/-- process_query_err(), src/knot/nameserver/process_query.c:513-554. -/
def err (e : Env) (q : Query) (s : St) : St :=
  let s := { s with pkt := (initResponse s.pkt q).getD s.pkt }
  let s := errTrunc s
  let s := { s with pkt := begin s.pkt 2 }
  errSign q (setRcode (errRcode (errOpt e q s)))

/-- PROCESS_BEGIN, src/knot/nameserver/process_query.c:556-565. -/
def beginAll (n : LState) (s : St) : List Hook → LState × St
  | [] => (n, s)
  | h :: l => if (h s).2 = .fail then (.fail, run s (h s).1) else beginAll (h s).2 (run s (h s).1) l

/-- PROCESS_END, src/knot/nameserver/process_query.c:567-576. -/
def endAll (e : Env) (q : Query) (n : LState) (s : St) : List Hook → LState × St
  | [] => (n, s)
  | h :: l =>
    if (h s).2 = .fail then endAll e q .done (err e q (run s (h s).1)) l else endAll e q (h s).2 (run s (h s).1) l

/-- query_internet(), src/knot/nameserver/process_query.c:150-165. -/
def internet (e : Env) (q : Query) (s : St) : LState × St :=
  if queryType q = .invalid then (.fail, { s with qd := { s.qd with rcode := 4 } })
  else ((e.handler s).2, run s (e.handler s).1)

/-- query_chaos(), src/knot/nameserver/process_query.c:170-186. -/
def chaosAnswer (e : Env) (q : Query) (s : St) : LState × St :=
  if queryType q ≠ .normal then (.fail, { s with qd := { s.qd with rcode := 4 } })
  else
    let s' := run s (e.chaos s).1
    (if (e.chaos s).2 = 0 then .done else .fail, { s' with qd := { s'.qd with rcode := (e.chaos s).2 } })

/-- The switch of the class in process_query_out(), src/knot/nameserver/process_query.c:614-628. -/
def byClass (e : Env) (q : Query) (s : St) : LState × St :=
  if q.qclass = 3 then chaosAnswer e q s
  else if q.qclass = 255 ∨ q.qclass = 1 then internet e q s
  else (.fail, { s with qd := { s.qd with rcode := 5 } })

/-- The processing after that, src/knot/nameserver/process_query.c:631-655. -/
def post (e : Env) (q : Query) (n : LState) (s : St) : LState × St :=
  if n = .done ∨ n = .produce then
    match ednsPut e q { s with pkt := begin s.pkt 2 } with
    | (false, s) => (.fail, { s with qd := { s.qd with rcode := 1 } })
    | (true, s) =>
      match sign q s with
      | (false, s) => (.fail, s)
      | (true, s) => (n, s)
  else (n, s)

/-- The end, src/knot/nameserver/process_query.c:657-671. -/
def finish (e : Env) (q : Query) (n : LState) (s : St) : LState × St :=
  match n with
  | .noop => (.noop, s)
  | .fail => (.done, err e q s)
  | .final => (.done, s)
  | _ => (n, setRcode s)

/-- Between the hooks at the beginning and the end, src/knot/nameserver/process_query.c:613-655. -/
def middle (e : Env) (q : Query) (n : LState) (s : St) : LState × St :=
  if n = .fail then (n, s)
  else
    let r := if n = .produce then byClass e q s else (n, s)
    post e q r.1 r.2

/-- process_query_out(), src/knot/nameserver/process_query.c:578-680. -/
def produce (e : Env) (q : Query) (s : St) : LState × St :=
  if q.parsed < q.size then
    let r := finish e q .fail { s with qd := { s.qd with rcode := 1 } }
    endAll e q r.1 r.2 (e.endHooks none)
  else
    match prepare e q s with
    | (false, s) =>
      let r := finish e q .fail s
      endAll e q r.1 r.2 (e.endHooks none)
    | (true, s) =>
      let b := beginAll .produce s (e.beginHooks s.qd.zone)
      let m := middle e q b.1 b.2
      let r := finish e q m.1 m.2
      endAll e q r.1 r.2 (e.endHooks s.qd.zone)

/-- process_query_begin(), src/knot/nameserver/process_query.c:76-90, and an empty packet of 65535 bytes as the response,
handle_udp_reply(), src/knot/server/handler.c:54-74. -/
def start (garbage : Hdr) : St := ⟨⟨garbage, [], 65535, 0, 65535, 0, none⟩, {}⟩

end Knot.Query
