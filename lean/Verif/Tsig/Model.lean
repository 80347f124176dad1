import Verif.Dname.Model
import Verif.WireCtx.Model
/-!
# TSIG

src/libknot/tsig-op.c, src/libknot/rrtype/tsig.c, src/libdnssec/tsig.c, src/knot/nameserver/tsig_ctx.c. HMAC (GnuTLS)
is a parameter `hmac`; its initialisation does not fail. Memory allocation does not fail. Keys have an algorithm that
is known.
-/
namespace Knot.Tsig
open WireCtx (Ctx beBytes beVal load store)

abbrev Bytes := List UInt8

/-! ## Algorithms -/

/-- dnssec_tsig_algorithm_t without DNSSEC_TSIG_UNKNOWN, src/libdnssec/tsig.h:38-46. -/
inductive Alg where
  | md5 | sha1 | sha224 | sha256 | sha384 | sha512
  deriving DecidableEq, Repr

/-- dnssec_tsig_algorithm_size(), src/libdnssec/tsig.c:225-230: the length of the digest (gnutls_hmac_get_len()). -/
def Alg.size : Alg → Nat
  | .md5 => 16 | .sha1 => 20 | .sha224 => 28 | .sha256 => 32 | .sha384 => 48 | .sha512 => 64

/-- ALGORITHM_ID_TABLE, src/libdnssec/tsig.c:48-58: the name in wire format. -/
def Alg.dname : Alg → Bytes
  | .sha1 => [9, 104, 109, 97, 99, 45, 115, 104, 97, 49, 0]
  | .sha224 => [11, 104, 109, 97, 99, 45, 115, 104, 97, 50, 50, 52, 0]
  | .sha256 => [11, 104, 109, 97, 99, 45, 115, 104, 97, 50, 53, 54, 0]
  | .sha384 => [11, 104, 109, 97, 99, 45, 115, 104, 97, 51, 56, 52, 0]
  | .sha512 => [11, 104, 109, 97, 99, 45, 115, 104, 97, 53, 49, 50, 0]
  | .md5 => [8, 104, 109, 97, 99, 45, 109, 100, 53, 7, 115, 105, 103, 45, 97, 108, 103, 3, 114, 101, 103, 3, 105, 110,
      116, 0]

/-- The order of ALGORITHM_ID_TABLE. -/
def table : List Alg := [.sha1, .sha224, .sha256, .sha384, .sha512, .md5]

/-- dname_equal(), src/libdnssec/shared/dname.c:132-165, with label_casecmp(), 115-127: both labels must lie inside
their objects even if the comparison would stop early. -/
def dnameEqual (one two : Bytes) : Res Bool :=
  match one, two with
  | [], _ => .ub
  | _ :: _, [] => .ub
  | a :: s, b :: t =>
    if a.toNat ≠ b.toNat then .ok false
    else if a.toNat = 0 then .ok true
    else if a.toNat > 63 then .ok false
    else if s.length < a.toNat ∨ t.length < a.toNat then .ub
    else if (s.take a.toNat).map Dname.toLower ≠ (t.take a.toNat).map Dname.toLower then .ok false
    else dnameEqual (s.drop a.toNat) (t.drop a.toNat)
termination_by one.length
decreasing_by simp only [List.length_drop, List.length_cons]; omega

/-- lookup_algorithm() with match_dname(), src/libdnssec/tsig.c:68-86. -/
def lookup (d : Bytes) : List Alg → Res (Option Alg)
  | [] => .ok none
  | a :: l => do
    let e ← dnameEqual d a.dname
    if e then .ok (some a) else lookup d l

/-- dnssec_tsig_algorithm_from_dname(), src/libdnssec/tsig.c:111-120. -/
def algFrom (d : Bytes) : Res (Option Alg) := lookup d table

/-! ## RDATA -/

/-- The record: knot_rrset_t with one record, src/libknot/rrset.h:41-49. The owner is in wire format. -/
structure Rr where
  owner : Bytes
  cls : Nat
  ttl : Nat
  rdata : Bytes
  deriving DecidableEq, Repr

/-- tsig_off_t, src/libknot/rrtype/tsig.c:35-45. -/
inductive Field where
  | time | fudge | macLen | mac | origId | error | otherLen | other
  deriving DecidableEq, Repr

/-- `wire_ctx_skip(&wire, wire_ctx_read_u16(&wire))`, src/libknot/rrtype/tsig.c:88. -/
def skip16 (c : Ctx) : Res Ctx := do
  let (n, c) ← WireCtx.readU c 2
  .ok (WireCtx.skip c n)

/-- The switch in rdata_seek(), src/libknot/rrtype/tsig.c:72-111: the context and the number of bytes required;
`none` is NULL. -/
def seekField (c : Ctx) (algLen nb : Nat) : Field → Res (Option (Ctx × Nat))
  | .time => .ok (some (WireCtx.skip c algLen, nb))
  | .fudge => .ok (some (WireCtx.skip c (algLen + 6 : Nat), nb))
  | .macLen => .ok (some (WireCtx.skip c (algLen + 8 : Nat), nb))
  | .mac => .ok (some (WireCtx.skip c (algLen + 10 : Nat), nb))
  | .origId => do
    let c ← skip16 (WireCtx.skip c (algLen + 8 : Nat))
    .ok (some (c, nb))
  | .error => do
    let c ← skip16 (WireCtx.skip c (algLen + 8 : Nat))
    .ok (some (WireCtx.skip c 2, nb))
  | .otherLen => do
    let c ← skip16 (WireCtx.skip c (algLen + 8 : Nat))
    .ok (some (WireCtx.skip c 4, nb))
  | .other => do
    let c ← skip16 (WireCtx.skip c (algLen + 8 : Nat))
    if nb ≠ 0 then .ub
    else
      let (n, c) ← WireCtx.readU (WireCtx.skip c 4) 2
      if WireCtx.available c ≠ n then .ok none else .ok (some (c, n))

/-- rdata_seek(), src/libknot/rrtype/tsig.c:60-123: the offset of the field. -/
def seek (rd : Bytes) (f : Field) (nb : Nat) : Res (Option Nat) :=
  if rd.length = 0 then .ok none
  else do
    let algLen ← Dname.size rd
    let r ← seekField (WireCtx.initConst rd rd.length) algLen nb f
    match r with
    | none => .ok none
    | some (c, nb) =>
      if c.error ≠ none then .ok none
      else if WireCtx.available c < nb then .ok none
      else .ok (some c.pos)

/-- knot_tsig_rdata_time_signed(), _fudge(), _mac_length(), _orig_id(), _error(), _other_data_length(),
src/libknot/rrtype/tsig.c:267-286, 298-326, 338-346: a number of `n` bytes; 0 if it is not there. -/
def get (rd : Bytes) (f : Field) (n : Nat) : Res Nat := do
  let p ← seek rd f n
  match p with
  | none => .ok 0
  | some p => do
    let d ← load rd p n
    .ok (beVal d)

/-- knot_tsig_rdata_set_time_signed(), _fudge(), _mac(), _orig_id(), rdata_set_tsig_error(),
src/libknot/rrtype/tsig.c:125-134, 170-220: nothing is done if there is no place; the result is not looked at by the
callers. -/
def set (rd : Bytes) (f : Field) (d : Bytes) : Res Bytes := do
  let p ← seek rd f d.length
  match p with
  | none => .ok rd
  | some p => store rd p d

/-- knot_tsig_rdata_set_other_data(), src/libknot/rrtype/tsig.c:222-243. -/
def setOther (rd : Bytes) (d : Bytes) : Res Bytes :=
  if d.length > 6 then .ok rd
  else do
    let p ← seek rd .otherLen (d.length + 2)
    match p with
    | none => .ok rd
    | some p => do
      let rd ← store rd p (beBytes 2 d.length)
      store rd (p + 2) d

/-- knot_tsig_create_rdata(), src/libknot/rrtype/tsig.c:136-168. -/
def createRdata (alg : Bytes) (macLen err : Nat) : Res Bytes := do
  let algLen ← Dname.size alg
  let rd := List.replicate (algLen + 16 + macLen + if err = 18 then 6 else 0) (0 : UInt8)
  let n ← Dname.copyAll alg
  let rd ← store rd 0 n
  let rd ← store rd (algLen + 8) (beBytes 2 macLen)
  set rd .error (beBytes 2 err)

/-- knot_tsig_rdata_is_ok(), src/libknot/rrtype/tsig.c:406-413. -/
def isOk (rr : Rr) : Res Bool := do
  let p ← seek rr.rdata .other 0
  .ok p.isSome

/-! ## The data that is signed -/

/-- knot_tsig_key_t, src/libknot/tsig.h:34-38. -/
structure Key where
  name : Bytes
  alg : Alg
  secret : Bytes
  deriving DecidableEq, Repr

/-- knot_tsig_rdata_tsig_variables_length(), src/libknot/rrtype/tsig.c:348-369. -/
def variablesLength (rr : Rr) : Res Nat := do
  let a ← Dname.size rr.owner
  let b ← Dname.size rr.rdata
  let n ← get rr.rdata .otherLen 2
  .ok (a + b + n + 18)

/-- write_tsig_variables(), src/libknot/tsig-op.c:138-204: to `mem` from `pos` on. knot_dname_to_wire() fails for
names longer than 255, then the offset would go backwards. -/
def writeVariables (mem : Bytes) (pos : Nat) (rr : Rr) : Res Bytes := do
  let owner ← Dname.copyAll rr.owner
  if owner.length > 255 then .ub
  else
    let mem ← store mem pos owner
    let off := pos + owner.length
    let mem ← store mem off (beBytes 2 rr.cls)
    let mem ← store mem (off + 2) (beBytes 4 rr.ttl)
    let alg ← Dname.copyAll rr.rdata
    if alg.length > 255 then .ub
    else
      let mem ← store mem (off + 6) alg
      let low ← Dname.copyLower (mem.drop (off + 6))
      let mem ← store mem (off + 6) low
      let off := off + 6 + alg.length
      let time ← get rr.rdata .time 6
      let mem ← store mem off (beBytes 6 time)
      let fudge ← get rr.rdata .fudge 2
      let mem ← store mem (off + 6) (beBytes 2 fudge)
      let error ← get rr.rdata .error 2
      let mem ← store mem (off + 8) (beBytes 2 error)
      let n ← get rr.rdata .otherLen 2
      let p ← seek rr.rdata .other 0
      match p with
      | none => .err .einval
      | some p => do
        let mem ← store mem (off + 10) (beBytes 2 n)
        let d ← load rr.rdata p n
        store mem (off + 12) d

/-- wire_write_timers(), src/libknot/tsig-op.c:206-218. -/
def writeTimers (mem : Bytes) (pos : Nat) (rr : Rr) : Res Bytes := do
  let time ← get rr.rdata .time 6
  let mem ← store mem pos (beBytes 6 time)
  let fudge ← get rr.rdata .fudge 2
  store mem (pos + 6) (beBytes 2 fudge)

/-- create_sign_wire(), src/libknot/tsig-op.c:220-276: the data for compute_digest(). -/
def signWire (msg mac : Bytes) (rr : Rr) : Res Bytes := do
  let v ← variablesLength rr
  let mem := List.replicate (msg.length + mac.length + (if mac.length > 0 then 2 else 0) + v) (0 : UInt8)
  if mac.length > 0 then do
    let mem ← store mem 0 (beBytes 2 mac.length)
    let mem ← store mem 2 mac
    let mem ← store mem (2 + mac.length) msg
    writeVariables mem (2 + mac.length + msg.length) rr
  else do
    let mem ← store mem 0 msg
    writeVariables mem msg.length rr

/-- create_sign_wire_next(), src/libknot/tsig-op.c:278-327, and the same in knot_tsig_sign_next(), 446-467. -/
def signWireNext (msg mac : Bytes) (rr : Rr) : Res Bytes := do
  let mem := List.replicate (msg.length + mac.length + 8 + 2) (0 : UInt8)
  let mem ← store mem 0 (beBytes 2 mac.length)
  let mem ← store mem 2 mac
  let mem ← store mem (mac.length + 2) msg
  writeTimers mem (mac.length + msg.length + 2) rr

/-- The choice in check_digest(), src/libknot/tsig-op.c:548-560. `next` is `use_times`. -/
def signData (next : Bool) (msg mac : Bytes) (rr : Rr) : Res Bytes :=
  if next then signWireNext msg mac rr else signWire msg mac rr

/-- knot_tsig_wire_size(), src/libknot/rrtype/tsig.c:378-392. -/
def wireSize (key : Key) : Res Nat := do
  let n ← Dname.size key.name
  let a ← Dname.size key.alg.dname
  .ok (n + 16 + 2 + 2 + 4 + 2 + a + key.alg.size)

/-! ## Checking -/

/-- check_algorithm(), src/libknot/tsig-op.c:38-55. -/
def checkAlgorithm (rr : Rr) : Res Alg := do
  let a ← algFrom rr.rdata
  match a with
  | none => .err .tsigBadKey
  | some a => .ok a

/-- check_key(), src/libknot/tsig-op.c:57-73. -/
def checkKey (rr : Rr) (key : Key) : Res Unit := do
  let e ← Dname.isEqual rr.owner key.name
  if e then .ok () else .err .tsigBadKey

/-- check_time_signed(), src/libknot/tsig-op.c:103-136. Differences of times below 2^53 are exact in `double`. -/
def checkTime (now : Nat) (rr : Rr) (prev : Nat) : Res Unit := do
  let time ← get rr.rdata .time 6
  if time = 0 then .err .tsigBadTime
  else do
    let fudge ← get rr.rdata .fudge 2
    if fudge = 0 then .err .tsigBadTime
    else if (now : Int) - time > fudge ∨ (now : Int) - time < -fudge then .err .tsigBadTime
    else if (time : Int) - prev < 0 then .err .tsigBadTime
    else .ok ()

/-- check_digest(), src/libknot/tsig-op.c:507-593. The digest is in a buffer of 64 bytes, of which those after the
digest are not initialised; to read them is undefined. `next` is `use_times`. -/
def check (hmac : Alg → Bytes → Bytes → Bytes) (now : Nat) (rr : Rr) (msg mac : Bytes) (key : Key) (prev : Nat)
    (next : Bool) : Res Unit := do
  let alg ← checkAlgorithm rr
  let _ ← checkKey rr key
  let id ← get rr.rdata .origId 2
  let toSign ← store msg 0 (beBytes 2 id)
  let data ← signData next toSign mac rr
  let digest := hmac key.alg key.secret data
  let n ← get rr.rdata .macLen 2
  let p ← seek rr.rdata .mac 0
  if n ≠ alg.size then .err .tsigBadSig
  else
    match p with
    | none => .ub
    | some p => do
      let theirs ← load rr.rdata p n
      let ours ← load digest 0 n
      if theirs ≠ ours then .err .tsigBadSig
      else checkTime now rr prev

/-- knot_tsig_server_check(), src/libknot/tsig-op.c:595-601. -/
def serverCheck (hmac : Alg → Bytes → Bytes → Bytes) (now : Nat) (rr : Rr) (msg : Bytes) (key : Key) : Res Unit :=
  check hmac now rr msg [] key 0 false

/-- knot_tsig_client_check(), src/libknot/tsig-op.c:603-612. -/
def clientCheck (hmac : Alg → Bytes → Bytes → Bytes) (now : Nat) (rr : Rr) (msg mac : Bytes) (key : Key) (prev : Nat) :
    Res Unit := check hmac now rr msg mac key prev false

/-- knot_tsig_client_check_next(), src/libknot/tsig-op.c:614-624. -/
def clientCheckNext (hmac : Alg → Bytes → Bytes → Bytes) (now : Nat) (rr : Rr) (msg mac : Bytes) (key : Key)
    (prev : Nat) : Res Unit := check hmac now rr msg mac key prev true

/-! ## Signing -/

/-- knot_rrset_to_wire() for a record without compression, src/libknot/packet/rrset-wire.c:478-525 (C06). -/
def rrWire (rr : Rr) : Bytes :=
  rr.owner ++ beBytes 2 250 ++ beBytes 2 rr.cls ++ beBytes 4 rr.ttl ++ beBytes 2 rr.rdata.length ++ rr.rdata

/-- The record is written after the message and counted; knot_tsig_append(), src/libknot/tsig-op.c:667-683. -/
def append (msg : Bytes) (max : Nat) (rr : Rr) : Res Bytes :=
  if (rrWire rr).length > max - msg.length then .err .espace
  else do
    let n ← load msg 10 2
    let msg ← store msg 10 (beBytes 2 ((beVal n + 1) % 65536))
    .ok (msg ++ rrWire rr)

/-- The time and the other data in knot_tsig_sign(), src/libknot/tsig-op.c:356-372. -/
def setTimes (rd : Bytes) (now rcode reqTime : Nat) : Res Bytes :=
  if rcode = 18 then do
    let rd ← set rd .time (beBytes 6 reqTime)
    setOther rd (beBytes 6 now)
  else do
    let rd ← set rd .time (beBytes 6 now)
    setOther rd []

/-- knot_tsig_sign(), src/libknot/tsig-op.c:329-416: the message and the digest. -/
def sign (hmac : Alg → Bytes → Bytes → Bytes) (now : Nat) (msg : Bytes) (max : Nat) (mac : Bytes) (key : Key)
    (rcode reqTime : Nat) : Res (Bytes × Bytes) := do
  let rd ← createRdata key.alg.dname key.alg.size (if rcode = 18 then rcode else 0)
  let rd ← setTimes rd now rcode reqTime
  let rd ← set rd .fudge (beBytes 2 300)
  let id ← load msg 0 2
  let rd ← set rd .origId id
  let data ← signWire msg mac ⟨key.name, 255, 0, rd⟩
  let digest := hmac key.alg key.secret data
  let rd ← set rd .mac digest
  let w ← append msg max ⟨key.name, 255, 0, rd⟩
  .ok (w, digest)

/-- knot_tsig_sign_next(), src/libknot/tsig-op.c:418-505. `space` is the size of the buffer for the digest; the data
to sign is the message. -/
def signNext (hmac : Alg → Bytes → Bytes → Bytes) (now : Nat) (msg : Bytes) (max : Nat) (prev : Bytes) (space : Nat)
    (key : Key) : Res (Bytes × Bytes) := do
  let rd ← createRdata key.alg.dname key.alg.size 0
  let rd ← set rd .time (beBytes 6 now)
  let rd ← set rd .fudge (beBytes 2 300)
  let data ← signWireNext msg prev ⟨key.name, 255, 0, rd⟩
  let digest := hmac key.alg key.secret data
  if digest.length > space then .err .espace
  else do
    let rd ← set rd .mac digest
    let id ← load msg 0 2
    let rd ← set rd .origId id
    let rd ← setOther rd []
    let w ← append msg max ⟨key.name, 255, 0, rd⟩
    .ok (w, digest)

/-- knot_tsig_add(), src/libknot/tsig-op.c:626-665: an unsigned record for BADKEY and BADSIG. -/
def add (msg : Bytes) (max rcode : Nat) (rr : Rr) : Res Bytes := do
  if rcode = 18 then .ub
  else
    let alg ← Dname.copyAll rr.rdata
    let rd ← createRdata alg 0 rcode
    let time ← get rr.rdata .time 6
    let rd ← set rd .time (beBytes 6 time)
    let rd ← set rd .fudge (beBytes 2 300)
    let id ← load msg 0 2
    let rd ← set rd .origId id
    let rd ← setOther rd []
    append msg max ⟨rr.owner, 255, 0, rd⟩

/-! ## The server -/

/-- knot_sign_context_t, src/libknot/tsig.h:43-49, with the digest in the memory of the query. -/
structure Srv where
  key : Key
  digest : Bytes
  count : Nat
  rcode : Nat
  reqTime : Nat
  deriving DecidableEq, Repr

/-- process_query_verify(), src/knot/nameserver/process_query.c:786-855, for a query with TSIG and a key with a
secret: the context for signing; the error is for TSIG. -/
def verifyQuery (hmac : Alg → Bytes → Bytes → Bytes) (now : Nat) (rr : Rr) (msg : Bytes) (key : Key) : Res Srv := do
  let n ← get rr.rdata .macLen 2
  let p ← seek rr.rdata .mac 0
  match p with
  | none => .ub
  | some p => do
    let mac ← load rr.rdata p n
    match serverCheck hmac now rr msg key with
    | .ok () => .ok ⟨key, mac, 0, 0, 0⟩
    | .err .tsigBadKey => .ok ⟨key, mac, 0, 17, 0⟩
    | .err .tsigBadSig => .ok ⟨key, mac, 0, 16, 0⟩
    | .err .tsigBadTime => do
      let t ← get rr.rdata .time 6
      .ok ⟨key, mac, 0, 18, t⟩
    | .err e => .err e
    | .ub => .ub

/-- The choice in process_query_sign_response(), src/knot/nameserver/process_query.c:871-884. -/
def signNth (hmac : Alg → Bytes → Bytes → Bytes) (now : Nat) (s : Srv) (msg : Bytes) (max : Nat) : Res (Bytes × Bytes) :=
  if s.count = 0 then sign hmac now msg max s.digest s.key s.rcode s.reqTime
  else signNext hmac now msg max s.digest s.key.alg.size s.key

/-- process_query_sign_response(), src/knot/nameserver/process_query.c:857-905, for a response that is not empty.
The new digest replaces the old one in its place. -/
def signResponse (hmac : Alg → Bytes → Bytes → Bytes) (now : Nat) (s : Srv) (query : Rr) (msg : Bytes) (max : Nat) :
    Res (Bytes × Srv) :=
  if s.rcode = 0 ∨ s.rcode = 18 then do
    let r ← signNth hmac now s msg max
    let d ← store s.digest 0 r.2
    .ok (r.1, { s with digest := d, count := s.count + 1 })
  else do
    let w ← add msg max s.rcode query
    .ok (w, s)

/-- Responses of a server to a query in turn (process_query_out(), src/knot/nameserver/process_query.c:578-680), with the clock
and the room for each: what is sent. -/
def answerAll (hmac : Alg → Bytes → Bytes → Bytes) (query : Rr) : Srv → List (Nat × Bytes × Nat) → Res (List Bytes × Srv)
  | s, [] => .ok ([], s)
  | s, (now, msg, max) :: l => do
    let (w, s) ← signResponse hmac now s query msg max
    let (ws, s) ← answerAll hmac query s l
    .ok (w :: ws, s)

/-! ## The client -/

/-- tsig_ctx_t, src/knot/nameserver/tsig_ctx.h:29-41. -/
structure Cli where
  key : Key
  digest : Bytes := []
  prev : Nat := 0
  unsignedCount : Nat := 0
  buffer : Bytes := []
  deriving DecidableEq, Repr

/-- tsig_sign_packet(), src/knot/nameserver/tsig_ctx.c:59-87, for the first packet. -/
def signQuery (hmac : Alg → Bytes → Bytes → Bytes) (now : Nat) (c : Cli) (msg : Bytes) (max : Nat) : Res (Bytes × Cli) := do
  let r ← sign hmac now msg max [] c.key 0 0
  .ok (r.1, { c with digest := r.2 })

/-- The choice in tsig_verify_packet(), src/knot/nameserver/tsig_ctx.c:159-168. -/
def checkNth (hmac : Alg → Bytes → Bytes → Bytes) (now : Nat) (c : Cli) (rr : Rr) : Res Unit :=
  if c.prev = 0 then clientCheck hmac now rr c.buffer c.digest c.key 0
  else clientCheckNext hmac now rr c.buffer c.digest c.key c.prev

/-- tsig_verify_packet(), src/knot/nameserver/tsig_ctx.c:135-180, with buffer_add_packet(), 106-133, and
update_ctx_after_verify(), 89-104. The packet is without its TSIG record. -/
def verifyPacket (hmac : Alg → Bytes → Bytes → Bytes) (now : Nat) (c : Cli) (msg : Bytes) (rr : Option Rr) : Res Cli :=
  if c.buffer.length + msg.length > 65535 * 100 then .err .enomem
  else
    let c := { c with buffer := c.buffer ++ msg }
    match rr with
    | none => .ok { c with unsignedCount := c.unsignedCount + 1 }
    | some rr => do
      let _ ← checkNth hmac now c rr
      let n ← get rr.rdata .macLen 2
      if c.digest.length ≠ n then .err .emalf
      else do
        let p ← seek rr.rdata .mac 0
        match p with
        | none => .ub
        | some p => do
          let mac ← load rr.rdata p n
          let time ← get rr.rdata .time 6
          .ok { c with digest := mac, prev := time, unsignedCount := 0, buffer := [] }

/-- request_consume(), src/knot/query/requestor.c:427-461, and the end of knot_requestor_exec(), 490-531: all the
packets of a response are taken. -/
def receive (hmac : Alg → Bytes → Bytes → Bytes) : Cli → List (Nat × Bytes × Option Rr) → Res Cli
  | c, [] => if c.unsignedCount ≠ 0 then .err .tsigBadSig else .ok c
  | c, (now, msg, rr) :: l => do
    let c ← verifyPacket hmac now c msg rr
    if c.unsignedCount ≥ 100 then .err .tsigBadSig else receive hmac c l

end Knot.Tsig
