import Verif.Rrwire.Model
import Verif.Edns.Model
import Verif.Pkt.Model
/-!
# Model of message parsing (src/libknot/packet/pkt.c, src/libknot/rrtype/tsig.c)

A message is received in a buffer `wire`, of which `size` octets are the message. The packet is
a fresh one: `knot_pkt_parse` does not reset `opt_rr` and `tsig_rr`. Allocation failure is not
modelled.
-/
namespace Knot.Pktparse
open Knot
open Knot.Pkt (get16 set16)
open Knot.Rrwire (RR)

abbrev Bytes := List UInt8

/-- `knot_pkt_t` when a message is being parsed. Source: src/libknot/packet/pkt.h:75-115. -/
structure PP where
  wire : Bytes
  size : Nat
  parsed : Nat
  qnameSize : Nat
  lowerQname : Bytes
  /-- `KNOT_PF_NULLBYTE` in `flags` -/
  nullByte : Bool
  rrs : List RR
  /-- `current`: 0 answer, 1 authority, 2 additional -/
  current : Nat
  secPos : Nat → Nat
  secCount : Nat → Nat
  /-- `opt_rr`, `tsig_rr` as indices to `rrs` -/
  opt : Option Nat
  tsig : Option Nat
  ednsOpts : Option (Nat → Option Nat)
  /-- `tsig_wire`: position and length -/
  tsigWire : Option (Nat × Nat)

/-- A fresh packet with a received message. `sections_reset` of `knot_pkt_parse` changes nothing in
it. Source: src/libknot/packet/pkt.c:115-142, 182-212. -/
def received (wire : Bytes) (size : Nat) : PP :=
  { wire := wire, size := size, parsed := 0, qnameSize := 0, lowerQname := [0], nullByte := false,
    rrs := [], current := 0, secPos := fun _ => 0, secCount := fun _ => 0, opt := none, tsig := none,
    ednsOpts := none, tsigWire := none }

/-- The question name being there, `len` octets long.
Source: src/libknot/packet/pkt.c:605-624. -/
def question (p : PP) (len : Nat) : Res PP :=
  if 12 + (len + 4) % 65536 > p.size then .err .emalf
  else do
    let lower ← Dname.copyLower (p.wire.drop 12)
    let name ← WireCtx.load p.wire 12 len
    .ok { p with parsed := 12 + (len + 4) % 65536, qnameSize := len, lowerQname := lower,
                 nullByte := len != (name.takeWhile (· != 0)).length + 1 }

/-- `knot_pkt_parse_question`. Source: src/libknot/packet/pkt.c:573-625. -/
def parseQuestion (p : PP) : Res PP :=
  if p.size < 12 then .err .emalf
  else do
    let qd ← get16 p.wire 4
    if qd > 1 then .err .emalf
    else if qd = 0 then .ok { p with parsed := 12, qnameSize := 0 }
    else
      match Dname.wireCheck p.wire p.size false 12 with
      | .ok len => question p len
      | .err _ => .err .emalf
      | .ub => .ub

/-- `rdata_seek` for TSIG_OTHER_O: offset of the other data, `none` is NULL. The RDATA are not
empty. Source: src/libknot/rrtype/tsig.c:62-122. -/
def seekOther (rdata : Bytes) : Res (Option Nat) := do
  let w := WireCtx.initConst rdata rdata.length
  let algLen ← Dname.size rdata
  let w := WireCtx.skip w (algLen + 4 * 2)
  let (mac, w) ← WireCtx.readU w 2
  let w := WireCtx.skip w mac
  let w := WireCtx.skip w (2 * 2)
  let (nb, w) ← WireCtx.readU w 2
  if WireCtx.available w ≠ nb then .ok none
  else if w.error ≠ none then .ok none
  else .ok (some w.pos)

/-- `knot_tsig_rdata_is_ok`; the algorithm name is there if the other data are.
Source: src/libknot/rrtype/tsig.c:407-413, 62-66. -/
def tsigOk (rdata : Bytes) : Res Bool :=
  if rdata.length = 0 then .ok false
  else do
    let o ← seekOther rdata
    .ok o.isSome

/-- TSIG in `check_rr_constraints`; `keep` is KNOT_PF_KEEPWIRE.
Source: src/libknot/packet/pkt.c:634-650. -/
def checkTsig (keep : Bool) (p : PP) (rr : RR) (rrSize : Nat) : Res PP :=
  if p.current ≠ 2 then .err .emalf
  else if p.tsig ≠ none then .err .emalf
  else do
    let ok ← tsigOk rr.rdata
    if ok = false then .err .emalf
    else if keep then .ok { p with tsig := some (p.rrs.length - 1) }
    else do
      let ar ← get16 p.wire 10
      let mem ← set16 p.wire 10 ((ar + 65535) % 65536)
      .ok { p with parsed := p.parsed - rrSize, size := p.size - rrSize,
                   tsigWire := some (p.parsed - rrSize, rrSize), wire := mem,
                   tsig := some (p.rrs.length - 1) }

/-- OPT in `check_rr_constraints`. Source: src/libknot/packet/pkt.c:651-658. -/
def checkOpt (p : PP) (rr : RR) : Res PP :=
  if p.current ≠ 2 then .err .emalf
  else if p.opt ≠ none then .err .emalf
  else
    match Edns.getOptions rr.rdata with
    | .ok o => .ok { p with opt := some (p.rrs.length - 1), ednsOpts := o }
    | .err _ => .err .emalf
    | .ub => .ub

/-- `check_rr_constraints`; the record is the last one in `rrs`.
Source: src/libknot/packet/pkt.c:630-664. -/
def checkConstraints (keep : Bool) (p : PP) (rr : RR) (rrSize : Nat) : Res PP :=
  if rr.type = 250 then checkTsig keep p rr rrSize
  else if rr.type = 41 then checkOpt p rr
  else .ok p

/-- The record that a failed conversion to the canonical form would leave.
Source: src/libknot/packet/rrset-wire.c:722-732. -/
def emptyRR : RR := ⟨[], 0, 0, 0, []⟩

/-- `parse_rr`; `canon` is the absence of KNOT_PF_NOCANON.
Source: src/libknot/packet/pkt.c:666-703. -/
def parseRr (keep canon : Bool) (p : PP) : Res PP :=
  if p.parsed ≥ p.size then .err .efewdata
  else do
    let (o, stop) ← Rrwire.fromWire p.wire p.parsed p.size canon
    let rr := o.getD emptyRR
    checkConstraints keep
      { p with parsed := stop, rrs := p.rrs ++ [rr],
               secCount := fun i => if i = p.current then p.secCount i + 1 else p.secCount i }
      rr (stop - p.parsed)

/-- The loop of `parse_section`. Source: src/libknot/packet/pkt.c:713-718. -/
def parseRrs (keep canon : Bool) : Nat → PP → Res PP
  | 0, p => .ok p
  | n + 1, p => do
    let p ← parseRr keep canon p
    parseRrs keep canon n p

/-- `knot_pkt_begin`, for `sec` not before the current section.
Source: src/libknot/packet/pkt.c:441-456. -/
def beginSection (p : PP) (sec : Nat) : PP :=
  { p with
    secPos := if sec > p.current then (fun i => if i = sec then p.rrs.length else p.secPos i) else p.secPos,
    current := sec }

/-- `knot_pkt_begin` and `parse_section`: the count is read from the header.
Source: src/libknot/packet/pkt.c:705-721, 744-753. -/
def parseSection (keep canon : Bool) (p : PP) (sec : Nat) : Res PP := do
  let n ← get16 p.wire (6 + 2 * sec)
  parseRrs keep canon n (beginSection p sec)

/-- The checks at the end of `parse_payload`. The last record of the additional section is
identified by its index; in the code, by the address of its RDATA, which are not empty for TSIG.
Source: src/libknot/packet/pkt.c:755-768. -/
def finish (p : PP) : Res PP :=
  if p.tsig ≠ none ∧ p.secCount 2 > 0 ∧ p.tsig ≠ some (p.secPos 2 + (p.secCount 2 - 1)) then .err .emalf
  else if p.parsed < p.size then .err .etrail
  else .ok p

/-- `parse_payload`. Source: src/libknot/packet/pkt.c:723-769. -/
def parsePayload (keep canon : Bool) (p : PP) : Res PP :=
  if p.size = 0 then .ub
  else do
    let an ← get16 p.wire 6
    let ns ← get16 p.wire 8
    let ar ← get16 p.wire 10
    if an + ns + ar > p.size / 11 then .err .emalf
    else do
      let p ← parseSection keep canon p 0
      let p ← parseSection keep canon p 1
      let p ← parseSection keep canon p 2
      finish p

/-- `knot_pkt_parse` on a fresh packet. Source: src/libknot/packet/pkt.c:772-787. -/
def parse (keep canon : Bool) (wire : Bytes) (size : Nat) : Res PP := do
  let p ← parseQuestion (received wire size)
  parsePayload keep canon p

end Knot.Pktparse
