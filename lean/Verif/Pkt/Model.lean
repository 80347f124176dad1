import Verif.Rrwire.Model
/-!
# Model of message writing (src/libknot/packet/rrset-wire.c, src/libknot/packet/pkt.c)

A message buffer is a byte list; `dst` pointers are offsets into it. A failed write leaves what it
has already changed (buffer, compression context), so the outcome of a writing function carries the
state also in the case of an error. Failed assertions count as undefined behaviour. Memory
allocation always succeeds.
-/
namespace Knot.Pkt
open Knot
open Knot.Rrwire (Block rdataDesc naptrHeaderSize)

abbrev Bytes := List UInt8

/-- The buffer and the compression context: `knot_compr_t` with the hints of the current RR set.
Source: src/libknot/packet/compr.h:60-81. -/
structure W where
  buf : Bytes
  /-- `suffix.pos` -/
  suf : Nat
  /-- `suffix.labels` -/
  sufLabels : Nat
  /-- `rrinfo->compress_ptr` -/
  hints : Nat → Nat

/-- Outcome of a writing function. -/
inductive Out (α : Type) where
  | ok (a : α) (w : W)
  | fail (e : Err) (w : W)
  | ub

/-- Sequential composition, an error being passed on. -/
def Out.bind {α β : Type} (x : Out α) (f : α → W → Out β) : Out β :=
  match x with
  | .ok a w => f a w
  | .fail e w => .fail e w
  | .ub => .ub

/-- A result of a reading function: its errors are passed on. -/
def ask {α : Type} (w : W) (r : Res α) : Out α :=
  match r with
  | .ok a => .ok a w
  | .err e => .fail e w
  | .ub => .ub

/-- `memcpy` into the buffer. -/
def put (w : W) (pos : Nat) (d : Bytes) : Out Unit :=
  match WireCtx.store w.buf pos d with
  | .ok b => .ok () { w with buf := b }
  | _ => .ub

/-- `knot_wire_put_pointer` with its two assertions. Source: src/libknot/packet/wire.h:1014-1020. -/
def putPointer (w : W) (pos ptr : Nat) : Out Unit :=
  if ptr ≥ pos then .ub
  else if ptr ≥ 16384 then .ub
  else put w pos [UInt8.ofNat (192 + ptr / 256), UInt8.ofNat (ptr % 256)]

/-- `dname_max`. Source: src/libknot/packet/rrset-wire.c:35-38. -/
def dnameMax (avail : Nat) : Nat := min avail 255

/-- The loop of `label_is_equal` from the `i`-th byte, `k` bytes left.
Source: src/libknot/packet/rrset-wire.c:58-62. -/
def labelLoop (name mem : Bytes) (pos i : Nat) : Nat → Res Bool
  | 0 => .ok true
  | k + 1 => do
    let a ← Res.rd name i
    let b ← Res.rd mem (pos + i)
    if a.toNat ≠ (Dname.toLower b).toNat then .ok false else labelLoop name mem pos (i + 1) k

/-- `label_is_equal`: the first label is at the beginning of `name`, the second one in the message
at `pos`. Source: src/libknot/packet/rrset-wire.c:49-65. -/
def labelEq (name mem : Bytes) (pos : Nat) : Res Bool := do
  let a ← Res.rd name 0
  let b ← Res.rd mem pos
  if a.toNat ≠ b.toNat then .ok false else labelLoop name mem pos 1 a.toNat

/-- The loop of `dname_equal_wire`. Source: src/libknot/packet/rrset-wire.c:80-86. -/
def equalLoop (d1 mem : Bytes) (d2 : Nat) : Res Bool :=
  match d1, mem[d2]? with
  | [], _ => .ub
  | _ :: _, none => .ub
  | a :: t, some b =>
    if a.toNat = 0 ∧ b.toNat = 0 then .ok true
    else
      match labelEq (a :: t) mem d2 with
      | .ok true =>
        match h : Dname.nextLabel (a :: t) with
        | .ok n1 =>
          match Dname.wireNext mem d2 with
          | .ok n2 => equalLoop n1 mem n2
          | _ => .ub
        | _ => .ub
      | .ok false => .ok false
      | _ => .ub
termination_by d1.length
decreasing_by exact Dname.nextLabel_length h

/-- `dname_equal_wire`. Source: src/libknot/packet/rrset-wire.c:71-89. -/
def equalWire (d1 mem : Bytes) (d2 : Nat) : Res Bool := do
  let p ← Dname.seekLabel mem d2
  equalLoop d1 mem p

/-- `compr_get_ptr`. Source: src/libknot/packet/rrset-wire.c:91-98, compr.h:86-93. -/
def getHint (compr : Bool) (w : W) (hint : Nat) : Nat :=
  if compr then (if hint < 16 then w.hints hint else 0) else 0

/-- `knot_compr_hint_set`. Source: src/libknot/packet/compr.h:98-104. -/
def hintSet (w : W) (hint val len : Nat) : W :=
  if hint < 16 ∧ val + len < 16383 then { w with hints := fun i => if i = hint then val else w.hints i } else w

/-- The offset stored as a hint: the target of a pointer, otherwise the position itself.
Source: src/libknot/packet/rrset-wire.c:109-113. -/
def hintTarget (w : W) (pos : Nat) : Res Nat := do
  let b ← Res.rd w.buf pos
  if Dname.isPtr b then do
    let b2 ← Res.rd w.buf (pos + 1)
    .ok (Dname.getPtr b b2)
  else .ok (pos % 65536)

/-- `compr_set_ptr`. Source: src/libknot/packet/rrset-wire.c:100-116. -/
def setHint (compr : Bool) (w : W) (hint pos size : Nat) : Out Unit :=
  if compr then (ask w (hintTarget w pos)).bind fun v w => .ok () (hintSet w hint v size)
  else .ok () w

/-- Skipping of the suffix's labels the name does not have: `k` of them.
Source: src/libknot/packet/rrset-wire.c:203-207. -/
def skipSuffix (mem : Bytes) : Nat → Nat → Res Nat
  | 0, pos => .ok pos
  | k + 1, pos => do
    let n ← Dname.wireNext mem pos
    skipSuffix mem k n

/-- `WRITE_LABEL`: `len` bytes from `src` are appended.
Source: src/libknot/packet/rrset-wire.c:166-172. -/
def writeLabel (w : W) (dst max written : Nat) (src : Bytes) (len : Nat) : Out Nat :=
  if written + len > max then .fail .espace w
  else if src.length < len then .ub
  else (put w (dst + written) (src.take len)).bind fun _ w => .ok (written + len) w

/-- The labels of the name in front of the part as long as the suffix: `k` of them. The rest of the
name and the number of bytes written are returned.
Source: src/libknot/packet/rrset-wire.c:211-216. -/
def alignLabels (dst max : Nat) : Nat → Bytes → Nat → W → Out (Bytes × Nat)
  | 0, name, written, w => .ok (name, written) w
  | k + 1, name, written, w =>
    (ask w (Res.rd name 0)).bind fun len w =>
    (writeLabel w dst max written name (len.toNat + 1)).bind fun written w =>
    (ask w (Dname.nextLabel name)).bind fun next w =>
    alignLabels dst max k next written w

/-- State of the matching loop: `match_begin` (from there to the end of the name), `compr_ptr`, the
end of the name and the number of bytes written. -/
structure Matched where
  mb : Bytes
  cptr : Nat
  rest : Bytes
  written : Nat

/-- The mismatch branch of the matching loop: the new `match_begin`, `compr_ptr` and `written`.
Source: src/libknot/packet/rrset-wire.c:229-236. -/
def mismatch (dst max : Nat) (eq : Bool) (name mb next : Bytes) (nextSuf cptr written len : Nat) (w : W) :
    Out (Bytes × Nat × Nat) :=
  if eq then .ok (mb, cptr, written) w
  else (writeLabel w dst max written mb (mb.length - name.length + (len + 1))).bind fun written w =>
    .ok (next, nextSuf, written) w

/-- The matching loop. Source: src/libknot/packet/rrset-wire.c:222-241. -/
def matchLoop (dst max : Nat) (name mb : Bytes) (suf cptr written : Nat) (w : W) : Out Matched :=
  match name with
  | [] => .ub
  | b :: t =>
    if b.toNat = 0 then .ok ⟨mb, cptr, b :: t, written⟩ w
    else
      match h : Dname.nextLabel (b :: t) with
      | .ok next =>
        match Dname.wireNext w.buf suf with
        | .ok nextSuf =>
          match labelEq (b :: t) w.buf suf with
          | .ok eq =>
            match mismatch dst max eq (b :: t) mb next nextSuf cptr written b.toNat w with
            | .ok (mb', cptr', written') w' => matchLoop dst max next mb' nextSuf cptr' written' w'
            | .fail e w' => .fail e w'
            | .ub => .ub
          | _ => .ub
        | _ => .ub
      | _ => .ub
termination_by name.length
decreasing_by exact Dname.nextLabel_length h

/-- The end of the written name: a root label or a pointer.
Source: src/libknot/packet/rrset-wire.c:244-253. -/
def finishName (dst max : Nat) (m : Matched) (w : W) : Out Nat :=
  if m.mb.length = m.rest.length then writeLabel w dst max m.written m.rest 1
  else if m.written + 2 > max then .fail .espace w
  else (putPointer w (dst + m.written) m.cptr).bind fun _ w => .ok (m.written + 2) w

/-- The new suffix. Source: src/libknot/packet/rrset-wire.c:259-263. -/
def newSuffix (w : W) (dst written labels : Nat) : W :=
  if written > 2 ∧ dst + written < 16383 then { w with suf := dst, sufLabels := labels % 256 } else w

/-- `knot_dname_to_wire`. Source: src/libknot/dname.c:174-187. -/
def toWire (w : W) (dst max : Nat) (name : Bytes) : Out Nat :=
  (ask w (Dname.size name)).bind fun len w =>
  if len > max then .fail .espace w
  else if name.length < len then .ub
  else (put w dst (name.take len)).bind fun _ w => .ok len w

/-- `compr_put_dname` for a name other than the root, with compression. A label count of the name
and the suffix is an `int` or a `size_t`, the differences are truncated at zero.
Source: src/libknot/packet/rrset-wire.c:196-265. -/
def comprName (name : Bytes) (dst max : Nat) (w : W) : Out Nat :=
  (ask w (Dname.labels name)).bind fun labels w =>
  (ask w (skipSuffix w.buf (w.sufLabels - labels) w.suf)).bind fun suffix w =>
  (alignLabels dst max (labels - min w.sufLabels labels) name 0 w).bind fun r w =>
  (matchLoop dst max r.1 r.1 suffix suffix r.2 w).bind fun m w =>
  (finishName dst max m w).bind fun written w =>
  if dst ≥ 65535 then .ub else .ok written (newSuffix w dst written labels)

/-- `compr_put_dname`: the number of bytes written. Source: src/libknot/packet/rrset-wire.c:186-266. -/
def comprPutDname (compr : Bool) (name : Bytes) (dst max : Nat) (w : W) : Out Nat :=
  (ask w (Res.rd name 0)).bind fun b w =>
  if compr = false ∨ b.toNat = 0 then toWire w dst max name else comprName name dst max w

/-- Position in the buffer and bytes available from there. -/
structure Cur where
  dst : Nat
  avail : Nat
  deriving DecidableEq, Repr

/-- `dst += n`, `dst_avail -= n`. -/
def Cur.adv (c : Cur) (n : Nat) : Cur := ⟨c.dst + n, c.avail - n⟩

/-- `knot_dname_labels` of the name at the beginning of the question. The loop of the C function is
bounded by the size of the buffer for the model. Source: src/libknot/dname.c:744-762. -/
def qnameLabels (mem : Bytes) : Res Nat :=
  match Dname.labelsWire mem (mem.length + 1) 12 with
  | some r => r
  | none => .ub

/-- Restart of the suffix at QNAME. Source: src/libknot/packet/rrset-wire.c:306-311. -/
def resetSuffix (compr : Bool) (w : W) : Out Unit :=
  if compr then (ask w (qnameLabels w.buf)).bind fun l w => .ok () { w with suf := 12, sufLabels := l % 256 }
  else .ok () w

/-- The test for coincidence with the current suffix.
Source: src/libknot/packet/rrset-wire.c:296-298. -/
def sameAsSuffix (compr : Bool) (owner : Bytes) (w : W) (root : Bool) : Res Bool :=
  if compr = true ∧ w.suf ≠ 0 ∧ root = false then equalWire owner w.buf w.suf else .ok false

/-- The owner written at full length or compressed against QNAME.
Source: src/libknot/packet/rrset-wire.c:305-321. -/
def ownerName (compr : Bool) (owner : Bytes) (c : Cur) (w : W) : Out Cur :=
  (resetSuffix compr w).bind fun _ w =>
  (comprPutDname compr owner c.dst (dnameMax c.avail) w).bind fun written w =>
  (setHint compr w 0 c.dst written).bind fun _ w => .ok (c.adv written) w

/-- The owner written as a pointer. Source: src/libknot/packet/rrset-wire.c:291-294, 299-304. -/
def ownerPointer (ptr : Nat) (c : Cur) (w : W) : Out Cur :=
  if 2 > c.avail then .fail .espace w
  else (putPointer w c.dst ptr).bind fun _ w => .ok (c.adv 2) w

/-- The owner written as a pointer to the suffix. Source: src/libknot/packet/rrset-wire.c:296-304. -/
def ownerSuffix (compr : Bool) (owner : Bytes) (c : Cur) (w : W) : Out Cur :=
  (ownerPointer w.suf c w).bind fun c' w =>
  (ask w (Dname.size owner)).bind fun n w =>
  (setHint compr w 0 w.suf n).bind fun _ w => .ok c' w

/-- `write_owner`. Source: src/libknot/packet/rrset-wire.c:277-324. -/
def writeOwner (compr : Bool) (owner : Bytes) (c : Cur) (w : W) : Out Cur :=
  (ask w (Res.rd owner 0)).bind fun b w =>
  let ptr := if b.toNat ≠ 0 then getHint compr w 0 else 0
  if ptr > 0 then ownerPointer ptr c w
  else
    (ask w (sameAsSuffix compr owner w (decide (b.toNat = 0)))).bind fun same w =>
    if same then ownerSuffix compr owner c w else ownerName compr owner c w

/-- A resource record set; `id` is the identity of its rdata memory.
Source: src/libknot/rrset.h:36-44. -/
structure RRset where
  owner : Bytes
  type : Nat
  rclass : Nat
  ttl : Nat
  rrs : List Bytes
  id : Nat
  deriving DecidableEq, Repr

/-- `knot_rrsig_original_ttl`. Source: src/libknot/rrtype/rrsig.h:52-56. -/
def rrsigTtl (rdata : Bytes) : Res Nat := Rrwire.readBE rdata 4 4

/-- `knot_soa_minimum`. Source: src/libknot/rrtype/soa.h:38-50, 88-92. -/
def soaMinimum (rdata : Bytes) : Res Nat := do
  let a ← Dname.size rdata
  let b ← Dname.size (rdata.drop a)
  Rrwire.readBE rdata (a + b + 16) 4

/-- The TTL written. `KNOT_PF_ORIGTTL` and `KNOT_PF_SOAMINTTL` are the bits 6 and 7.
Source: src/libknot/packet/rrset-wire.c:340-346. -/
def ttlFor (rr : RRset) (rdata : Bytes) (flags : Nat) : Res Nat :=
  if flags.testBit 6 = true ∧ rr.type = 46 then rrsigTtl rdata
  else if flags.testBit 7 = true ∧ rr.type = 6 then do
    let m ← soaMinimum rdata
    .ok (min m rr.ttl)
  else .ok rr.ttl

/-- One `wire_ctx_write_u16` or `_u32`: the first that does not fit sets the sticky error.
Source: src/contrib/wire_ctx.h:258-297. -/
def writeNum (c : Cur) (n v : Nat) (w : W) : Out Cur :=
  if n > c.avail then .fail .espace w
  else (put w c.dst (WireCtx.beBytes n v)).bind fun _ w => .ok (c.adv n) w

/-- `write_fixed_header`. Source: src/libknot/packet/rrset-wire.c:326-358. -/
def writeHeader (rr : RRset) (rdata : Bytes) (flags : Nat) (c : Cur) (w : W) : Out Cur :=
  (ask w (ttlFor rr rdata flags)).bind fun ttl w =>
  (writeNum c 2 rr.type w).bind fun c w =>
  (writeNum c 2 rr.rclass w).bind fun c w =>
  writeNum c 4 ttl w

/-- Rest of the RDATA and position in the buffer. -/
structure Src where
  src : Bytes
  cur : Cur

/-- `write_rdata_fixed`. Source: src/libknot/packet/rrset-wire.c:118-146. -/
def writeFixed (k : Nat) (s : Src) (w : W) : Out Src :=
  if k > s.src.length then .fail .emalf w
  else if k > s.cur.avail then .fail .espace w
  else (put w s.cur.dst (s.src.take k)).bind fun _ w => .ok ⟨s.src.drop k, s.cur.adv k⟩ w

/-- `write_rdata_naptr_header`. Source: src/libknot/packet/rrset-wire.c:148-163. -/
def writeNaptr (s : Src) (w : W) : Out Src :=
  (ask w (naptrHeaderSize s.src 0 s.src.length)).bind fun k w => writeFixed k s w

/-- `compress_rdata_dname`. Source: src/libknot/packet/rrset-wire.c:360-393. -/
def writeName (putCompr compr : Bool) (hint : Nat) (s : Src) (w : W) : Out Src :=
  (ask w (Dname.size s.src)).bind fun size w =>
  (comprPutDname putCompr s.src s.cur.dst (dnameMax s.cur.avail) w).bind fun written w =>
  (if getHint compr w hint = 0 then setHint compr w hint s.cur.dst written else .ok () w).bind fun _ w =>
  if s.src.length < size then .ub else .ok ⟨s.src.drop size, s.cur.adv written⟩ w

/-- One step of `rdata_traverse_write`. Source: src/libknot/packet/rrset-wire.c:400-424. -/
def writeBlock (compr : Bool) (hint : Nat) (b : Block) (s : Src) (w : W) : Out Src :=
  match b with
  | .comprName => writeName compr compr hint s w
  | .decomprName => writeName false compr hint s w
  | .fixedName => writeName false compr hint s w
  | .naptr => writeNaptr s w
  | .remainder => writeFixed s.src.length s w
  | .fixed k => writeFixed k s w

/-- `rdata_traverse_write`. Source: src/libknot/packet/rrset-wire.c:395-430. -/
def traverseWrite (compr : Bool) (hint : Nat) : List Block → Src → W → Out Src
  | [], s, w => .ok s w
  | b :: bs, s, w => (writeBlock compr hint b s w).bind fun s w => traverseWrite compr hint bs s w

/-- The RDATA are not empty. Source: src/libknot/packet/rrset-wire.c:456-465. -/
def writeData (compr : Bool) (type hint : Nat) (s : Src) (w : W) : Out Src :=
  if s.src.length > 0 then traverseWrite compr hint (rdataDesc type).blocks s w else .ok s w

/-- `write_rdata`. Source: src/libknot/packet/rrset-wire.c:432-476. -/
def writeRdata (compr : Bool) (type idx : Nat) (rdata : Bytes) (c : Cur) (w : W) : Out Cur :=
  if 2 > c.avail then .fail .espace w
  else
    (writeData compr type (1 + idx) ⟨rdata, c.adv 2⟩ w).bind fun s w =>
    if s.src.length > 0 then .fail .emalf w
    else (put w c.dst (WireCtx.beBytes 2 (s.cur.dst - (c.dst + 2)))).bind fun _ w => .ok s.cur w

/-- `write_rr`. Source: src/libknot/packet/rrset-wire.c:478-493. -/
def writeRr (compr : Bool) (rr : RRset) (flags idx : Nat) (rdata : Bytes) (c : Cur) (w : W) : Out Cur :=
  (writeOwner compr rr.owner c w).bind fun c w =>
  (writeHeader rr rdata flags c w).bind fun c w =>
  writeRdata compr rr.type idx rdata c w

/-- The loop of `knot_rrset_to_wire_extra`: `n` iterations left, `i` the loop variable, `cur` the index
of the current rdata. Source: src/libknot/packet/rrset-wire.c:514-522. -/
def writeLoop (compr : Bool) (rr : RRset) (flags : Nat) : Nat → Nat → Nat → Cur → W → Out Cur
  | 0, _, _, c, w => .ok c w
  | n + 1, i, cur, c, w =>
    let pos := if i < rr.rrs.length then i else i - rr.rrs.length
    let cur := if pos ≠ 0 then cur + 1 else 0
    (ask w (Res.rd rr.rrs cur)).bind fun rdata w =>
    (writeRr compr rr flags pos rdata c w).bind fun c w =>
    writeLoop compr rr flags n (i + 1) cur c w

/-- `knot_rrset_to_wire_extra`: the number of bytes written.
Source: src/libknot/packet/rrset-wire.c:496-525. -/
def toWireExtra (compr : Bool) (rr : RRset) (rotate flags : Nat) (c : Cur) (w : W) : Out Nat :=
  if rr.rrs.length = 0 then .ok 0 w
  else
    let rotate := rotate % rr.rrs.length
    (writeLoop compr rr flags rr.rrs.length rotate (if rotate > 1 then rotate - 1 else 0) c w).bind fun c' w =>
    .ok (c'.dst - c.dst) w

/-! ## Packet -/

/-- An RR set in the packet with its `knot_rrinfo_t`. Source: src/libknot/packet/compr.h:60-64. -/
structure Entry where
  rr : RRset
  pos : Nat
  flags : Nat
  hints : Nat → Nat

/-- `knot_pkt_t` when a message is being written: `max_size` may be less than the buffer.
Source: src/libknot/packet/pkt.h:75-115. -/
structure Pkt where
  wire : Bytes
  size : Nat
  maxSize : Nat
  reserved : Nat
  qnameSize : Nat
  entries : List Entry
  /-- `opt_rr` as an index -/
  opt : Option Nat
  /-- `current`: 0 answer, 1 authority, 2 additional -/
  current : Nat
  /-- `sections[i].pos` and `sections[i].count` -/
  secPos : Nat → Nat
  secCount : Nat → Nat
  /-- `compr.suffix` -/
  suf : Nat
  sufLabels : Nat
  lowerQname : Bytes

/-- Outcome of an operation on a packet: return code (`none` is `KNOT_EOK`) and the packet. -/
abbrev PRes := Option Err × Pkt

/-- `knot_pkt_new` with allocation of the buffer; `none` is NULL. The contents of the buffer behind
the header are arbitrary. Source: src/libknot/packet/pkt.c:74-95, 182-243. -/
def new (len : Nat) (garbage : Bytes) : Option Pkt :=
  if len < 12 then none
  else some { wire := (List.replicate 12 0 ++ garbage ++ List.replicate len 0).take len, size := 12, maxSize := len,
              reserved := 0, qnameSize := 0, entries := [], opt := none, current := 0, secPos := fun _ => 0,
              secCount := fun _ => 0, suf := 0, sufLabels := 0, lowerQname := [0] }

/-- `pkt_remaining` as a `uint16_t`. Source: src/libknot/packet/pkt.c:108-113. -/
def remaining (p : Pkt) : Nat := (p.maxSize + 65536 * (p.size + p.reserved) - p.size - p.reserved) % 65536

/-- `knot_pkt_reserve`. Source: src/libknot/packet/pkt.c:410-423. -/
def reserve (p : Pkt) (n : Nat) : Option Err × Pkt :=
  if remaining p ≥ n then (none, { p with reserved := (p.reserved + n) % 65536 }) else (some .erange, p)

/-- `knot_pkt_reclaim`. Source: src/libknot/packet/pkt.c:426-438. -/
def reclaim (p : Pkt) (n : Nat) : Option Err × Pkt :=
  if p.reserved ≥ n then (none, { p with reserved := p.reserved - n }) else (some .erange, p)

/-- `knot_pkt_begin`. Source: src/libknot/packet/pkt.c:441-456. -/
def begin (p : Pkt) (sec : Nat) : Option Err × Pkt :=
  if sec < p.current then (some .einval, p)
  else (none, { p with
    secPos := if sec > p.current then (fun i => if i = sec then p.entries.length else p.secPos i) else p.secPos,
    current := sec })

/-- Big-endian 16-bit number in the buffer. Source: src/libknot/wire.h (`knot_wire_read_u16`). -/
def get16 (mem : Bytes) (pos : Nat) : Res Nat := Rrwire.readBE mem pos 2

/-- `knot_wire_write_u16`. -/
def set16 (mem : Bytes) (pos v : Nat) : Res Bytes := WireCtx.store mem pos (WireCtx.beBytes 2 v)

/-- The part of `knot_pkt_put_question` behind the copy of QNAME: QTYPE and QCLASS, of which the
first may have been written when the second does not fit.
Source: src/libknot/packet/pkt.c:481-497. -/
def questionTail (p : Pkt) (qname : Bytes) (n : Nat) (mem lower : Bytes) (qclass qtype : Nat) : Res PRes :=
  if 12 + n + 2 > p.maxSize then .ok (some .espace, { p with wire := mem, lowerQname := lower })
  else do
    let mem ← set16 mem (12 + n) qtype
    if 12 + n + 4 > p.maxSize then .ok (some .espace, { p with wire := mem, lowerQname := lower })
    else do
      let mem ← set16 mem (12 + n + 2) qclass
      let mem ← set16 mem 4 1
      let r := begin { p with wire := mem, lowerQname := lower, size := 12 + n + 4, qnameSize := n } 0
      .ok r

/-- `knot_pkt_put_question` with its assertions. Source: src/libknot/packet/pkt.c:459-498. -/
def putQuestion (p : Pkt) (qname : Bytes) (qclass qtype : Nat) : Res PRes :=
  if p.size ≠ 12 ∨ p.entries.length ≠ 0 then .ub
  else do
    let n ← Dname.size qname
    if n > p.maxSize - 12 then .ok (some .espace, p)
    else do
      let d ← WireCtx.load qname 0 n
      let mem ← WireCtx.store p.wire 12 d
      let lower ← Dname.copyLower qname
      questionTail p qname n mem lower qclass qtype

/-- `pkt_contains`. Source: src/libknot/packet/pkt.c:39-53. -/
def contains (p : Pkt) (rr : RRset) : Bool := p.entries.any (fun e => e.rr.type == rr.type && e.rr.id == rr.id)

/-- The compression context for a new RR set. Source: src/libknot/packet/pkt.c:519-538. -/
def startW (p : Pkt) (hint : Nat) : Out Unit :=
  let w : W := ⟨p.wire, p.suf, p.sufLabels, fun i => if i = 0 then hint else 0⟩
  if p.qnameSize ≠ 0 then
    if p.suf = 0 then resetSuffix true w else .ok () w
  else .ok () w

/-- `knot_wire_set_tc`. Source: src/libknot/packet/wire.h:372-376. -/
def setTc (mem : Bytes) : Res Bytes := do
  let b ← Res.rd mem 2
  WireCtx.store mem 2 [b ||| 2]

/-- `pkt_rr_wirecount_add`. Source: src/libknot/packet/pkt.c:128-137, wire.h:203-208. -/
def addCount (mem : Bytes) (sec n : Nat) : Res Bytes := do
  let v ← get16 mem (6 + 2 * sec)
  set16 mem (6 + 2 * sec) (v + n)

/-- The end of `knot_pkt_put_rotate` after a successful write of `len` bytes.
Source: src/libknot/packet/pkt.c:554-569. -/
def putDone (p : Pkt) (hint : Nat) (rr : RRset) (flags len : Nat) (w : W) : Res PRes :=
  let opt := if rr.type = 41 then some p.entries.length else p.opt
  if rr.rrs.length > 0 then do
    let mem ← addCount w.buf p.current rr.rrs.length
    .ok (none, { p with
      wire := mem, suf := w.suf, sufLabels := w.sufLabels, opt,
      entries := p.entries ++ [⟨rr, p.size, flags, w.hints⟩],
      secCount := fun i => if i = p.current then p.secCount i + 1 else p.secCount i,
      size := p.size + len })
  else .ok (none, { p with wire := w.buf, suf := w.suf, sufLabels := w.sufLabels, opt })

/-- The end of `knot_pkt_put_rotate` after a failure. `KNOT_PF_NOTRUNC` is bit 2.
Source: src/libknot/packet/pkt.c:546-551. -/
def putFailed (p : Pkt) (flags : Nat) (e : Err) (w : W) : Res PRes :=
  let p := { p with suf := w.suf, sufLabels := w.sufLabels }
  if e = .espace ∧ flags.testBit 2 = false then do
    let mem ← setTc w.buf
    .ok (some e, { p with wire := mem })
  else .ok (some e, { p with wire := w.buf })

/-- `knot_pkt_put_rotate`. `KNOT_PF_CHECKDUP` is bit 3. Source: src/libknot/packet/pkt.c:501-570. -/
def putRotate (p : Pkt) (hint : Nat) (rr : RRset) (rotate flags : Nat) : Res PRes :=
  if flags.testBit 3 = true ∧ contains p rr = true then .ok (none, p)
  else
    match (startW p hint).bind (fun _ w =>
        toWireExtra (decide (p.qnameSize ≠ 0)) rr rotate flags ⟨p.size, remaining p⟩ w) with
    | .ok len w => putDone p hint rr flags len w
    | .fail e w => putFailed p flags e w
    | .ub => .ub

/-- `payload_clear` and `compr_clear`. Source: src/libknot/packet/pkt.c:175-179, 207-212, 298-319. -/
def clearPayload (p : Pkt) : Pkt :=
  { p with reserved := 0, entries := [], opt := none, current := 0, secPos := fun _ => 0, secCount := fun _ => 0,
           suf := 0, sufLabels := 0 }

/-- `knot_pkt_clear`. Source: src/libknot/packet/pkt.c:367-385. -/
def clear (p : Pkt) : Res Pkt := do
  let mem ← WireCtx.store p.wire 0 (List.replicate 12 0)
  .ok { clearPayload { p with wire := mem, size := 12 } with lowerQname := [0] }

end Knot.Pkt
