import Verif.Sockaddr.Model
/-!
# Model of the synthetic records of addresses (src/knot/modules/synthrecord/synthrecord.c)

A name is the list of its labels without the root. The text of an address is a list of octets; the octet 0 ends a C string.
Octets are written as numbers: 45 is '-', 46 '.', 47 '/', 48 '0', 58 ':', 105 'i'. `inet_pton()` of the C library is modelled
by what it accepts. Simplifications: memory is never exhausted; the prefix of a template has no backslash (and no dot, check_prefix(), lines 44-52), so that the text of a
synthesized name is read back as it is; the answer fits the packet.
-/
namespace Knot.Synth
open Sockaddr (Addr Fam Bytes netMatch rangeMatch)

/-- A label of a name. -/
abbrev Label := List UInt8

/-- A name: its labels without the root. -/
abbrev Name := List Label

/-! ## inet_pton() of the C library -/

/-- The octets of a C string. -/
def cstr (s : Bytes) : Bytes := s.takeWhile (· ≠ 0)

/-- The parts of a text between separators. -/
def fields (sep : UInt8) : Bytes → List Bytes
  | [] => [[]]
  | c :: s =>
    if c = sep then [] :: fields sep s
    else
      match fields sep s with
      | g :: gs => (c :: g) :: gs
      | [] => [[c]]

/-- The value of a text of digits. -/
def number (base : Nat) (digit : UInt8 → Option Nat) (s : Bytes) : Option Nat :=
  s.foldl (fun v c => do some ((← v) * base + (← digit c))) (some 0)

/-- A decimal digit. -/
def decDigit (c : UInt8) : Option Nat := if 48 ≤ c ∧ c ≤ 57 then some (c.toNat - 48) else none

/-- A hexadecimal digit. -/
def hexDigit (c : UInt8) : Option Nat :=
  if 48 ≤ c ∧ c ≤ 57 then some (c.toNat - 48)
  else if 97 ≤ c ∧ c ≤ 102 then some (c.toNat - 87)
  else if 65 ≤ c ∧ c ≤ 70 then some (c.toNat - 55)
  else none

/-- An octet of an IPv4 address: no leading zero, at most 255. -/
def octet (s : Bytes) : Option UInt8 :=
  if s.length = 0 ∨ 3 < s.length ∨ (1 < s.length ∧ s.head? = some 48) then none
  else (number 10 decDigit s).bind fun v => if v < 256 then some v.toUInt8 else none

/-- `inet_pton(AF_INET, …)`. -/
def pton4 (s : Bytes) : Option Bytes :=
  match fields 46 s with
  | [a, b, c, d] => do some [← octet a, ← octet b, ← octet c, ← octet d]
  | _ => none

/-- A group of an IPv6 address: one to four hexadecimal digits. -/
def group (s : Bytes) : Option Bytes :=
  if s.length = 0 ∨ 4 < s.length then none
  else (number 16 hexDigit s).map fun v => [(v / 256).toUInt8, (v % 256).toUInt8]

/-- Groups of an IPv6 address; the last one may be an IPv4 address. -/
def groups : List Bytes → Option Bytes
  | [] => some []
  | [g] => if 46 ∈ g then pton4 g else group g
  | g :: gs => do some ((← group g) ++ (← groups gs))

/-- The text before and after the first double colon. -/
def double : Bytes → Option (Bytes × Bytes)
  | [] => none
  | [_] => none
  | c :: d :: s => if c = 58 ∧ d = 58 then some ([], s) else (double (d :: s)).map fun x => (c :: x.1, x.2)

/-- The groups on one side of a double colon. -/
def side (s : Bytes) : Option Bytes := if s = [] then some [] else groups (fields 58 s)

/-- `inet_pton(AF_INET6, …)`. -/
def pton6 (s : Bytes) : Option Bytes :=
  match double s with
  | none => (groups (fields 58 s)).bind fun r => if r.length = 16 then some r else none
  | some (a, b) =>
    if 46 ∈ a then none
    else do
      let x ← side a
      let y ← side b
      if x.length + y.length ≤ 14 then some (x ++ List.replicate (16 - x.length - y.length) 0 ++ y) else none

/-- sockaddr_set() for IPv4 and IPv6, src/contrib/sockaddr.c:114-151 (the port is zero). -/
def sockaddrSet (fam : Fam) (s : Bytes) : Option Addr :=
  match fam with
  | .inet => (pton4 (cstr s)).map fun r => ⟨.inet, r, 0⟩
  | .inet6 => (pton6 (cstr s)).map fun r => ⟨.inet6, r, 0⟩
  | _ => none

/-! ## Templates -/

/-- synth_templ_addr_t, src/knot/modules/synthrecord/synthrecord.c:114-118: a network, or a range if `max` has a family. -/
structure Net where
  addr : Addr
  max : Addr
  mask : Nat
  deriving DecidableEq, Repr

/-- synth_template_t, src/knot/modules/synthrecord/synthrecord.c:120-130. -/
structure Tpl where
  reverse : Bool
  pfx : Bytes
  zone : Name
  nets : List Net
  short : Bool
  deriving DecidableEq, Repr

/-- block_write(), src/knot/modules/synthrecord/synthrecord.c:137-153. -/
def blockWrite (b : Bytes) : Bytes :=
  match b with
  | [c0, c1, c2, c3] =>
    let o := if c0 ≠ 48 then [c0] else []
    let o := if o.length > 0 ∨ c1 ≠ 48 then o ++ [c1] else o
    let o := if o.length > 0 ∨ c2 ≠ 48 then o ++ [c2] else o
    o ++ [c3]
  | _ => []

/-- str_subst(), src/knot/modules/synthrecord/synthrecord.c:156-163. -/
def subst (fr to : UInt8) (s : Bytes) : Bytes := s.map fun c => if c = fr then to else c

/-- str_separator(), src/knot/modules/synthrecord/synthrecord.c:166-169. -/
def sepOf (fam : Fam) : UInt8 := if fam = .inet6 then 58 else 46

/-- query_satisfied_by_family(), src/knot/modules/synthrecord/synthrecord.c:172-180: A is 1, AAAA 28, ANY 255. -/
def satisfied (qtype : Nat) (fam : Fam) : Bool :=
  if qtype = 1 then fam = .inet else if qtype = 28 then fam = .inet6 else qtype = 255

/-! ## Reverse names -/

/-- `\x07in-addr\x04arpa`, src/knot/modules/synthrecord/synthrecord.c:106. -/
def arpa4 : Name := [[105, 110, 45, 97, 100, 100, 114], [97, 114, 112, 97]]

/-- `\x03ip6\x04arpa`, src/knot/modules/synthrecord/synthrecord.c:107. -/
def arpa6 : Name := [[105, 112, 54], [97, 114, 112, 97]]

/-- The variables of the loop over labels: the labels left, their count, which families are possible, and the octets written to
the ends of the two buffers. -/
structure Loop where
  rest : Name
  labels : Nat
  can4 : Bool
  can6 : Bool
  buf4 : Bytes
  buf6 : Bytes
  deriving DecidableEq, Repr

/-- The loop of reverse_addr_parse(), src/knot/modules/synthrecord/synthrecord.c:201-245; none is KNOT_EINVAL. The assertions on
the space left in `buf4` (16 octets) and `buf6` (32 octets) are kept; a failed one is undefined. Labels are counted back for a
classless label, that is, the count stays. -/
def revLoop : Name → Nat → Bool → Bool → Bytes → Bytes → Res (Option Loop)
  | [], labels, can4, can6, buf4, buf6 => if labels < 32 then .ok none else .ok (some ⟨[], labels, can4, can6, buf4, buf6⟩)
  | l :: rest, labels, can4, can6, buf4, buf6 =>
    if ¬labels < 32 then .ok (some ⟨l :: rest, labels, can4, can6, buf4, buf6⟩)
    else if l.head? = some 105 then .ok (some ⟨l :: rest, labels, can4, can6, buf4, buf6⟩)
    else if labels < 4 then
      if l.length = 1 then
        if 1 < 16 - buf4.length ∧ 0 < 32 - buf6.length then revLoop rest (labels + 1) can4 can6 (46 :: l ++ buf4) (l ++ buf6)
        else .ub
      else if l.length = 2 ∨ l.length = 3 then
        if l.length < 16 - buf4.length then revLoop rest (labels + 1) can4 false (46 :: l ++ buf4) buf6 else .ub
      else if 4 ≤ l.length ∧ l.length ≤ 6 then
        if labels ≠ 1 then .ok none else revLoop rest labels can4 false buf4 buf6
      else .ok none
    else if !can6 || l.length ≠ 1 then .ok none
    else if 0 < 32 - buf6.length then revLoop rest (labels + 1) false can6 buf4 (l ++ buf6)
    else .ub

/-- "0.0.0.0" with its end. -/
def zero4 : Bytes := [48, 46, 48, 46, 48, 46, 48, 0]

/-- The text of an IPv4 address, src/knot/modules/synthrecord/synthrecord.c:247-257: the address written over a zero address. What
was in the memory before is 255. -/
def text4 (labels : Nat) (buf4 : Bytes) : Res Bytes :=
  if buf4.length < 2 * labels then .ub
  else
    let mem := List.replicate (buf4.length - 2 * labels) 255 ++ zero4
    .ok (if labels > 0 then buf4.tail ++ mem.drop buf4.tail.length else mem)

/-- The blocks of four digits. -/
def blocksOf : Nat → Bytes → List Bytes
  | 0, _ => []
  | n + 1, s => s.take 4 :: blocksOf n (s.drop 4)

/-- Is the block "0000"? -/
def zeroBlock (b : Option Bytes) : Bool := b = some [48, 48, 48, 48]

/-- The search for zero blocks, src/knot/modules/synthrecord/synthrecord.c:268-299, from block `i` on, over `n` blocks. -/
def comprLoop (short : Bool) (blocks : List Bytes) : Nat → Nat → Option Nat → Option Nat → Option Nat × Option Nat
  | 0, _, start, stop => (start, stop)
  | n + 1, i, start, stop =>
    if short && 1 < i && i < 6 && zeroBlock blocks[i]? && zeroBlock blocks[i + 1]? then
      comprLoop short blocks n (i + 1) (if start = none then some i else start) stop
    else comprLoop short blocks n (i + 1) start (if start ≠ none ∧ stop = none then some i else stop)

/-- The writing of blocks, src/knot/modules/synthrecord/synthrecord.c:301-320, from block `i` on. A bound that is not set is -1. -/
def writeLoop (short : Bool) (start stop : Option Nat) : Nat → List Bytes → Bytes
  | _, [] => []
  | i, b :: bs =>
    (match start with
     | none => (if short then blockWrite b else b) ++ (if i < 7 then [58] else [])
     | some s =>
       if i < s ∨ (stop = none ∨ ∃ e ∈ stop, e < i) then (if short then blockWrite b else b) ++ (if i < 7 then [58] else [])
       else if stop = some i then [58] else []) ++ writeLoop short start stop (i + 1) bs

/-- The text of an IPv6 address, src/knot/modules/synthrecord/synthrecord.c:258-323. -/
def text6 (short : Bool) (buf6 : Bytes) : Bytes :=
  let blocks := blocksOf 8 (buf6 ++ List.replicate (32 - buf6.length) 48)
  let (start, stop) := comprLoop short blocks 8 0 none none
  writeLoop short start stop 0 blocks ++ [0]

/-- An address text, its family, and whether the name is only a parent of an address. -/
structure Parsed where
  text : Bytes
  fam : Fam
  parent : Bool
  deriving DecidableEq, Repr

/-- reverse_addr_parse(), src/knot/modules/synthrecord/synthrecord.c:183-324. -/
def reverseParse (t : Tpl) (name : Name) : Res (Option Parsed) := do
  match ← revLoop name 0 true true [] [] with
  | none => .ok none
  | some s =>
    if s.can4 && s.rest == arpa4 then do
      let x ← text4 s.labels s.buf4
      .ok (some ⟨x, .inet, s.labels < 4⟩)
    else if s.can6 && s.rest == arpa6 then .ok (some ⟨text6 t.short s.buf6, .inet6, s.labels < 32⟩)
    else .ok none

/-! ## Forward names -/

/-- The count of hyphens in forward_addr_parse(), src/knot/modules/synthrecord/synthrecord.c:342-354. -/
def hyphens (n : Nat) : Bytes → Nat
  | [] => n
  | [c] => if n < 4 ∧ c = 45 then n + 1 else n
  | c :: d :: s =>
    if n < 4 then (if c = 45 then (if d = 45 then 4 else hyphens (n + 1) s) else hyphens n (d :: s)) else n

/-- forward_addr_parse(), src/knot/modules/synthrecord/synthrecord.c:326-363. -/
def forwardParse (t : Tpl) (name : Name) : Option Parsed :=
  let label := name.headD []
  if label.length ≤ t.pfx.length ∨ label.take t.pfx.length ≠ t.pfx then none
  else
    let a := label.drop t.pfx.length
    let fam := if hyphens 0 a = 3 then Fam.inet else Fam.inet6
    some ⟨subst 45 (sepOf fam) a ++ [0], fam, false⟩

/-! ## Answers -/

/-- The size of a name. -/
def nameSize (n : Name) : Nat := (n.map fun l => l.length + 1).sum + 1

/-- synth_ptrname(), src/knot/modules/synthrecord/synthrecord.c:375-398: the name is written as text, where the text of the origin
ends with a dot and the text of the root is a dot, and read by knot_dname_from_str(), src/libknot/dname.c:233-357. An empty label
is refused, so the root as origin fails. -/
def ptrName (t : Tpl) (p : Parsed) : Option Name :=
  let l := t.pfx ++ subst (sepOf p.fam) 45 (cstr p.text)
  if l.length = 0 ∨ 63 < l.length ∨ t.zone = [] ∨ 255 < nameSize (l :: t.zone) then none else some (l :: t.zone)

/-- What becomes of a query that the zone has no answer for. -/
inductive Ans where
  /-- the state stays: the name does not exist -/
  | miss
  | nodata
  | servfail
  | ptr (n : Name)
  | addr (fam : Fam) (raw : Bytes)
  deriving DecidableEq, Repr

/-- The check of one network, src/knot/modules/synthrecord/synthrecord.c:485-496. -/
def oneNet (le : Bool) (a : Addr) (n : Net) : Res Bool :=
  if n.max.fam = .unspec then netMatch a n.addr n.mask else .ok (rangeMatch le a n.addr n.max)

/-- The search for a network, src/knot/modules/synthrecord/synthrecord.c:483-500. -/
def findNet (le : Bool) (a : Addr) : List Net → Res Bool
  | [] => .ok false
  | n :: ns => do
    let m ← oneNet le a n
    if m then .ok true else findNet le a ns

/-- reverse_rr() and synth_rr(), src/knot/modules/synthrecord/synthrecord.c:400-413, 439-462: no name means SERVFAIL. -/
def ptrAns (t : Tpl) (p : Parsed) : Ans :=
  match ptrName t p with
  | none => .servfail
  | some n => .ptr n

/-- template_match(), src/knot/modules/synthrecord/synthrecord.c:465-534; PTR is 12. -/
def templateMatch (le : Bool) (t : Tpl) (name : Name) (qtype : Nat) : Res Ans := do
  match ← (if t.reverse then reverseParse t name else .ok (forwardParse t name)) with
  | none => .ok .miss
  | some p =>
    match sockaddrSet p.fam p.text with
    | none => .ok .miss
    | some a =>
      if ← findNet le a t.nets then
        if t.reverse then
          if p.parent || (qtype ≠ 12 && qtype ≠ 255) then .ok .nodata
          else .ok (ptrAns t p)
        else if p.parent then .ub
        else if !satisfied qtype p.fam then .ok .nodata
        else .ok (.addr p.fam a.raw)
      else .ok .miss

/-- A letter in lower case. -/
def lower (c : UInt8) : UInt8 := if 65 ≤ c ∧ c ≤ 90 then c + 32 else c

/-- solve_synth_record() for a query with this name, src/knot/modules/synthrecord/synthrecord.c:537-549. The name is in lower case,
src/libknot/packet/pkt.c:616-617, src/knot/nameserver/internet.c:735. -/
def answer (le : Bool) (t : Tpl) (qname : Name) (qtype : Nat) : Res Ans :=
  templateMatch le t (qname.map fun l => l.map lower) qtype

end Knot.Synth
