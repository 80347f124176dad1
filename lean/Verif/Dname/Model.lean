import Verif.Prelude
/-!
# Domain names: model of src/libknot/dname.c

A pointer into an uncompressed name is the list of bytes from that pointer to the
end of the memory object, so `lp + n` is `List.drop n` and reading past the object
is `Res.ub`. Functions that take a packet work on the packet's bytes and offsets.
-/
namespace Knot.Dname
open Knot Res

abbrev Bytes := List UInt8

/-- KNOT_DNAME_MAXLEN, src/libknot/consts.h:31 -/
def maxLen : Nat := 255
/-- KNOT_DNAME_MAXLABELLEN, src/libknot/consts.h:33 -/
def maxLabelLen : Nat := 63
/-- KNOT_DNAME_TXT_MAXLEN, src/libknot/consts.h:45 -/
def txtMaxLen : Nat := 1004

/-- knot_tolower(), src/contrib/tolower.h:28-50. The C code uses a 256-entry table;
the model is the closed form of that table. -/
def toLower (c : UInt8) : UInt8 :=
  if 65 ≤ c.toNat ∧ c.toNat ≤ 90 then c + 32 else c

/-- knot_wire_is_pointer() on the byte read, src/libknot/packet/wire.h:1001-1004 -/
def isPtr (b : UInt8) : Bool := (b &&& 0xC0) == 0xC0

/-- knot_wire_get_pointer(), src/libknot/packet/wire.h:1022-1026:
the big-endian u16 minus 0xC000, truncated to 16 bits. -/
def getPtr (b1 b2 : UInt8) : Nat := (b1.toNat * 256 + b2.toNat + 0x10000 - 0xC000) % 0x10000

/-- The loop of knot_dname_wire_check(), src/libknot/dname.c:83-139.
`compr` is `pkt != NULL`; offsets are relative to `pkt`. After a pointer hop the bounds
check `name + 1 > endp` is written `endp ≤ name`. -/
def wireCheckLoop (mem : Bytes) (endp : Nat) (compr : Bool)
    (name wireLen nameLen : Nat) (isCompr : Bool) : Res Nat :=
  match mem[name]? with
  | none => .ub
  | some b =>
    if b.toNat = 0 then
      .ok (if isCompr then wireLen else wireLen + 1)
    else if name + 2 > endp then .err .emalf
    else if isPtr b then
      if compr = false then .err .einval
      else
        match mem[name + 1]? with
        | none => .ub
        | some b2 =>
          if _h : getPtr b b2 ≥ name then .err .emalf
          else if endp ≤ getPtr b b2 then .err .emalf
          else wireCheckLoop mem endp compr (getPtr b b2)
                 (if isCompr then wireLen else wireLen + 2) nameLen true
    else if b.toNat > maxLabelLen then .err .emalf
    else if _h : nameLen + (b.toNat + 1) > maxLen then .err .emalf
    else if name + (b.toNat + 1) + 1 > endp then .err .emalf
    else wireCheckLoop mem endp compr (name + (b.toNat + 1))
           (if isCompr then wireLen else wireLen + (b.toNat + 1))
           (nameLen + (b.toNat + 1)) isCompr
termination_by (maxLen - nameLen, name)
decreasing_by
  · exact Prod.Lex.right _ (Nat.lt_of_not_le _h)
  · exact Prod.Lex.left _ _ (by omega)

/-- knot_dname_wire_check(), src/libknot/dname.c:75-140 (non-NULL `name`). -/
def wireCheck (mem : Bytes) (endp : Nat) (compr : Bool) (name : Nat) : Res Nat :=
  if name = endp then .err .einval
  else wireCheckLoop mem endp compr name 0 1 false

/-- knot_wire_seek_label(), src/libknot/packet/wire.h:1029-1042.
A forward pointer hits `assert(0)`. -/
def seekLabel (mem : Bytes) (lp : Nat) : Res Nat :=
  match mem[lp]? with
  | none => .ub
  | some b =>
    if isPtr b then
      match mem[lp + 1]? with
      | none => .ub
      | some b2 =>
        if _h : getPtr b b2 ≥ lp then .ub
        else seekLabel mem (getPtr b b2)
    else .ok lp
termination_by lp
decreasing_by exact Nat.lt_of_not_le _h

/-- knot_wire_next_label(), src/libknot/packet/wire.h:1044-1049. -/
def wireNext (mem : Bytes) (lp : Nat) : Res Nat :=
  match mem[lp]? with
  | none => .ub
  | some b => if b.toNat = 0 then .ub else seekLabel mem (lp + (b.toNat + 1))

/-- The loop of knot_dname_unpack(), src/libknot/dname.c:200-218; `out` is what has
been written to `dst`. `lblen` is a `uint8_t`. -/
def unpackLoop (mem : Bytes) (maxlen : Nat) (src : Nat) (out : Bytes) : Res Bytes :=
  match mem[src]? with
  | none => .ub
  | some b =>
    if b.toNat = 0 then
      if out.length + 1 > maxlen then .err .einval
      else .ok (out ++ [0])
    else
      let lblen := (b.toNat + 1) % 256
      if _h : out.length + lblen > maxlen then .err .espace
      else if _h2 : lblen = 0 then .ub -- 255 is a pointer, cannot occur after seek
      else if _h3 : src + lblen > mem.length then .ub
      else
        match wireNext mem src with
        | .ok src' => unpackLoop mem maxlen src' (out ++ (mem.drop src).take lblen)
        | .err e => .err e
        | .ub => .ub
termination_by maxlen - out.length
decreasing_by
  simp only [List.length_append, List.length_take, List.length_drop]
  omega

/-- knot_dname_unpack(), src/libknot/dname.c:189-219 (non-NULL arguments). -/
def unpack (mem : Bytes) (maxlen : Nat) (src : Nat) : Res Bytes :=
  match seekLabel mem src with
  | .ok s => unpackLoop mem maxlen s []
  | .err e => .err e
  | .ub => .ub

/-- knot_dname_realsize(), src/libknot/dname.c:533-551; `fuel` bounds the number of
loop iterations (`none` = still running), since the C loop has no other bound. -/
def realsizeLoop (mem : Bytes) : (fuel : Nat) → (name len : Nat) → Option (Res Nat)
  | 0, _, _ => none
  | fuel + 1, name, len =>
    match mem[name]? with
    | none => some .ub
    | some b =>
      if b.toNat = 0 then some (.ok (len + 1))
      else
        match wireNext mem name with
        | .ok n' => realsizeLoop mem fuel n' (len + (b.toNat + 1))
        | .err e => some (.err e)
        | .ub => some .ub

/-- knot_dname_realsize(), src/libknot/dname.c:533-551 -/
def realsize (mem : Bytes) (fuel name : Nat) : Option (Res Nat) :=
  match seekLabel mem name with
  | .ok s => realsizeLoop mem fuel s 0
  | .err e => some (.err e)
  | .ub => some .ub

/-! ## Uncompressed names -/

/-- knot_dname_next_label(), src/libknot/packet/wire.h:1052-1059: asserts a non-terminal,
non-pointer label; stepping past the end of the object is undefined. -/
def nextLabel (lp : Bytes) : Res Bytes :=
  match lp with
  | [] => .ub
  | b :: t =>
    if b.toNat = 0 then .ub
    else if isPtr b then .ub
    else if t.length < b.toNat then .ub
    else .ok (t.drop b.toNat)

theorem nextLabel_length {lp r : Bytes} (h : nextLabel lp = .ok r) : r.length < lp.length := by
  cases lp with
  | nil => simp [nextLabel] at h
  | cons b t =>
    simp only [nextLabel] at h
    split at h; · cases h
    split at h; · cases h
    split at h; · cases h
    simp only [Res.ok.injEq] at h
    subst h
    simp only [List.length_drop, List.length_cons]
    omega

/-- knot_dname_size(), src/libknot/dname.c:509-531. -/
def size (name : Bytes) : Res Nat :=
  match name with
  | [] => .ub
  | b :: t =>
    if b.toNat = 0 then .ok 1
    else if isPtr b then .ok 2
    else if t.length < b.toNat then .ub
    else
      match size (t.drop b.toNat) with
      | .ok n => .ok ((b.toNat + 1) % 256 + n)
      | .err e => .err e
      | .ub => .ub
termination_by name.length
decreasing_by simp only [List.length_drop, List.length_cons]; omega

/-- knot_dname_labels() with `pkt == NULL`, src/libknot/dname.c:744-762. -/
def labels (name : Bytes) : Res Nat :=
  match name with
  | [] => .ub
  | b :: t =>
    if b.toNat = 0 then .ok 0
    else
      match _h : nextLabel (b :: t) with
      | .ok n =>
        match labels n with
        | .ok k => .ok (k + 1)
        | .err e => .err e
        | .ub => .ub
      | .err e => .err e
      | .ub => .ub
termination_by name.length
decreasing_by exact nextLabel_length _h

/-- knot_dname_labels() with a packet, src/libknot/dname.c:744-762 (fuel as in
`realsize`). The C function does not seek before the first label. -/
def labelsWire (mem : Bytes) : (fuel : Nat) → (name : Nat) → Option (Res Nat)
  | 0, _ => none
  | fuel + 1, name =>
    match mem[name]? with
    | none => some .ub
    | some b =>
      if b.toNat = 0 then some (.ok 0)
      else
        match wireNext mem name with
        | .ok n' => (labelsWire mem fuel n').map (fun r => do let k ← r; .ok (k + 1))
        | .err e => some (.err e)
        | .ub => some .ub

/-- knot_dname_prefixlen(), src/libknot/dname.c:720-742. -/
def prefixlen (name : Bytes) (nlabels : Nat) : Res Nat :=
  match nlabels with
  | 0 => .ok 0
  | n + 1 =>
    match name with
    | [] => .ub
    | b :: t =>
      if b.toNat = 0 then .ok 0
      else
        match nextLabel (b :: t) with
        | .ok nx => do let k ← prefixlen nx n; .ok (b.toNat + 1 + k)
        | .err e => .err e
        | .ub => .ub

/-- label_is_equal(), src/libknot/dname.c:31-49. Simplification: both labels must lie
inside their objects even if the comparison would stop early. -/
def labelIsEqual (lb1 lb2 : Bytes) (noCase : Bool) : Res Bool :=
  match lb1, lb2 with
  | [], _ => .ub
  | _ :: _, [] => .ub
  | a :: t1, b :: t2 =>
    if a.toNat ≠ b.toNat then .ok false
    else if t1.length < a.toNat ∨ t2.length < a.toNat then .ub
    else if noCase then
      .ok ((t1.take a.toNat).map toLower == (t2.take a.toNat).map toLower)
    else .ok (t1.take a.toNat == t2.take a.toNat)

/-- dname_is_equal(), src/libknot/dname.c:679-695. -/
def isEqualGen (d1 d2 : Bytes) (noCase : Bool) : Res Bool :=
  match d1, d2 with
  | [], _ => .ub
  | _ :: _, [] => .ub
  | a :: t1, b :: t2 =>
    if a.toNat ≠ 0 ∨ b.toNat ≠ 0 then
      match labelIsEqual (a :: t1) (b :: t2) noCase with
      | .ok true =>
        match _h1 : nextLabel (a :: t1) with
        | .ok n1 =>
          match nextLabel (b :: t2) with
          | .ok n2 => isEqualGen n1 n2 noCase
          | .err e => .err e
          | .ub => .ub
        | .err e => .err e
        | .ub => .ub
      | .ok false => .ok false
      | .err e => .err e
      | .ub => .ub
    else .ok true
termination_by d1.length
decreasing_by exact nextLabel_length _h1

/-- knot_dname_is_equal(), src/libknot/dname.c:697-701 -/
def isEqual (d1 d2 : Bytes) : Res Bool := isEqualGen d1 d2 false
/-- knot_dname_is_case_equal(), src/libknot/dname.c:703-707 -/
def isCaseEqual (d1 d2 : Bytes) : Res Bool := isEqualGen d1 d2 true

/-- knot_dname_copy_lower() / knot_dname_to_lower(), src/libknot/dname.c:474-507: the
bytes written. -/
def copyLower (name : Bytes) : Res Bytes :=
  match name with
  | [] => .ub
  | b :: t =>
    if b.toNat = 0 then .ok [0]
    else if t.length < b.toNat then .ub
    else
      match copyLower (t.drop b.toNat) with
      | .ok r => .ok (b :: (t.take b.toNat).map toLower ++ r)
      | .err e => .err e
      | .ub => .ub
termination_by name.length
decreasing_by simp only [List.length_drop, List.length_cons]; omega

/-- Apply knot_dname_next_label() `n` times. -/
def skipLabels (name : Bytes) : Nat → Res Bytes
  | 0 => .ok name
  | n + 1 => do let nx ← nextLabel name; skipLabels nx n

/-- The counting loop of knot_dname_matched_labels(), src/libknot/dname.c:567-579. -/
def matchedLoop (d1 d2 : Bytes) : (common matched : Nat) → Res Nat
  | 0, matched => .ok matched
  | common + 1, matched => do
    let eq ← labelIsEqual d1 d2 false
    let n1 ← nextLabel d1
    let n2 ← nextLabel d2
    matchedLoop n1 n2 common (if eq then matched + 1 else 0)

/-- knot_dname_matched_labels() with dname_align(), src/libknot/dname.c:59-73,553-582. -/
def matchedLabels (d1 d2 : Bytes) : Res Nat := do
  let l1 ← labels d1
  let l2 ← labels d2
  if l1 = 0 ∨ l2 = 0 then .ok 0
  else
    let d2' ← skipLabels d2 (l2 - l1)
    let d1' ← skipLabels d1 (l1 - l2)
    matchedLoop d1' d2' (if l1 < l2 then l1 else l2) 0

/-- Copy of the first `n` labels, src/libknot/dname.c:611-618. -/
def copyPrefix (name : Bytes) : Nat → Res Bytes
  | 0 => .ok []
  | n + 1 =>
    match name with
    | [] => .ub
    | b :: t =>
      if t.length < b.toNat then .ub
      else do
        let nx ← nextLabel (b :: t)
        let r ← copyPrefix nx n
        .ok (b :: t.take b.toNat ++ r)

/-- Copy of all labels including the terminal one, src/libknot/dname.c:620-628. -/
def copyAll (name : Bytes) : Res Bytes :=
  match name with
  | [] => .ub
  | b :: t =>
    if b.toNat = 0 then .ok [0]
    else if t.length < b.toNat then .ub
    else
      match _h : nextLabel (b :: t) with
      | .ok nx =>
        match copyAll nx with
        | .ok r => .ok (b :: t.take b.toNat ++ r)
        | .err e => .err e
        | .ub => .ub
      | .err e => .err e
      | .ub => .ub
termination_by name.length
decreasing_by exact nextLabel_length _h

/-- knot_dname_replace_suffix(), src/libknot/dname.c:584-630; `none` is the NULL result.
The check that the copied bytes fit the allocation `prefix_len + suffix_len` is explicit. -/
def replaceSuffix (name : Bytes) (nlabels : Nat) (suffix : Bytes) : Res (Option Bytes) := do
  let dnameLbs ← labels name
  if dnameLbs < nlabels then .ok none
  else
    let prefixLbs := dnameLbs - nlabels
    let prefixLen ← prefixlen name prefixLbs
    let suffixLen ← size suffix
    if prefixLen = 0 ∨ suffixLen = 0 then .ok none
    else
      let p ← copyPrefix name prefixLbs
      let s ← copyAll suffix
      if p.length + s.length > prefixLen + suffixLen then .ub
      else .ok (some (p ++ s))

/-- knot_dname_in_bailiwick(), src/libknot/dname.c:793-810. -/
def inBailiwick (name bailiwick : Bytes) : Res Nat := do
  let l1 ← labels name
  let l2 ← labels bailiwick
  if l1 < l2 then .err .eoutofzone
  else
    let n ← skipLabels name (l1 - l2)
    let e ← isEqual n bailiwick
    if e then .ok (l1 - l2) else .err .eoutofzone

/-! ## Lookup format and comparison -/

/-- The loop of knot_dname_lf(), src/libknot/dname.c:771-790. `acc` is what has been
written above `dst`, i.e. `dst = storage + 254 - acc.length`. -/
def lfLoop (src : Bytes) (acc : Bytes) : Res Bytes :=
  match src with
  | [] => .ub
  | b :: t =>
    if b.toNat = 0 then
      if acc.length > 254 then .ub
      else .ok (UInt8.ofNat acc.length :: acc)
    else if acc.length > 254 then .ub          -- `*dst = '\0'` below the storage
    else if acc.length + b.toNat > 254 then .ub -- assert(dst >= storage)
    else if t.length < b.toNat then .ub
    else lfLoop (t.drop b.toNat) (t.take b.toNat ++ 0 :: acc)
termination_by src.length
decreasing_by simp only [List.length_drop, List.length_cons]; omega

/-- knot_dname_lf(), src/libknot/dname.c:764-791 -/
def lf (src : Bytes) : Res Bytes := lfLoop src []

/-- memcmp() over equally long byte strings: sign of the first difference. -/
def memcmp : Bytes → Bytes → Ordering
  | a :: s, b :: t =>
    if a.toNat < b.toNat then .lt else if b.toNat < a.toNat then .gt else memcmp s t
  | _, _ => .eq

/-- knot_dname_cmp(), src/libknot/dname.c:642-677 (non-NULL arguments; only the sign of
the result is observable). -/
def cmp (d1 d2 : Bytes) : Res Ordering := do
  let lf1 ← lf d1
  let lf2 ← lf d2
  match lf1, lf2 with
  | n1 :: r1, n2 :: r2 =>
    let common := if n1.toNat > n2.toNat then n2.toNat else n1.toNat
    match memcmp (r1.take common) (r2.take common) with
    | .lt => .ok .lt
    | .gt => .ok .gt
    | .eq => .ok (if n1.toNat < n2.toNat then .lt
                  else if n1.toNat > n2.toNat then .gt else .eq)
  | _, _ => .ub

/-! ## Presentation format -/

/-- is_digit(), src/contrib/ctype.h:36-165 -/
def isDigit (c : UInt8) : Bool := decide (48 ≤ c.toNat ∧ c.toNat ≤ 57)
/-- is_alnum(), src/contrib/ctype.h:36-150 -/
def isAlnum (c : UInt8) : Bool :=
  isDigit c || decide (65 ≤ c.toNat ∧ c.toNat ≤ 90) || decide (97 ≤ c.toNat ∧ c.toNat ≤ 122)
/-- is_punct(), src/contrib/ctype.h:36-190 -/
def isPunct (c : UInt8) : Bool :=
  decide (33 ≤ c.toNat ∧ c.toNat ≤ 126) && !isAlnum c

/-- `snprintf("\\%03u", c)` for an octet. -/
def ddd (c : UInt8) : Bytes :=
  [92, UInt8.ofNat (48 + c.toNat / 100), UInt8.ofNat (48 + c.toNat / 10 % 10),
   UInt8.ofNat (48 + c.toNat % 10)]

/-- Characters written verbatim, src/libknot/dname.c:261-262. -/
def isPlain (c : UInt8) : Bool :=
  isAlnum c || c == 45 || c == 95 || c == 42 || c == 47

/-- The loop of knot_dname_to_str(), src/libknot/dname.c:243-317. `alloc` is
`dst == NULL`; `name` is the rest of the `dname_size` bytes; `sz1` is
`dname_size == 1`. `none` is the NULL result. -/
def toStrLoop (alloc : Bool) (sz1 : Bool) :
    (name : Bytes) → (labelLen : Nat) → (allocSize : Nat) → (out : Bytes) → Option (Bytes × Nat)
  | [], _, allocSize, out => some (out, allocSize)
  | c :: t, 0, allocSize, out =>
    if out.length > 0 ∨ sz1 then
      if allocSize ≤ out.length + 1 then none
      else toStrLoop alloc sz1 t c.toNat allocSize (out ++ [46])
    else toStrLoop alloc sz1 t c.toNat allocSize out
  | c :: t, ll + 1, allocSize, out =>
    if isPlain c then
      if allocSize ≤ out.length + 1 then none
      else toStrLoop alloc sz1 t ll allocSize (out ++ [c])
    else if isPunct c && !(c == 35) then
      if alloc then toStrLoop alloc sz1 t ll (allocSize + 1) (out ++ [92, c])
      else if allocSize ≤ out.length + 2 then none
      else toStrLoop alloc sz1 t ll allocSize (out ++ [92, c])
    else if alloc then
      -- snprintf() must not truncate
      if 4 ≥ allocSize + 3 - out.length then none
      else toStrLoop alloc sz1 t ll (allocSize + 3) (out ++ ddd c)
    else if allocSize ≤ out.length + 4 then none
    else toStrLoop alloc sz1 t ll allocSize (out ++ ddd c)

/-- knot_dname_to_str(), src/libknot/dname.c:221-332. `buf = none` is the allocating
variant, `buf = some maxlen` writes to a caller's buffer. The result is the string
without its terminating NUL; failing the final assertion (no room for the NUL or, in
the allocating variant, having written past the allocation) is `ub`. -/
def toStr (name : Bytes) (buf : Option Nat) : Res (Option Bytes) := do
  let dsz ← size name
  if name.length < dsz then .ub
  else
    let allocSize := buf.getD (dsz + 1)
    if allocSize < dsz + 1 then .ok none
    else
      match toStrLoop buf.isNone (dsz == 1) (name.take dsz) 0 allocSize [] with
      | none => .ok none
      | some (s, asz) => if s.length < asz then .ok (some s) else .ub

/-- State of knot_dname_from_str() between characters: `done` are the finished labels
(with their length octets), `lab` the octets of the label under construction; so
`*label = lab.length` and `wire_pos = wire + done.length + 1 + lab.length`. -/
structure FromSt where
  done : Bytes
  lab : Bytes
  deriving DecidableEq, Repr

def FromSt.pos (s : FromSt) : Nat := s.done.length + 1 + s.lab.length

/-- The loop of knot_dname_from_str(), src/libknot/dname.c:388-444. `cap` is the buffer
size; `multi` is `name_len > 1`. Every store happens at `wire_pos < wire_end`, checked
at the loop head, src/libknot/dname.c:389-392. `none` is failure. -/
def fromStrLoop (cap : Nat) (multi : Bool) (ch : Bytes) (s : FromSt) : Option FromSt :=
  match ch with
  | [] => some s
  | c :: t =>
    if s.pos ≥ cap then none
    else if c.toNat = 46 then
      if s.lab.length = 0 ∧ multi then none
      else fromStrLoop cap multi t ⟨s.done ++ UInt8.ofNat s.lab.length :: s.lab, []⟩
    else if c.toNat = 92 then
      match t with
      | [] => none
      | d :: t1 =>
        if s.lab.length + 1 > maxLabelLen then none
        else if isDigit d then
          match t1 with
          | d2 :: d3 :: t2 =>
            if isDigit d2 && isDigit d3 then
              let num := (d.toNat - 48) * 100 + (d2.toNat - 48) * 10 + (d3.toNat - 48)
              if num > 255 then none
              else fromStrLoop cap multi t2 { s with lab := s.lab ++ [UInt8.ofNat num] }
            else none
          | _ => none
        else fromStrLoop cap multi t1 { s with lab := s.lab ++ [d] }
    else if s.lab.length + 1 > maxLabelLen then none
    else fromStrLoop cap multi t { s with lab := s.lab ++ [c] }
termination_by ch.length

/-- Parsing into a buffer of `cap` octets, including the terminal label of a
non-FQDN name, src/libknot/dname.c:377-452. -/
def fromStrBody (cap : Nat) (multi : Bool) (ch : Bytes) : Option Bytes :=
  match fromStrLoop cap multi ch ⟨[], []⟩ with
  | none => none
  | some s =>
    if s.lab.length > 0 then
      if s.pos ≥ cap then none
      else some (s.done ++ UInt8.ofNat s.lab.length :: s.lab ++ [0])
    else some (s.done ++ [0])

/-- knot_dname_from_str(), src/libknot/dname.c:334-472. `buf = none` is the allocating
variant. The string is a C string, given without its terminating NUL. The result is
the content of the buffer from `wire` to `wire_pos`; `none` is NULL. -/
def fromStr (name : Bytes) (buf : Option Nat) : Option Bytes :=
  if name.length = 0 then none
  else
    match buf with
    | none =>
      if name.head? = some 46 then
        if name.length > 1 then none
        else fromStrBody (min 1 maxLen) false []
      else if name.getLast? ≠ some 46 then
        fromStrBody (min (1 + name.length + 1) maxLen) (decide (name.length > 1)) name
      else fromStrBody (min (1 + name.length) maxLen) (decide (name.length > 1)) name
    | some m =>
      if m = 0 then none
      else fromStrBody (min m maxLen) (decide (name.length > 1)) name

end Knot.Dname
