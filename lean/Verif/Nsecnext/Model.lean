import Verif.Dname.Model
/-!
# Model of the online-signing successor of a name
(src/knot/modules/onlinesign/nsec_next.c)

The buffer is the 255-octet array the name is copied into; positions are offsets in it.
-/
namespace Knot.Nsecnext
open Dname

/-- knot_dname_copy(), src/libknot/dname.c:157-171 (allocation always succeeds). -/
def copy (name : Bytes) : Res Bytes := do
  let n ← size name
  if name.length < n then .ub else .ok (name.take n)

/-- The scan over trailing 0xff octets, src/knot/modules/onlinesign/nsec_next.c:38-41;
`k` is the distance of the octet from the length octet, 0 when the label is exhausted. -/
def scan (buf : Bytes) (pos : Nat) : Nat → Res Nat
  | 0 => .ok 0
  | k + 1 => do
    let b ← Res.rd buf (pos + (k + 1))
    if b = 0xff then scan buf pos k else .ok (k + 1)

/-- Overwrite `buf[i..]` by `d`; outside the buffer undefined. -/
def store (buf : Bytes) (i : Nat) (d : Bytes) : Res Bytes :=
  if i + d.length ≤ buf.length then .ok (buf.take i ++ d ++ buf.drop (i + d.length)) else .ub

/-- inc_label(), src/knot/modules/onlinesign/nsec_next.c:24-68; `none` for `false`, otherwise
the new contents and the new position of the label. -/
def incLabel (buf : Bytes) (pos : Nat) : Res (Option (Bytes × Nat)) := do
  let len ← Res.rd buf pos
  if len.toNat > 63 then .ub
  else
    let k ← scan buf pos len.toNat
    if 0 < k then do
      let c ← Res.rd buf (pos + k)
      let c' : UInt8 := if c = 0x40 then 0x5b else c + 1
      let buf ← store buf (pos + k) (c' :: List.replicate (len.toNat - k) 0)
      .ok (some (buf, pos))
    else if pos = 0 ∨ len.toNat = 63 then .ok none
    else do
      let l := (buf.drop (pos + 1)).take len.toNat
      let buf ← store buf (pos - 1) ((len + 1) :: l ++ [0])
      .ok (some (buf, pos - 1))

/-- The loop over labels, src/knot/modules/onlinesign/nsec_next.c:102-112, with strip_label(),
lines 70-76. -/
def nextLoop (buf : Bytes) (apexPos pos : Nat) : Res Bytes :=
  if pos = apexPos then copy (buf.drop pos)
  else if h : pos < buf.length then
    match incLabel buf pos with
    | .ok (some (b, p)) => copy (b.drop p)
    | .ok none => nextLoop buf apexPos (pos + (1 + buf[pos].toNat))
    | .err e => .err e
    | .ub => .ub
  else .ub
termination_by buf.length - pos

/-- online_nsec_next(), src/knot/modules/onlinesign/nsec_next.c:78-113. The array has
KNOT_DNAME_MAXLEN = 255 octets (src/libknot/dname.h:39). -/
def next (dname apex : Bytes) : Res Bytes := do
  let n ← size dname
  if n > 255 ∨ dname.length < n then .ub
  else
    let empty := 255 - n
    let buf := List.replicate empty 0 ++ dname.take n
    if 2 ≤ empty then do
      let buf ← store buf (empty - 2) [1, 0]
      copy (buf.drop (empty - 2))
    else do
      let a ← size apex
      if a > 255 then .ub
      else
        let eq ← isEqual apex (buf.drop (255 - a))
        if eq then nextLoop buf (255 - a) empty else .ub

end Knot.Nsecnext
