import Verif.Prelude
/-!
# Model of the base64, base64url and base32hex codecs (src/contrib/base*.c)

Bit operations of the source are written as arithmetic on natural numbers:
`x >> k` as `x / 2^k`, `x & (2^k - 1)` as `x % 2^k`, `a << k | b` (with disjoint bits)
as `a * 2^k + b`; storing into a byte is reduction modulo 256 (`UInt8.ofNat`).
NULL arguments and allocation failures are not modelled.
The result of a function is the output it writes; the C return value is its length.
-/
namespace Knot.Baseenc

abbrev Bytes := List UInt8

/-- Characters of a C string. -/
def cstr (l : List Char) : Bytes := l.map (fun c => UInt8.ofNat c.toNat)

/-- `base64_enc`. Source: src/contrib/base64.c:29-30. -/
def enc64Tbl : Bytes := cstr
  ['A','B','C','D','E','F','G','H','I','J','K','L','M','N','O','P','Q','R','S','T','U','V','W','X',
   'Y','Z','a','b','c','d','e','f','g','h','i','j','k','l','m','n','o','p','q','r','s','t','u','v',
   'w','x','y','z','0','1','2','3','4','5','6','7','8','9','+','/']

/-- `base64url_enc`. Source: src/contrib/base64url.c:30-31. -/
def enc64uTbl : Bytes := cstr
  ['A','B','C','D','E','F','G','H','I','J','K','L','M','N','O','P','Q','R','S','T','U','V','W','X',
   'Y','Z','a','b','c','d','e','f','g','h','i','j','k','l','m','n','o','p','q','r','s','t','u','v',
   'w','x','y','z','0','1','2','3','4','5','6','7','8','9','-','_']

/-- `base32hex_enc`. Source: src/contrib/base32hex.c:29. -/
def enc32Tbl : Bytes := cstr
  ['0','1','2','3','4','5','6','7','8','9','a','b','c','d','e','f','g','h','i','j','k','l','m','n',
   'o','p','q','r','s','t','u','v']

/-- `base64_dec` (255 is KO, 64 is PD). Source: src/contrib/base64.c:33-82. -/
def dec64Tbl : List Nat :=
  [
   255, 255, 255, 255, 255, 255, 255, 255, 255, 255, 255, 255, 255, 255, 255, 255,
   255, 255, 255, 255, 255, 255, 255, 255, 255, 255, 255, 255, 255, 255, 255, 255,
   255, 255, 255, 255, 255, 255, 255, 255, 255, 255, 255, 62, 255, 255, 255, 63,
   52, 53, 54, 55, 56, 57, 58, 59, 60, 61, 255, 255, 255, 64, 255, 255,
   255, 0, 1, 2, 3, 4, 5, 6, 7, 8, 9, 10, 11, 12, 13, 14,
   15, 16, 17, 18, 19, 20, 21, 22, 23, 24, 25, 255, 255, 255, 255, 255,
   255, 26, 27, 28, 29, 30, 31, 32, 33, 34, 35, 36, 37, 38, 39, 40,
   41, 42, 43, 44, 45, 46, 47, 48, 49, 50, 51, 255, 255, 255, 255, 255,
   255, 255, 255, 255, 255, 255, 255, 255, 255, 255, 255, 255, 255, 255, 255, 255,
   255, 255, 255, 255, 255, 255, 255, 255, 255, 255, 255, 255, 255, 255, 255, 255,
   255, 255, 255, 255, 255, 255, 255, 255, 255, 255, 255, 255, 255, 255, 255, 255,
   255, 255, 255, 255, 255, 255, 255, 255, 255, 255, 255, 255, 255, 255, 255, 255,
   255, 255, 255, 255, 255, 255, 255, 255, 255, 255, 255, 255, 255, 255, 255, 255,
   255, 255, 255, 255, 255, 255, 255, 255, 255, 255, 255, 255, 255, 255, 255, 255,
   255, 255, 255, 255, 255, 255, 255, 255, 255, 255, 255, 255, 255, 255, 255, 255,
   255, 255, 255, 255, 255, 255, 255, 255, 255, 255, 255, 255, 255, 255, 255, 255]

/-- `base64url_dec` (255 is KO, 64 is PD). Source: src/contrib/base64url.c:34-83. -/
def dec64uTbl : List Nat :=
  [
   64, 255, 255, 255, 255, 255, 255, 255, 255, 255, 255, 255, 255, 255, 255, 255,
   255, 255, 255, 255, 255, 255, 255, 255, 255, 255, 255, 255, 255, 255, 255, 255,
   255, 255, 255, 255, 255, 255, 255, 255, 255, 255, 255, 255, 255, 62, 255, 255,
   52, 53, 54, 55, 56, 57, 58, 59, 60, 61, 255, 255, 255, 255, 255, 255,
   255, 0, 1, 2, 3, 4, 5, 6, 7, 8, 9, 10, 11, 12, 13, 14,
   15, 16, 17, 18, 19, 20, 21, 22, 23, 24, 25, 255, 255, 255, 255, 63,
   255, 26, 27, 28, 29, 30, 31, 32, 33, 34, 35, 36, 37, 38, 39, 40,
   41, 42, 43, 44, 45, 46, 47, 48, 49, 50, 51, 255, 255, 255, 255, 255,
   255, 255, 255, 255, 255, 255, 255, 255, 255, 255, 255, 255, 255, 255, 255, 255,
   255, 255, 255, 255, 255, 255, 255, 255, 255, 255, 255, 255, 255, 255, 255, 255,
   255, 255, 255, 255, 255, 255, 255, 255, 255, 255, 255, 255, 255, 255, 255, 255,
   255, 255, 255, 255, 255, 255, 255, 255, 255, 255, 255, 255, 255, 255, 255, 255,
   255, 255, 255, 255, 255, 255, 255, 255, 255, 255, 255, 255, 255, 255, 255, 255,
   255, 255, 255, 255, 255, 255, 255, 255, 255, 255, 255, 255, 255, 255, 255, 255,
   255, 255, 255, 255, 255, 255, 255, 255, 255, 255, 255, 255, 255, 255, 255, 255,
   255, 255, 255, 255, 255, 255, 255, 255, 255, 255, 255, 255, 255, 255, 255, 255]

/-- `base32hex_dec` (255 is KO, 32 is PD). Source: src/contrib/base32hex.c:31-81. -/
def dec32Tbl : List Nat :=
  [
   255, 255, 255, 255, 255, 255, 255, 255, 255, 255, 255, 255, 255, 255, 255, 255,
   255, 255, 255, 255, 255, 255, 255, 255, 255, 255, 255, 255, 255, 255, 255, 255,
   255, 255, 255, 255, 255, 255, 255, 255, 255, 255, 255, 255, 255, 255, 255, 255,
   0, 1, 2, 3, 4, 5, 6, 7, 8, 9, 255, 255, 255, 32, 255, 255,
   255, 10, 11, 12, 13, 14, 15, 16, 17, 18, 19, 20, 21, 22, 23, 24,
   25, 26, 27, 28, 29, 30, 31, 255, 255, 255, 255, 255, 255, 255, 255, 255,
   255, 10, 11, 12, 13, 14, 15, 16, 17, 18, 19, 20, 21, 22, 23, 24,
   25, 26, 27, 28, 29, 30, 31, 255, 255, 255, 255, 255, 255, 255, 255, 255,
   255, 255, 255, 255, 255, 255, 255, 255, 255, 255, 255, 255, 255, 255, 255, 255,
   255, 255, 255, 255, 255, 255, 255, 255, 255, 255, 255, 255, 255, 255, 255, 255,
   255, 255, 255, 255, 255, 255, 255, 255, 255, 255, 255, 255, 255, 255, 255, 255,
   255, 255, 255, 255, 255, 255, 255, 255, 255, 255, 255, 255, 255, 255, 255, 255,
   255, 255, 255, 255, 255, 255, 255, 255, 255, 255, 255, 255, 255, 255, 255, 255,
   255, 255, 255, 255, 255, 255, 255, 255, 255, 255, 255, 255, 255, 255, 255, 255,
   255, 255, 255, 255, 255, 255, 255, 255, 255, 255, 255, 255, 255, 255, 255, 255,
   255, 255, 255, 255, 255, 255, 255, 255, 255, 255, 255, 255, 255, 255, 255, 255]

/-- Array access of an encoding table. -/
def encAt (tbl : Bytes) (i : Nat) : UInt8 := tbl.getD i 0
/-- Array access of a decoding table by an input byte. -/
def decAt (tbl : List Nat) (c : UInt8) : Nat := tbl.getD c.toNat 255

/-- `base64_pad`, `base32hex_pad`. Source: src/contrib/base64.c:27, src/contrib/base32hex.c:27. -/
def padChar : UInt8 := 61

/-- The encoding loop and the final `switch` of `knot_base64_encode`.
Source: src/contrib/base64.c:97-127. -/
def enc64Loop : Bytes → Bytes
  | a :: b :: c :: t =>
    encAt enc64Tbl (a.toNat / 4) :: encAt enc64Tbl (a.toNat % 4 * 16 + b.toNat / 16) ::
    encAt enc64Tbl (b.toNat % 16 * 4 + c.toNat / 64) :: encAt enc64Tbl (c.toNat % 64) :: enc64Loop t
  | [a, b] =>
    [encAt enc64Tbl (a.toNat / 4), encAt enc64Tbl (a.toNat % 4 * 16 + b.toNat / 16),
     encAt enc64Tbl (b.toNat % 16 * 4), padChar]
  | [a] =>
    [encAt enc64Tbl (a.toNat / 4), encAt enc64Tbl (a.toNat % 4 * 16), padChar, padChar]
  | [] => []

/-- `knot_base64_encode`. Source: src/contrib/base64.c:84-130. -/
def encode64 (inp : Bytes) (outLen : Nat) : Res Bytes :=
  if inp.length > 2147483647 / 4 * 3 ∨ outLen < (inp.length + 2) / 3 * 4 then .err .erange
  else .ok (enc64Loop inp)

/-- Bytes stored for one group of four characters, by padding length.
Source: src/contrib/base64.c:215-238. -/
def out64 (pad c1 c2 c3 c4 : Nat) : Bytes :=
  let b0 := UInt8.ofNat (c1 * 4 + c2 / 16)
  let b1 := UInt8.ofNat (c2 * 16 + c3 / 4)
  let b2 := UInt8.ofNat (c3 * 64 + c4)
  match pad with
  | 0 => [b0, b1, b2]
  | 1 => [b0, b1]
  | 2 => [b0]
  | _ => []

/-- The decoding loop of `knot_base64_decode`; `pad` is the variable `pad_len`, which the
source does not reset between groups. Source: src/contrib/base64.c:184-241. -/
def dec64Loop (pad : Nat) : Bytes → Res Bytes
  | [] => .ok []
  | i0 :: i1 :: i2 :: i3 :: t =>
    let c1 := decAt dec64Tbl i0
    let c2 := decAt dec64Tbl i1
    let c3 := decAt dec64Tbl i2
    let c4 := decAt dec64Tbl i3
    if c4 ≥ 64 ∧ ¬ (c4 = 64 ∧ pad = 0) then .err .base64Char
    else
      let pad := if c4 ≥ 64 then 1 else pad
      if c3 ≥ 64 ∧ ¬ (c3 = 64 ∧ pad = 1) then .err .base64Char
      else
        let pad := if c3 ≥ 64 then 2 else pad
        if c2 ≥ 64 ∨ c1 ≥ 64 then .err .base64Char
        else do
          let r ← dec64Loop pad t
          .ok (out64 pad c1 c2 c3 c4 ++ r)
  | _ => .ub

/-- `knot_base64_decode`. Source: src/contrib/base64.c:163-244. -/
def decode64 (inp : Bytes) (outLen : Nat) : Res Bytes :=
  if inp.length > 2147483647 ∨ outLen < (inp.length + 3) / 4 * 3 then .err .erange
  else if inp.length % 4 ≠ 0 then .err .base64Size
  else dec64Loop 0 inp

/-- The encoding loop and the final `switch` of `knot_base64url_encode` (no padding is
counted into the result, although NUL bytes are stored behind it).
Source: src/contrib/base64url.c:98-128. -/
def enc64uLoop : Bytes → Bytes
  | a :: b :: c :: t =>
    encAt enc64uTbl (a.toNat / 4) :: encAt enc64uTbl (a.toNat % 4 * 16 + b.toNat / 16) ::
    encAt enc64uTbl (b.toNat % 16 * 4 + c.toNat / 64) :: encAt enc64uTbl (c.toNat % 64) ::
    enc64uLoop t
  | [a, b] =>
    [encAt enc64uTbl (a.toNat / 4), encAt enc64uTbl (a.toNat % 4 * 16 + b.toNat / 16),
     encAt enc64uTbl (b.toNat % 16 * 4)]
  | [a] => [encAt enc64uTbl (a.toNat / 4), encAt enc64uTbl (a.toNat % 4 * 16)]
  | [] => []

/-- `knot_base64url_encode`. Source: src/contrib/base64url.c:85-130. -/
def encode64u (inp : Bytes) (outLen : Nat) : Res Bytes :=
  if inp.length > 2147483647 / 4 * 3 ∨ outLen < (inp.length + 2) / 3 * 4 then .err .erange
  else .ok (enc64uLoop inp)

/-- `tolower` in the C locale. -/
def tolower (c : UInt8) : UInt8 := if 65 ≤ c.toNat ∧ c.toNat ≤ 90 then c + 32 else c

/-- The loop cutting up to two "%3d" off the end, on the reversed input `r` and the remaining
pattern. Returns how many were cut. Source: src/contrib/base64url.c:173-182. -/
def cut3d : Bytes → Bytes → Nat
  | x :: r, p :: ps => if tolower x = p then (if p = 37 then 1 else 0) + cut3d r ps else 0
  | _, _ => 0

/-- The decoding loop of `knot_base64url_decode`. `mem` is the memory from `in` on and `n` the
number of bytes up to `stop`; the second byte of a group is read without a bound check.
Returns the output and the final `pad_len`. Source: src/contrib/base64url.c:194-252. -/
def dec64uLoop (mem : Bytes) (n : Nat) : Res (Bytes × Nat) :=
  if h : n = 0 then .ok ([], 0)
  else do
    let i0 ← Res.rd mem 0
    let i1 ← Res.rd mem 1
    let c1 := decAt dec64uTbl i0
    let c2 := decAt dec64uTbl i1
    let c3 ← if 2 < n then (do let i2 ← Res.rd mem 2; .ok (decAt dec64uTbl i2)) else .ok 64
    let c4 ← if 3 < n then (do let i3 ← Res.rd mem 3; .ok (decAt dec64uTbl i3)) else .ok 64
    if c1 ≥ 64 ∨ c2 ≥ 64 then .err .base64Char
    else if c3 ≥ 64 ∧ c3 ≠ 64 then .err .base64Char
    else if ¬ c3 ≥ 64 ∧ c4 ≥ 64 ∧ c4 ≠ 64 then .err .base64Char
    else
      let pad := if c3 ≥ 64 then 2 else if c4 ≥ 64 then 1 else 0
      if pad > 0 ∧ 4 ≤ n then .err .base64Char
      else if pad > 0 then .ok (out64 pad c1 c2 c3 c4, pad)
      else do
        let (r, p) ← dec64uLoop (mem.drop 4) (n - 4)
        .ok (out64 pad c1 c2 c3 c4 ++ r, p)
termination_by n
decreasing_by omega

/-- `knot_base64url_decode` on the first `inLen` bytes of `mem`.
Source: src/contrib/base64url.c:163-259. -/
def decode64u (mem : Bytes) (inLen outLen : Nat) : Res Bytes :=
  let pad3d := cut3d (mem.take inLen).reverse [100, 51, 37, 100, 51, 37]
  let n := inLen - 3 * pad3d
  if n > 2147483647 ∨ outLen < (n + 3) / 4 * 3 then .err .erange
  else do
    let (r, pad) ← dec64uLoop mem n
    if pad3d > pad then .err .base64Char else .ok r

/-- The encoding loop and the final `switch` of `knot_base32hex_encode`.
Source: src/contrib/base32hex.c:95-160. -/
def enc32Loop : Bytes → Bytes
  | a :: b :: c :: d :: e :: t =>
    encAt enc32Tbl (a.toNat / 8) :: encAt enc32Tbl (a.toNat % 8 * 4 + b.toNat / 64) ::
    encAt enc32Tbl (b.toNat % 64 / 2) :: encAt enc32Tbl (b.toNat % 2 * 16 + c.toNat / 16) ::
    encAt enc32Tbl (c.toNat % 16 * 2 + d.toNat / 128) :: encAt enc32Tbl (d.toNat % 128 / 4) ::
    encAt enc32Tbl (d.toNat % 4 * 8 + e.toNat / 32) :: encAt enc32Tbl (e.toNat % 32) :: enc32Loop t
  | [a, b, c, d] =>
    [encAt enc32Tbl (a.toNat / 8), encAt enc32Tbl (a.toNat % 8 * 4 + b.toNat / 64),
     encAt enc32Tbl (b.toNat % 64 / 2), encAt enc32Tbl (b.toNat % 2 * 16 + c.toNat / 16),
     encAt enc32Tbl (c.toNat % 16 * 2 + d.toNat / 128), encAt enc32Tbl (d.toNat % 128 / 4),
     encAt enc32Tbl (d.toNat % 4 * 8), padChar]
  | [a, b, c] =>
    [encAt enc32Tbl (a.toNat / 8), encAt enc32Tbl (a.toNat % 8 * 4 + b.toNat / 64),
     encAt enc32Tbl (b.toNat % 64 / 2), encAt enc32Tbl (b.toNat % 2 * 16 + c.toNat / 16),
     encAt enc32Tbl (c.toNat % 16 * 2), padChar, padChar, padChar]
  | [a, b] =>
    [encAt enc32Tbl (a.toNat / 8), encAt enc32Tbl (a.toNat % 8 * 4 + b.toNat / 64),
     encAt enc32Tbl (b.toNat % 64 / 2), encAt enc32Tbl (b.toNat % 2 * 16),
     padChar, padChar, padChar, padChar]
  | [a] =>
    [encAt enc32Tbl (a.toNat / 8), encAt enc32Tbl (a.toNat % 8 * 4),
     padChar, padChar, padChar, padChar, padChar, padChar]
  | [] => []

/-- `knot_base32hex_encode`. Source: src/contrib/base32hex.c:83-163. -/
def encode32 (inp : Bytes) (outLen : Nat) : Res Bytes :=
  if inp.length > 2147483647 / 8 * 5 ∨ outLen < (inp.length + 4) / 5 * 8 then .err .erange
  else .ok (enc32Loop inp)

/-- Bytes stored for one group of eight characters, by padding length.
Source: src/contrib/base32hex.c:284-319. -/
def out32 (pad c1 c2 c3 c4 c5 c6 c7 c8 : Nat) : Bytes :=
  let b0 := UInt8.ofNat (c1 * 8 + c2 / 4)
  let b1 := UInt8.ofNat (c2 * 64 + c3 * 2 + c4 / 16)
  let b2 := UInt8.ofNat (c4 * 16 + c5 / 2)
  let b3 := UInt8.ofNat (c5 * 128 + c6 * 4 + c7 / 8)
  let b4 := UInt8.ofNat (c7 * 32 + c8)
  match pad with
  | 0 => [b0, b1, b2, b3, b4]
  | 1 => [b0, b1, b2, b3]
  | 3 => [b0, b1, b2]
  | 4 => [b0, b1]
  | 6 => [b0]
  | _ => []

/-- The decoding loop of `knot_base32hex_decode`; `pad_len` is not reset between groups.
Source: src/contrib/base32hex.c:218-322. -/
def dec32Loop (pad : Nat) : Bytes → Res Bytes
  | [] => .ok []
  | i0 :: i1 :: i2 :: i3 :: i4 :: i5 :: i6 :: i7 :: t =>
    let c1 := decAt dec32Tbl i0
    let c2 := decAt dec32Tbl i1
    let c3 := decAt dec32Tbl i2
    let c4 := decAt dec32Tbl i3
    let c5 := decAt dec32Tbl i4
    let c6 := decAt dec32Tbl i5
    let c7 := decAt dec32Tbl i6
    let c8 := decAt dec32Tbl i7
    if c8 ≥ 32 ∧ ¬ (c8 = 32 ∧ pad = 0) then .err .base32hexChar
    else
      let pad := if c8 ≥ 32 then 1 else pad
      if c7 ≥ 32 ∧ ¬ (c7 = 32 ∧ c6 = 32 ∧ pad = 1) then .err .base32hexChar
      else
        let pad := if c7 ≥ 32 then 3 else pad
        if c6 ≥ 32 ∧ ¬ (c6 = 32 ∧ pad = 3) then .err .base32hexChar
        else if c5 ≥ 32 ∧ ¬ (c5 = 32 ∧ pad = 3) then .err .base32hexChar
        else
          let pad := if c5 ≥ 32 then 4 else pad
          if c4 ≥ 32 ∧ ¬ (c4 = 32 ∧ c3 = 32 ∧ pad = 4) then .err .base32hexChar
          else
            let pad := if c4 ≥ 32 then 6 else pad
            if c3 ≥ 32 ∧ ¬ (c3 = 32 ∧ pad = 6) then .err .base32hexChar
            else if c2 ≥ 32 ∨ c1 ≥ 32 then .err .base32hexChar
            else do
              let r ← dec32Loop pad t
              .ok (out32 pad c1 c2 c3 c4 c5 c6 c7 c8 ++ r)
  | _ => .ub

/-- `knot_base32hex_decode`. Source: src/contrib/base32hex.c:196-325. -/
def decode32 (inp : Bytes) (outLen : Nat) : Res Bytes :=
  if inp.length > 2147483647 ∨ outLen < (inp.length + 7) / 8 * 5 then .err .erange
  else if inp.length % 8 ≠ 0 then .err .base32hexSize
  else dec32Loop 0 inp

end Knot.Baseenc
