import Verif.Prelude
/-!
# RFC 4648 encodings as operations on bit strings
-/
namespace Knot.Baseenc

/-- The `w` low bits of `n`, most significant first. -/
def toBits : Nat → Nat → List Nat
  | 0, _ => []
  | w + 1, n => n / 2 ^ w % 2 :: toBits w n

/-- The number written by bits, most significant first. -/
def ofBits (bits : List Nat) : Nat := bits.foldl (fun a b => 2 * a + b) 0

/-- The first `n` groups of `k` bits, as numbers; missing bits are zero. -/
def groups (k : Nat) : Nat → List Nat → List Nat
  | 0, _ => []
  | n + 1, bits => ofBits ((bits ++ List.replicate k 0).take k) :: groups k n (bits.drop k)

/-- All bits of a byte string. -/
def bitsOf (bs : List UInt8) : List Nat := bs.flatMap (fun b => toBits 8 b.toNat)

/-- An alphabet: the character for each `k`-bit value (RFC 4648, tables 1, 2 and 4). -/
def alpha64 (i : Nat) : UInt8 :=
  if i < 26 then UInt8.ofNat (65 + i) else if i < 52 then UInt8.ofNat (97 + (i - 26))
  else if i < 62 then UInt8.ofNat (48 + (i - 52)) else if i = 62 then 43 else 47
def alpha64url (i : Nat) : UInt8 :=
  if i < 26 then UInt8.ofNat (65 + i) else if i < 52 then UInt8.ofNat (97 + (i - 26))
  else if i < 62 then UInt8.ofNat (48 + (i - 52)) else if i = 62 then 45 else 95
def alpha32hex (i : Nat) : UInt8 :=
  if i < 10 then UInt8.ofNat (48 + i) else UInt8.ofNat (97 + (i - 10))

/-- The text of a byte string without padding: its bits in groups of `k`. -/
def encodeBody (k : Nat) (alpha : Nat → UInt8) (bs : List UInt8) : List UInt8 :=
  (groups k ((8 * bs.length + k - 1) / k) (bitsOf bs)).map alpha

/-- RFC 4648 encoding with `=` up to a multiple of `q` characters. -/
def encodeSpec (k q : Nat) (alpha : Nat → UInt8) (bs : List UInt8) : List UInt8 :=
  let body := encodeBody k alpha bs
  body ++ List.replicate ((q - body.length % q) % q) 61

/-- The value of a text character, if it is in the alphabet. -/
def value (k : Nat) (alpha : Nat → UInt8) (c : UInt8) : Option Nat :=
  (List.range (2 ^ k)).find? (fun i => alpha i == c)

/-- The bytes written by the values of text characters: all complete groups of 8 bits. -/
def bytesOf (k : Nat) (vals : List Nat) : List UInt8 :=
  (groups 8 (k * vals.length / 8) (vals.flatMap (toBits k))).map UInt8.ofNat

/-- RFC 4648 decoding: the text is a multiple of `q` characters long; it consists of characters
with a value, followed by fewer than `q` padding characters; the number of characters is one that
an encoder can produce (the bits left over are fewer than one character's).
`val` gives the values of characters. -/
def decodeSpec (k q : Nat) (val : UInt8 → Option Nat) (t : List UInt8) : Option (List UInt8) :=
  let body := t.takeWhile (· ≠ 61)
  let tail := t.dropWhile (· ≠ 61)
  if t.length % q = 0 ∧ tail.length < q ∧ (∀ c ∈ tail, c = 61) ∧ k * body.length % 8 < k then
    (body.mapM val).map (bytesOf k)
  else none

end Knot.Baseenc
