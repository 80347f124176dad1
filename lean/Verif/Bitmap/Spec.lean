/-!
# Specification of the type bitmap (RFC 4034, section 4.1.2)
-/
namespace Knot.Bitmap

/-- The octet of eight membership bits, most significant first. -/
def octet (a b c d e f g h : Bool) : UInt8 :=
  UInt8.ofNat (a.toNat * 128 + b.toNat * 64 + c.toNat * 32 + d.toNat * 16 + e.toNat * 8 + f.toNat * 4 +
    g.toNat * 2 + h.toNat)

/-- Octet `i` of window block `w` of the set `S` of types. -/
def octetOf (S : Nat → Bool) (w i : Nat) : UInt8 :=
  octet (S (256 * w + 8 * i)) (S (256 * w + 8 * i + 1)) (S (256 * w + 8 * i + 2)) (S (256 * w + 8 * i + 3))
    (S (256 * w + 8 * i + 4)) (S (256 * w + 8 * i + 5)) (S (256 * w + 8 * i + 6)) (S (256 * w + 8 * i + 7))

/-- Trailing zero octets are omitted. -/
def strip (l : List UInt8) : List UInt8 := (l.reverse.dropWhile (· == 0)).reverse

/-- One window block: window number, length, octets. Blocks with no types are not included. -/
def block (S : Nat → Bool) (w : Nat) : List UInt8 :=
  let data := strip ((List.range 32).map (octetOf S w))
  if data = [] then [] else UInt8.ofNat w :: UInt8.ofNat data.length :: data

/-- The bitmap of a set of 16-bit types: the blocks in increasing order. -/
def encode (S : Nat → Bool) : List UInt8 := (List.range 256).flatMap (block S)

end Knot.Bitmap
