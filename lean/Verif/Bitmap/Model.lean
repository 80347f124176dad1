import Verif.Prelude
/-!
# Model of the NSEC type bitmap (src/libdnssec/nsec/bitmap.c, nsec.c)

The fixed arrays of the C structures are total functions of the index; all indices computed by the
code are `type / 256 < 256` and `type % 256 / 8 < 32`.
-/
namespace Knot.Bitmap

abbrev Bytes := List UInt8

/-- `window_t`. Source: src/libdnssec/nsec/bitmap.c:31-34. -/
structure Window where
  used : Nat
  data : Nat → UInt8

/-- `struct dnssec_nsec_bitmap`. Source: src/libdnssec/nsec/bitmap.c:36-39. -/
structure Bm where
  used : Nat
  windows : Nat → Window

/-- `dnssec_nsec_bitmap_new`, `dnssec_nsec_bitmap_clear`: everything is zero.
Source: src/libdnssec/nsec/bitmap.c:46-65. -/
def new : Bm := ⟨0, fun _ => ⟨0, fun _ => 0⟩⟩

/-- `dnssec_nsec_bitmap_add`. Source: src/libdnssec/nsec/bitmap.c:80-99. -/
def add (bm : Bm) (type : Nat) : Bm :=
  let win := type / 256
  let bit := type % 256
  let used := if bm.used ≤ win then win + 1 else bm.used
  let winByte := bit / 8
  let winBit := bit % 8
  let w := bm.windows win
  let w' : Window :=
    ⟨if w.used ≤ winByte then winByte + 1 else w.used,
     fun i => if i = winByte then w.data i ||| ((0x80 : UInt8) >>> UInt8.ofNat winBit) else w.data i⟩
  ⟨used, fun i => if i = win then w' else bm.windows i⟩

/-- `dnssec_nsec_bitmap_size`. Source: src/libdnssec/nsec/bitmap.c:104-119. -/
def size (bm : Bm) : Nat :=
  ((List.range bm.used).map fun i =>
    if (bm.windows i).used = 0 then 0 else 2 + (bm.windows i).used).sum

/-- `dnssec_nsec_bitmap_write`. Source: src/libdnssec/nsec/bitmap.c:125-142. -/
def write (bm : Bm) : Bytes :=
  (List.range bm.used).flatMap fun win =>
    let w := bm.windows win
    if w.used = 0 then []
    else UInt8.ofNat win :: UInt8.ofNat w.used :: (List.range w.used).map w.data

/-- The loop of `dnssec_nsec_bitmap_contains` from position `pos`.
Source: src/libdnssec/nsec/nsec.c:88-115. -/
def containsLoop (bitmap : Bytes) (size : Nat) (hi lo : Nat) (pos : Nat) : Res Bool :=
  if pos + 3 ≤ size then
    match Res.rd bitmap pos, Res.rd bitmap (pos + 1) with
    | .ok idx, .ok len =>
      if len.toNat = 0 ∨ pos + 2 + len.toNat > size then .ok false
      else if idx.toNat = hi then
        if lo / 8 < len.toNat then do
          let b ← Res.rd bitmap (pos + 2 + lo / 8)
          .ok (b &&& ((1 : UInt8) <<< UInt8.ofNat (7 - lo % 8)) != 0)
        else .ok false
      else containsLoop bitmap size hi lo (pos + 2 + len.toNat)
    | _, _ => .ub
  else .ok false
termination_by size - pos

/-- `dnssec_nsec_bitmap_contains`. Source: src/libdnssec/nsec/nsec.c:81-116. -/
def contains (bitmap : Bytes) (size type : Nat) : Res Bool :=
  if size = 0 then .ok false else containsLoop bitmap size (type / 256) (type % 256) 0

end Knot.Bitmap
