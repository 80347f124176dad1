import Verif.Prelude
/-! # Zone serials: model of src/knot/zone/serial.c

Serials are natural numbers below 2^32. -/
namespace Knot.Serial
open Knot

/-- serial_cmp_result_t, src/knot/zone/serial.h:31-38 -/
inductive Cmp where
  | incomparable | lower | greater | equal
  deriving DecidableEq, Repr

/-- diffbrief2result[], src/knot/zone/serial.c:22-27; an index over 3 fails the assertion. -/
def brief2result : Nat → Res Cmp
  | 0 => .ok .equal
  | 1 => .ok .greater
  | 2 => .ok .incomparable
  | 3 => .ok .lower
  | _ => .ub

/-- serial_compare(), src/knot/zone/serial.c:29-35. Shifts and masks are written as
division and remainder by powers of two. -/
def serialCompare (s1 s2 : Nat) : Res Cmp :=
  let diff := (s1 + 4294967296 - s2) % 4294967296
  brief2result (diff / 2147483648 * 2 + (if diff % 2147483648 ≠ 0 then 1 else 0))

/-- serial_next_generic(), src/knot/zone/serial.c:50-86. `minimum` is the value selected
by the policy (`current` itself, the clock, or the date). -/
def next (current minimum mustIncrement rem mod : Nat) : Res Nat := do
  let c ← serialCompare minimum current
  let result := if c ≠ .greater then (current + mustIncrement) % 4294967296 else minimum
  if mod > 1 then
    if rem ≥ mod then .ub
    else
      let incr := ((rem + mod) - (result % mod)) % mod
      if incr ≠ 0 ∧ result % mod = rem then .ub
      else
        let result' := (result + incr) % 4294967296
        if result' % mod = rem then .ok result' else .ub
  else .ok result

/-- kserial_cmp(), src/knot/zone/serial.c:108-111; `none` is an invalid serial. -/
def kcompare (a b : Option Nat) : Res Cmp :=
  match a, b with
  | some a, some b => serialCompare a b
  | _, _ => .ok .incomparable

end Knot.Serial
