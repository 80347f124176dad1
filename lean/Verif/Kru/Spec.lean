import Verif.Kru.Model
/-!
# Specification: rate limiting

Prices have 32 bits and counters the upper sixteen of them: one unit of a counter is 65536 of a
price. A price need not be a multiple of that, and is then rounded at random.
-/
namespace Knot.Kru

/-- A price in units of the counters, rounded down. -/
def floor16 (price : Nat) : Nat := price / 65536

/-- A price in units of the counters, rounded up. -/
def ceil16 (price : Nat) : Nat := (price + 65535) / 65536

/-- A price in units of the counters, rounded at random: up with the probability that makes the mean
exact. -/
def rounded (price rnd : Nat) : Nat := floor16 price + (if rnd < price % 65536 then 1 else 0)

/-- The largest value of a counter. -/
def full : Nat := 65535

/-- One call of the interface of the table, kru.h:36-77. A question is a key (the hashed octets)
with its price, or a prefix of a key with its price. -/
inductive Call where
  /-- limited_multi_or; limited with one question -/
  | multi (now : Nat) (qs : List (List UInt8 × Nat))
  /-- limited_multi_or_nobreak -/
  | nobreak (now : Nat) (qs : List (List UInt8 × Nat))
  /-- limited_multi_prefix_or -/
  | prefixes (now : Nat) (ns : UInt8) (key : List UInt8) (ps : List (Nat × Nat))
  /-- load_multi_prefix_max with prices -/
  | add (now : Nat) (ns : UInt8) (key : List UInt8) (ps : List (Nat × Nat))
  /-- load_multi_prefix_max without prices -/
  | peek (now : Nat) (ns : UInt8) (key : List UInt8) (ps : List Nat)

/-- The time of a call. -/
def Call.now : Call → Nat
  | .multi n _ | .nobreak n _ | .prefixes n _ _ _ | .add n _ _ _ | .peek n _ _ _ => n

/-- The keys a call asks about and what it pays for each of them. -/
def Call.asked : Call → List (List UInt8 × Nat)
  | .multi _ qs | .nobreak _ qs => qs
  | .prefixes _ ns key ps | .add _ ns key ps => ps.map fun p => (prefixInput ns key p.1, p.2)
  | .peek _ ns key ps => ps.map fun p => (prefixInput ns key p, 0)

/-- Prices fit their type, times theirs, and no prefix has length zero. -/
def Call.Valid (c : Call) : Prop :=
  c.now < 2 ^ 32 ∧ (∀ q ∈ c.asked, q.2 < 2 ^ 32) ∧
  match c with
  | .prefixes _ _ _ ps => ∀ p ∈ ps, p.1 ≠ 0
  | _ => True

/-- The call made: whether it is limited, the table afterwards, and the random numbers left. -/
def Call.run (k : Kru) (g : Rng) : Call → Bool × Kru × Rng
  | .multi now qs => multiOr k now qs g
  | .nobreak now qs => multiOrNobreak k now qs g
  | .prefixes now ns key ps =>
    let r := multiPrefixOr k now ns key ps g
    (r.1 != 0, r.2.2.1, r.2.2.2)
  | .add now ns key ps =>
    let r := loadMultiPrefixMax k now ns key ps true g
    (false, r.2.1, r.2.2)
  | .peek now ns key ps =>
    let r := loadMultiPrefixMax k now ns key (ps.map fun p => (p, 0)) false g
    (false, r.2.1, r.2.2)

/-- Calls made one after another. -/
def runAll (k : Kru) (g : Rng) : List Call → Kru × Rng
  | [] => (k, g)
  | c :: cs => runAll (c.run k g).2.1 (c.run k g).2.2 cs

/-- Memory as the code allocates it: fifteen identifiers and counters in each line, of 16 bits,
a time of 32 bits, factors of 32 bits. -/
def Valid (k : Kru) : Prop :=
  (∀ li row, (k.tab.line li row).ids.length = 15 ∧ (k.tab.line li row).loads.length = 15 ∧
    (k.tab.line li row).time < 2 ^ 32 ∧ ∀ x ∈ (k.tab.line li row).loads, x ≤ full) ∧
  ∀ n, k.decay.mult n < 2 ^ 32

/-- Where a key is looked for. -/
def spot (k : Kru) (key : List UInt8) : Spot := spotOf k.bits (k.hash key)

/-- The key has the counter `p` of its lines. -/
def Holds (k : Kru) (key : List UInt8) (p : Bool × Nat) : Prop :=
  locate k.tab (spot k key) = some p

/-- The counter `p` of the lines of a key. -/
def counter (k : Kru) (key : List UInt8) (p : Bool × Nat) : Nat :=
  loadAt k.tab (spot k key) p

/-- When the line of that counter was aged for the last time. -/
def clock (k : Kru) (key : List UInt8) (p : Bool × Nat) : Nat :=
  (k.tab.line p.1 ((spot k key).row p.1)).time

/-- An amount aged from one time to another, rounded down. -/
def aged (d : Decay) (before after amount : Nat) : Nat :=
  if before = after then amount
  else if ticks after before > d.maxTicks then 0
  else amount * d.mult (ticks after before) / 2 ^ 32

/-- What a call pays for a key, each price rounded down. -/
def paid (key : List UInt8) (c : Call) : Nat :=
  ((c.asked.filter fun q => decide (q.1 = key)).map fun q => floor16 q.2).sum

/-- What a call may cost in all, each price rounded up. -/
def cost (c : Call) : Nat := (c.asked.map fun q => ceil16 q.2).sum

/-- The aged sum of what calls paid for a key: `s` at the beginning. Calls that are limited pay
nothing; no sum exceeds a full counter. -/
def owed (key : List UInt8) (p : Bool × Nat) : Kru → Rng → List Call → Nat → Nat
  | _, _, [], s => s
  | k, g, c :: cs, s =>
    let a := aged k.decay (clock k key p) (clock (c.run k g).2.1 key p) s
    owed key p (c.run k g).2.1 (c.run k g).2.2 cs
      (if (c.run k g).1 then a else min full (a + paid key c))

/-- The key holds the same counter before each of the calls. -/
def Stays (key : List UInt8) (p : Bool × Nat) : Kru → Rng → List Call → Prop
  | _, _, [] => True
  | k, g, c :: cs => Holds k key p ∧ Stays key p (c.run k g).2.1 (c.run k g).2.2 cs

/-- Whether the calls were limited, in their order. -/
def answers (k : Kru) (g : Rng) : List Call → List Bool
  | [] => []
  | c :: cs => (c.run k g).1 :: answers (c.run k g).2.1 (c.run k g).2.2 cs

/-- What is paid for a key by the calls that are not limited. -/
def admitted (key : List UInt8) : Kru → Rng → List Call → Nat
  | _, _, [] => 0
  | k, g, c :: cs => (if (c.run k g).1 then 0 else paid key c) +
      admitted key (c.run k g).2.1 (c.run k g).2.2 cs

/-- The clock of a line after a call at the time `now`: it is not set back by less than 1024 ticks. -/
def ticked (before now : Nat) : Nat := if ticks now before > 2 ^ 32 - 1024 then before else now

/-- Bit `j` of a key, counted from the most significant bit of the first octet. -/
def bitOf (key : List UInt8) (j : Nat) : Bool := ((key.getD (j / 8) 0).toNat).testBit (7 - j % 8)

/-- The octets of an address. -/
def Addr.octets : Addr → List UInt8
  | .v4 a | .v6 a => a

/-- How many octets an address of its family has. -/
def Addr.size : Addr → Nat
  | .v4 _ => 4
  | .v6 _ => 16

/-- The sum of a function over the numbers below `n`. -/
def sumBelow (f : Nat → Nat) : Nat → Nat
  | 0 => 0
  | n + 1 => sumBelow f n + f n

end Knot.Kru
