import Verif.Prelude
/-!
# Model of rate limiting (src/knot/modules/rrl/kru.inc.c, kru.h, functions.c)

The generic variant of the table is modelled: KRU_GENERIC, src/knot/modules/rrl/kru-generic.c.
The hash is a parameter, and so are the random numbers drawn. The speed of ageing
is computed by the code with floating point numbers; here it is a parameter, any function from
the number of ticks to a 32-bit factor.

One call runs alone: the loops around compare-and-exchange are entered once.
-/
namespace Knot.Kru

/-- KRU_LIMIT, src/knot/modules/rrl/kru.h:31; kru_price_t has 32 bits, kru.h:26. -/
def kruLimit : Nat := (2 ^ 32 - 1) - 2 ^ 16 + 1

/-- The state of the generator after the next number, rand_bits(),
src/knot/modules/rrl/kru.inc.c:117-120. -/
def generatorNext (s : Nat) : Nat := (11737314301796036329 * s + 3107264277052274849) % 2 ^ 64

/-- The random numbers a thread is going to draw: any sequence. -/
abbrev Rng := Nat → Nat

/-- The sequence that rand_bits(16) draws in the state `s`, src/knot/modules/rrl/kru.inc.c:115-123;
a thread begins with the state 3723796604792068981. -/
def generator (s : Nat) : Rng
  | 0 => generatorNext s / 2 ^ (64 - 16)
  | n + 1 => generator (generatorNext s) n

/-- The next random number of 16 bits. -/
def rand16 (g : Rng) : Nat := g 0 % 2 ^ 16

/-- The numbers after it. -/
def randNext (g : Rng) : Rng := fun n => g (n + 1)

/-- `struct decay_config`, src/knot/modules/rrl/kru.inc.c:86-94. `mult ticks` stands both for
the cached and for the computed factor (lines 131-133 and 160-164). -/
structure Decay where
  maxTicks : Nat
  mult : Nat → Nat

/-- `struct load_cl`, src/knot/modules/rrl/kru.inc.c:76-82: fifteen counters and the last time
they were aged. -/
structure Line where
  time : Nat
  ids : List Nat
  loads : List Nat
  deriving DecidableEq, Repr

/-- One counter aged, the body of the loop in update_time(),
src/knot/modules/rrl/kru.inc.c:172-174. -/
def decayLoad (mult rnd load : Nat) : Nat :=
  let m := (2 ^ 16 * load * mult) % 2 ^ 64
  let m := (m / 2 ^ 32 + m / 2 ^ 31 % 2) % 2 ^ 64
  (m / 2 ^ 16 + (if rnd < m % 2 ^ 16 then 1 else 0)) % 2 ^ 16

/-- The loop over the counters in update_time(), src/knot/modules/rrl/kru.inc.c:166-176; `g` are
the random numbers. -/
def decayLoads (mult : Nat) : List Nat → Rng → List Nat × Rng
  | [], g => ([], g)
  | load :: rest, g =>
    let (rest, g') := decayLoads mult rest (randNext g)
    (decayLoad mult (rand16 g) load :: rest, g')

/-- `time_now - time_last` in 32 bits, src/knot/modules/rrl/kru.inc.c:143. -/
def ticks (now last : Nat) : Nat := (2 ^ 32 + now - last) % 2 ^ 32

/-- update_time(), src/knot/modules/rrl/kru.inc.c:137-177. -/
def updateTime (d : Decay) (now : Nat) (l : Line) (g : Rng) : Line × Rng :=
  if ticks now l.time = 0 then (l, g)
  else if ticks now l.time > 2 ^ 32 - 1024 then (l, g)
  else if ticks now l.time > d.maxTicks then
    ({ l with time := now, loads := l.loads.map fun _ => 0 }, g)
  else
    let (loads, g) := decayLoads (d.mult (ticks now l.time)) l.loads g
    ({ l with time := now, loads := loads }, g)

/-- The counters: `line li row` is `load_cls[row][li]`, src/knot/modules/rrl/kru.inc.c:110-112. -/
structure Tab where
  line : Bool → Nat → Line

/-- One line replaced. -/
def Tab.put (t : Tab) (li : Bool) (row : Nat) (l : Line) : Tab :=
  ⟨fun li' row' => if li' = li ∧ row' = row then l else t.line li' row'⟩

/-- The zeroed memory of a new table, src/knot/modules/rrl/functions.c:118. -/
def emptyTab : Tab := ⟨fun _ _ => ⟨0, List.replicate 15 0, List.replicate 15 0⟩⟩

/-- capacity2loads(), src/knot/modules/rrl/kru.inc.c:180-190. -/
def capacity2loads (capacityLog : Int) : Nat :=
  if capacityLog - 4 > 0 then (capacityLog - 4).toNat else 1

/-- kru_get_size(), src/knot/modules/rrl/kru.inc.c:192-203; the offset of the lines is `header`. -/
def getSize (header : Nat) (capacityLog : Int) : Res Nat :=
  if 64 < 2 * capacity2loads capacityLog + 16 then .ub
  else .ok (header + 64 * 2 * 2 ^ capacity2loads capacityLog)

/-- `struct kru`, src/knot/modules/rrl/kru.inc.c:96-113; the hash includes its secret. -/
structure Kru where
  hash : List UInt8 → Nat
  decay : Decay
  bits : Nat
  tab : Tab

/-- Where a key is looked for: the row in each of both tables and sixteen bits of the hash. -/
structure Spot where
  r0 : Nat
  r1 : Nat
  id : Nat
  deriving DecidableEq, Repr

/-- The row in one of both tables. -/
def Spot.row (s : Spot) (li : Bool) : Nat := if li then s.r1 else s.r0

/-- The lines and the identifier from the hash, src/knot/modules/rrl/kru.inc.c:261-273 and
335-347. The hash has 64 bits. -/
def spotOf (bits hash : Nat) : Spot :=
  ⟨hash % 2 ^ bits, hash / 2 ^ bits % 2 ^ bits, hash / 2 ^ bits / 2 ^ bits % 2 ^ 16⟩

/-- `struct query_ctx`, src/knot/modules/rrl/kru.inc.c:229-238. `load` is the place of the counter
found: the table and the index in the line. -/
structure Ctx where
  spot : Spot
  now : Nat
  price : Nat
  price16 : Nat := 0
  limit16 : Nat := 0
  final : Nat := 0
  load : Option (Bool × Nat) := none

/-- kru_limited_prefetch(), src/knot/modules/rrl/kru.inc.c:241-274. `input` are the hashed octets,
in kru_limited_prefetch() the key itself. -/
def prefetch (k : Kru) (now : Nat) (input : List UInt8) (price : Nat) : Ctx :=
  { spot := spotOf k.bits (k.hash input), now := now, price := price }

/-- The octets hashed by kru_limited_prefetch_prefix(), src/knot/modules/rrl/kru.inc.c:286-297. -/
def prefixInput (ns : UInt8) (key : List UInt8) (prefix_ : Nat) : List UInt8 :=
  [ns, UInt8.ofNat prefix_] ++ key.take (prefix_ / 8) ++
    (if prefix_ % 8 ≠ 0 then
      [key.getD (prefix_ / 8) 0 &&& UInt8.ofNat (0xFF00 / 2 ^ (prefix_ % 8))]
    else [])

/-- The 16-bit price and limit, kru_limited_fetch(), src/knot/modules/rrl/kru.inc.c:358-370. -/
def setPrice (c : Ctx) (g : Rng) : Ctx × Rng :=
  if c.price % 2 ^ 16 > 0 then
    ({ c with
        price16 := (c.price / 2 ^ 16 + (if rand16 g < c.price % 2 ^ 16 then 1 else 0)) % 2 ^ 16
        limit16 := (2 ^ 16 - c.price / 2 ^ 16) - 1 }, randNext g)
  else ({ c with price16 := c.price / 2 ^ 16, limit16 := 2 ^ 16 - c.price / 2 ^ 16 }, g)

/-- Both lines of a key aged, src/knot/modules/rrl/kru.inc.c:372-374. -/
def ageBoth (k : Kru) (c : Ctx) (g : Rng) : Kru × Rng :=
  let (l0, g) := updateTime k.decay c.now (k.tab.line false c.spot.r0) g
  let t := k.tab.put false c.spot.r0 l0
  let (l1, g) := updateTime k.decay c.now (t.line true c.spot.r1) g
  ({ k with tab := t.put true c.spot.r1 l1 }, g)

/-- The search for the identifier, src/knot/modules/rrl/kru.inc.c:381-386. -/
def locate (t : Tab) (s : Spot) : Option (Bool × Nat) :=
  match (t.line false s.r0).ids.findIdx? (· = s.id) with
  | some i => some (false, i)
  | none =>
    match (t.line true s.r1).ids.findIdx? (· = s.id) with
    | some i => some (true, i)
    | none => none

/-- The counter at a place. -/
def loadAt (t : Tab) (s : Spot) (p : Bool × Nat) : Nat :=
  ((t.line p.1 (s.row p.1)).loads).getD p.2 0

/-- The end of kru_limited_fetch(), src/knot/modules/rrl/kru.inc.c:379, 404-410. -/
def look (k : Kru) (c : Ctx) : Bool × Ctx :=
  match locate k.tab c.spot with
  | none => (false, { c with load := none, final := 0 })
  | some p =>
    (decide (loadAt k.tab c.spot p ≥ c.limit16),
      { c with load := some p, final := loadAt k.tab c.spot p })

/-- kru_limited_fetch(), src/knot/modules/rrl/kru.inc.c:351-411. -/
def fetch (k : Kru) (c : Ctx) (g : Rng) : Bool × Ctx × Kru × Rng :=
  let (c, g) := setPrice c g
  let (k, g) := ageBoth k c g
  let (b, c) := look k c
  (b, c, k, g)

/-- The places of both lines in the order of the search, src/knot/modules/rrl/kru.inc.c:424-425. -/
def places : List (Bool × Nat) :=
  (List.range 15).map (fun i => (false, i)) ++ (List.range 15).map (fun i => (true, i))

/-- The search for the smallest counter, src/knot/modules/rrl/kru.inc.c:420-429. -/
def minPlace (t : Tab) (s : Spot) : Bool × Nat :=
  places.foldl (fun best p => if loadAt t s p < loadAt t s best then p else best) (false, 0)

/-- An identifier written, src/knot/modules/rrl/kru.inc.c:468. -/
def setId (t : Tab) (s : Spot) (p : Bool × Nat) : Tab :=
  let l := t.line p.1 (s.row p.1)
  t.put p.1 (s.row p.1) { l with ids := l.ids.set p.2 s.id }

/-- A counter written, src/knot/modules/rrl/kru.inc.c:491. -/
def setLoad (t : Tab) (s : Spot) (p : Bool × Nat) (v : Nat) : Tab :=
  let l := t.line p.1 (s.row p.1)
  t.put p.1 (s.row p.1) { l with loads := l.loads.set p.2 v }

/-- The counter raised, kru_limited_update(), src/knot/modules/rrl/kru.inc.c:475-494. -/
def charge (t : Tab) (c : Ctx) (p : Bool × Nat) (overflow : Bool) : Bool × Ctx × Tab :=
  let orig := loadAt t c.spot p
  if orig ≥ c.limit16 then
    if overflow then
      (false, { c with final := 2 ^ 16 - 1 }, setLoad t c.spot p (2 ^ 16 - 1))
    else (true, c, t)
  else
    let v := (orig + c.price16) % 2 ^ 16
    (false, { c with final := v }, setLoad t c.spot p v)

/-- kru_limited_update(), src/knot/modules/rrl/kru.inc.c:415-495. -/
def update (t : Tab) (c : Ctx) (overflow : Bool) : Bool × Ctx × Tab :=
  match c.load with
  | none =>
    let p := minPlace t c.spot
    charge (setId t c.spot p) c p overflow
  | some p => charge t c p overflow

/-- The second phase of a call with a break at the first key over the limit,
src/knot/modules/rrl/kru.inc.c:504-507 and 548-551: the index of that key, or the contexts. -/
def fetchUntil (k : Kru) : List Ctx → Rng → (Nat ⊕ List Ctx) × Kru × Rng
  | [], g => (.inr [], k, g)
  | c :: cs, g =>
    match fetch k c g with
    | (true, _, k, g) => (.inl 0, k, g)
    | (false, c, k, g) =>
      match fetchUntil k cs g with
      | (.inl i, k, g) => (.inl (i + 1), k, g)
      | (.inr cs, k, g) => (.inr (c :: cs), k, g)

/-- The second phase without a break, src/knot/modules/rrl/kru.inc.c:525-528 and 577-579: whether
some key is over the limit, and the contexts. -/
def fetchAll (k : Kru) : List Ctx → Rng → Bool × List Ctx × Kru × Rng
  | [], g => (false, [], k, g)
  | c :: cs, g =>
    let (b, c, k, g) := fetch k c g
    let (bs, cs, k, g) := fetchAll k cs g
    (b || bs, c :: cs, k, g)

/-- The third phase without a break, in the order of the list,
src/knot/modules/rrl/kru.inc.c:510-512, 531-534 and 582-584. -/
def updateAll (t : Tab) (overflow : Bool) : List Ctx → Bool × List Ctx × Tab
  | [] => (false, [], t)
  | c :: cs =>
    let (b, c, t) := update t c overflow
    let (bs, cs, t) := updateAll t overflow cs
    (b || bs, c :: cs, t)

/-- The third phase with a break at the first key over the limit, in the order of the list:
whether all keys passed with the contexts, or the number of keys charged before,
src/knot/modules/rrl/kru.inc.c:553-556. -/
def updateUntil (t : Tab) : List Ctx → (Nat ⊕ List Ctx) × Tab
  | [] => (.inr [], t)
  | c :: cs =>
    match update t c false with
    | (true, _, t) => (.inl 0, t)
    | (false, c, t) =>
      match updateUntil t cs with
      | (.inl i, t) => (.inl (i + 1), t)
      | (.inr cs, t) => (.inr (c :: cs), t)

/-- kru_limited_multi_or(), src/knot/modules/rrl/kru.inc.c:497-515. -/
def multiOr (k : Kru) (now : Nat) (qs : List (List UInt8 × Nat)) (g : Rng) : Bool × Kru × Rng :=
  match fetchUntil k (qs.map fun q => prefetch k now q.1 q.2) g with
  | (.inl _, k, g) => (true, k, g)
  | (.inr cs, k, g) =>
    let (b, _, t) := updateAll k.tab false cs
    (b, { k with tab := t }, g)

/-- kru_limited_multi_or_nobreak(), src/knot/modules/rrl/kru.inc.c:517-537. -/
def multiOrNobreak (k : Kru) (now : Nat) (qs : List (List UInt8 × Nat)) (g : Rng) :
    Bool × Kru × Rng :=
  match fetchAll k (qs.map fun q => prefetch k now q.1 q.2) g with
  | (true, _, k, g) => (true, k, g)
  | (false, cs, k, g) =>
    let (b, _, t) := updateAll k.tab false cs
    (b, { k with tab := t }, g)

/-- kru_limited(), src/knot/modules/rrl/kru.inc.c:603-606. -/
def limited (k : Kru) (now : Nat) (key : List UInt8) (price : Nat) (g : Rng) : Bool × Kru × Rng :=
  multiOr k now [(key, price)] g

/-- The contexts of a call about prefixes of one key, src/knot/modules/rrl/kru.inc.c:544-546 and
573-575. -/
def prefetchPrefixes (k : Kru) (now : Nat) (ns : UInt8) (key : List UInt8)
    (ps : List (Nat × Nat)) : List Ctx :=
  ps.map fun p => prefetch k now (prefixInput ns key p.1) p.2

/-- The largest final counter, src/knot/modules/rrl/kru.inc.c:558-563. -/
def maxFinal (cs : List Ctx) : Nat := cs.foldl (fun m c => max m c.final) 0

/-- kru_limited_multi_prefix_or(), src/knot/modules/rrl/kru.inc.c:539-566. A prefix is given with
its price. The results are the prefix and `*max_load_out`, if it is set. -/
def multiPrefixOr (k : Kru) (now : Nat) (ns : UInt8) (key : List UInt8) (ps : List (Nat × Nat))
    (g : Rng) : Nat × Option Nat × Kru × Rng :=
  match fetchUntil k (prefetchPrefixes k now ns key ps) g with
  | (.inl i, k, g) => ((ps.map (·.1)).getD i 0, none, k, g)
  | (.inr cs, k, g) =>
    match updateUntil k.tab cs.reverse with
    | (.inl i, t) => ((ps.reverse.map (·.1)).getD i 0, none, { k with tab := t }, g)
    | (.inr cs, t) => (0, some (maxFinal cs), { k with tab := t }, g)

/-- The largest final counter and its prefix, src/knot/modules/rrl/kru.inc.c:587-594. -/
def pickMax : List Ctx → List Nat → Nat × Nat → Nat × Nat
  | c :: cs, p :: ps, (load, prefix_) =>
    pickMax cs ps (if load < c.final then (c.final, p) else (load, prefix_))
  | _, _, r => r

/-- kru_load_multi_prefix_max(), src/knot/modules/rrl/kru.inc.c:568-600. Without `charged` the
argument `prices` is NULL. The results are the load and its prefix. -/
def loadMultiPrefixMax (k : Kru) (now : Nat) (ns : UInt8) (key : List UInt8)
    (ps : List (Nat × Nat)) (charged : Bool) (g : Rng) : (Nat × Nat) × Kru × Rng :=
  let ps := if charged then ps else ps.map fun p => (p.1, 0)
  let (_, cs, k, g) := fetchAll k (prefetchPrefixes k now ns key ps) g
  if charged then
    let (_, cs, t) := updateAll k.tab true cs.reverse
    (pickMax cs.reverse (ps.map (·.1)) (0, 0), { k with tab := t }, g)
  else (pickMax cs (ps.map (·.1)) (0, 0), k, g)

/-! ## The users of the table, src/knot/modules/rrl/functions.c -/

/-- RRL_V4_PREFIXES and RRL_V4_RATE_MULT, src/knot/modules/rrl/functions.c:29-30. -/
def v4Prefixes : List (Nat × Nat) := [(18, 768), (20, 256), (24, 32), (32, 1)]

/-- RRL_V6_PREFIXES and RRL_V6_RATE_MULT, src/knot/modules/rrl/functions.c:32-33. -/
def v6Prefixes : List (Nat × Nat) := [(32, 64), (48, 4), (56, 3), (64, 2), (128, 1)]

/-- `struct rrl_table`, src/knot/modules/rrl/functions.c:45-52; a prefix is kept with its price. -/
structure Rrl where
  v4 : List (Nat × Nat)
  v6 : List (Nat × Nat)
  logPeriod : Nat
  rw : Bool
  logTime : Nat
  kru : Kru

/-- The loop computing the logarithm of the size, src/knot/modules/rrl/functions.c:110. -/
def capacityLog (size acc : Nat) : Nat :=
  if size / 2 = 0 then acc else capacityLog (size / 2) (acc + 1)
  termination_by size
  decreasing_by omega

/-- The price of the longest prefix, src/knot/modules/rrl/functions.c:121-125. -/
def basePrice (instant : Nat) (rw : Bool) : Nat :=
  if rw then kruLimit / instant % 2 ^ 32 else kruLimit / instant % 2 ^ 32 / 2

/-- rrl_create(), src/knot/modules/rrl/functions.c:102-149; `decayOf` stands for
decay_initialize(), src/knot/modules/rrl/kru.inc.c:125-134, and `hash` for the hash with the random
secret. Memory is available. -/
def create (decayOf : Nat → Decay) (hash : List UInt8 → Nat) (header now : Nat)
    (size instant rate : Nat) (rw : Bool) (logPeriod : Nat) : Res (Option Rrl) :=
  if size = 0 ∨ instant = 0 ∨ rate = 0 then .ok none
  else
    let cl := capacityLog (size - 1) 1
    match getSize header cl with
    | .err e => .err e
    | .ub => .ub
    | .ok _ =>
      if rate > 1000 * instant then .ub
      else
        let maxDecay := (kruLimit / instant % 2 ^ 32) * rate / 1000 % 2 ^ 32
        let base := basePrice instant rw
        .ok (some
          { v4 := v4Prefixes.map fun p => (p.1, base / p.2)
            v6 := v6Prefixes.map fun p => (p.1, base / p.2)
            logPeriod := logPeriod, rw := rw
            logTime := ticks now logPeriod
            kru := ⟨hash, decayOf maxDecay, capacity2loads cl, emptyTab⟩ })

/-- An address of a client. -/
inductive Addr where
  | v4 (a : List UInt8)
  | v6 (a : List UInt8)
  deriving DecidableEq, Repr

/-- The key of an address, src/knot/modules/rrl/functions.c:162-165 and 178-179. -/
def Addr.key : Addr → List UInt8
  | .v4 a => a ++ List.replicate 12 0
  | .v6 a => a

/-- The namespace of an address, src/knot/modules/rrl/functions.c:169 and 183. -/
def Addr.ns : Addr → UInt8
  | .v4 _ => 0
  | .v6 _ => 1

/-- The prefixes and prices of the family of an address. -/
def Rrl.prices (r : Rrl) : Addr → List (Nat × Nat)
  | .v4 _ => r.v4
  | .v6 _ => r.v6

/-- The condition for logging in 32 bits, src/knot/modules/rrl/functions.c:202. -/
def logDue (r : Rrl) (now : Nat) : Bool :=
  decide (r.logPeriod ≠ 0 ∧
    (ticks now r.logTime + 1024) % 2 ^ 32 ≥ (r.logPeriod + 1024) % 2 ^ 32)

/-- The end of rrl_query() for a limited client, src/knot/modules/rrl/functions.c:201-212; the
result says whether the event is logged. -/
def limitLog (r : Rrl) (now : Nat) : Bool × Rrl :=
  if logDue r now then (true, { r with logTime := now }) else (false, r)

/-- rrl_query(), src/knot/modules/rrl/functions.c:151-213. The results are whether the client is
limited and whether that is logged. -/
def rrlQuery (r : Rrl) (now : Nat) (a : Addr) (g : Rng) : Bool × Bool × Rrl × Rng :=
  if r.rw then
    let (prefix_, _, k, g) := multiPrefixOr r.kru now a.ns a.key (r.prices a) g
    let r := { r with kru := k }
    if prefix_ = 0 then (false, false, r, g)
    else
      let (b, r) := limitLog r now
      (true, b, r, g)
  else
    let ((load, _), k, g) := loadMultiPrefixMax r.kru now a.ns a.key (r.prices a) false g
    let r := { r with kru := k }
    if load ≤ 2 ^ 16 * 1 / 2 then (false, false, r, g)
    else
      let (b, r) := limitLog r now
      (true, b, r, g)

/-- rrl_update(), src/knot/modules/rrl/functions.c:215-251. -/
def rrlUpdate (r : Rrl) (now : Nat) (a : Addr) (value : Nat) (g : Rng) : Res (Rrl × Rng) :=
  if r.rw then .ub
  else
    let ps := (r.prices a).map fun p => (p.1, min (value * p.2 % 2 ^ 64) (2 ^ 32 - 1))
    let (_, k, g) := loadMultiPrefixMax r.kru now a.ns a.key ps true g
    .ok ({ r with kru := k }, g)

/-- rrl_slip_roll(), src/knot/modules/rrl/functions.c:253-263; `rnd` is the random number. -/
def slipRoll (n rnd : Nat) : Bool :=
  if n = 0 then false else if n = 1 then true else decide (rnd % n = 0)

end Knot.Kru
