import Verif.Lmdb.Model
/-!
# Model of the stored parameters of DNSSEC keys (src/knot/dnssec/kasp/kasp_db.c)
-/
namespace Knot.Kasp
open WireCtx Lmdb

/-- `key_params_t`, src/knot/dnssec/kasp/policy.h:44-53, with the timers of `knot_kasp_key_timing_t`,
lines 28-39 (64-bit numbers); the identifier is part of the database key. -/
structure Params where
  isKsk : Bool
  isCsk : Bool
  isPubOnly : Bool
  keytag : Nat
  algorithm : Nat
  publicKey : Bytes
  created : Nat
  preActive : Nat
  publish : Nat
  ready : Nat
  active : Nat
  retireActive : Nat
  retire : Nat
  postActive : Nat
  revoke : Nat
  remove : Nat
  deriving DecidableEq, Repr

/-- params_serialize(), src/knot/dnssec/kasp/kasp_db.c:121-134. -/
def serialize (p : Params) : Res Bytes :=
  let flags := 2 + (if p.isKsk then 1 else 0) + (if p.isPubOnly then 4 else 0) + (if p.isCsk then 8 else 0)
  makeKey [.l p.publicKey.length, .l 8, .h p.keytag, .b p.algorithm, .b flags,
    .l p.created, .l p.preActive, .l p.publish, .l p.ready, .l p.active, .l p.retireActive,
    .l p.retire, .l p.postActive, .l p.remove, .d p.publicKey, .l p.revoke]

/-- knot_wire_read_u64(), src/libknot/wire.h:73-77. -/
def readU64 (mem : Bytes) (pos : Nat) : Res Nat := do
  let d ← load mem pos 8
  .ok (beVal d)

/-- A number stored by the reader; not stored means uninitialised memory. -/
def numAt (vs : List Val) (i : Nat) : Res Nat :=
  match vs[i]? with
  | some (.num v) => .ok v
  | _ => .ub

/-- The copy of the public key in the memory of `keylen` octets. -/
def dataAt (vs : List Val) (i keylen : Nat) : Res Bytes :=
  match vs[i]? with
  | some (.data d) => .ok d
  | _ => if keylen = 0 then .ok [] else .ub

/-- The difference of two `size_t` values. -/
def sizeSub (a b : Nat) : Nat := (a + 2 ^ 64 - b) % 2 ^ 64

/-- The values taken by params_deserialize(), src/knot/dnssec/kasp/kasp_db.c:164-181. -/
def construct (vs : List Val) (keylen flags revoke : Nat) : Res (Option Params) :=
  let isKsk := decide (flags % 2 = 1)
  let isCsk := decide (flags / 8 % 2 = 1)
  if flags / 2 % 2 = 1 ∧ (isKsk = true ∨ isCsk = false) then do
    let keytag ← numAt vs 2
    let algorithm ← numAt vs 3
    let created ← numAt vs 5
    let preActive ← numAt vs 6
    let publish ← numAt vs 7
    let ready ← numAt vs 8
    let active ← numAt vs 9
    let retireActive ← numAt vs 10
    let retire ← numAt vs 11
    let postActive ← numAt vs 12
    let remove ← numAt vs 13
    let publicKey ← dataAt vs 14 keylen
    .ok (some ⟨isKsk, isCsk, decide (flags / 4 % 2 = 1), keytag, algorithm, publicKey, created,
      preActive, publish, ready, active, retireActive, retire, postActive, revoke, remove⟩)
  else .ok none

/-- params_deserialize(), src/knot/dnssec/kasp/kasp_db.c:137-184; `none` is `false`. The size
`mv_size - future` is computed in 64 bits. Allocation of `keylen` octets is assumed to succeed.
`revoke` keeps its previous value (0, the memory comes from calloc) if there is no such part. -/
def deserialize (val : Bytes) : Res (Option Params) := do
  if val.length < 16 then .ok none
  else do
    let keylen ← readU64 val 0
    let future ← readU64 val 8
    let r ← unmakeKey val (sizeSub val.length future)
      [.l true, .l true, .h true, .b true, .b true, .l true, .l true, .l true, .l true, .l true, .l true,
       .l true, .l true, .l true, .d true keylen]
    if r.2 = true then do
      let flags ← numAt r.1 4
      if 0 < future ∧ future < 8 then .ok none
      else do
        let revoke ← (if 0 < future then readU64 val (val.length - future) else .ok 0)
        construct r.1 keylen flags revoke
    else .ok none

end Knot.Kasp
