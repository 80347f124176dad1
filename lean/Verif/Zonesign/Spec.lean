import Verif.Zonesign.Model
/-!
# Specification of a signed zone (RFC 4034, 3; RFC 4035, 2.2 and 5.3)

Only the data types of the model are used.
-/
namespace Knot.Zonesign
open Knot.Dname (Name)

/-- Seconds from `now` to the 32-bit time `u`, in serial number arithmetic (RFC 4034, 3.1.5). -/
def left (now u : Nat) : Int := ((u : Int) - now + 2147483648) % 4294967296 - 2147483648

/-- The signature has begun and ends in more than `r` seconds. -/
def Fresh (now r : Nat) (s : Sig) : Prop := (r : Int) < left now s.expiration ∧ left now s.inception ≤ 0

/-- Which keys sign an RRset: those for keys (KSK) the DNSKEY, CDS and CDNSKEY sets at the apex, those for the zone
(ZSK) all others, in either case if they are active or about to be. -/
def Signs (apex owner : Name) (type : Nat) (k : Key) : Prop :=
  if owner = apex ∧ type ∈ [48, 59, 60] then k.isKsk = true ∧ (k.active = true ∨ k.kskPlus = true)
  else k.isZsk = true ∧ (k.active = true ∨ k.zskPlus = true)

/-- Which RRsets are signed: nothing below a delegation, and DS and NSEC only at one. -/
def Signable (n : Node) (type : Nat) : Prop :=
  n.nonauth = false ∧ (n.deleg = true → type = 43 ∨ type = 47)

/-- The signature names the key, by algorithm and key tag, and the type of the RRset. -/
def Names (k : Key) (r : RRset) (s : Sig) : Prop := s.covered = r.type ∧ s.alg = k.alg ∧ s.keyTag = k.tag

/-- A good signature of an RRset by a key. -/
def Good (C : Crypto) (now refresh : Nat) (owner : Name) (r : RRset) (k : Key) (s : Sig) : Prop :=
  Names k r s ∧ C.verify k owner r s = true ∧ Fresh now refresh s

/-- A node is signed: every RRset to be signed has a good signature by every key that signs it; every signature
is such a one, or was made offline. -/
structure Signed (C : Crypto) (ctx : Ctx) (n : Node) : Prop where
  all : ∀ r ∈ n.rrsets, Signable n r.type → ∀ k ∈ ctx.keys, Signs ctx.apex n.owner r.type k →
    ∃ s ∈ n.sigs, Good C ctx.now (ctx.refresh + ctx.prerefresh) n.owner r k s
  only : ∀ s ∈ n.sigs, ∃ r ∈ n.rrsets, Signable n r.type ∧ s.covered = r.type ∧
    ((∃ k ∈ ctx.keys, Signs ctx.apex n.owner r.type k ∧ Good C ctx.now (ctx.refresh + ctx.prerefresh) n.owner r k s) ∨
      (n.owner = ctx.apex ∧ s ∈ ctx.offline))
  offline : n.owner = ctx.apex → ∀ s ∈ ctx.offline, ∀ r ∈ n.rrsets, Signable n r.type → s.covered = r.type → s ∈ n.sigs

/-- No key has two good signatures of an RRset. -/
def Minimal (C : Crypto) (ctx : Ctx) (n : Node) : Prop :=
  ∀ r ∈ n.rrsets, ∀ k ∈ ctx.keys, Signs ctx.apex n.owner r.type k → ∀ s₁ ∈ n.sigs, ∀ s₂ ∈ n.sigs,
    Good C ctx.now (ctx.refresh + ctx.prerefresh) n.owner r k s₁ →
    Good C ctx.now (ctx.refresh + ctx.prerefresh) n.owner r k s₂ → s₁ = s₂

/-- `t` is a time (0 is never) not later than the 32-bit time `u`. -/
def NotAfter (now t u : Nat) : Prop := t ≠ 0 ∧ (t : Int) ≤ now + left now u

/-! ## Validation -/

/-- Which keys are tried for the signatures of an RRset. -/
def Tried (apex owner : Name) (type : Nat) (k : Key) : Prop :=
  if owner = apex ∧ type ∈ [48, 59, 60] then k.isKsk = true else k.isZsk = true

instance (apex owner : Name) (type : Nat) (k : Key) : Decidable (Tried apex owner type k) := by
  unfold Tried; infer_instance

instance (k : Key) (r : RRset) (s : Sig) : Decidable (Names k r s) := by
  unfold Names; infer_instance

instance (now r : Nat) (s : Sig) : Decidable (Fresh now r s) := by
  unfold Fresh; infer_instance

/-- The keys a signature names by which it is not valid. -/
def badKeys (C : Crypto) (ctx : Ctx) (owner : Name) (r : RRset) (s : Sig) : List Key :=
  ctx.keys.filter (fun k => Tried ctx.apex owner r.type k ∧ Names k r s ∧ ¬ (C.verify k owner r s = true ∧ Fresh ctx.now 0 s))

/-- An RRset is valid: some key has a good signature; every signature naming a key is good by one, with at most two
others (of the same key tag) by which it is not. -/
structure ValidSet (C : Crypto) (ctx : Ctx) (owner : Name) (r : RRset) (sigs : List Sig) : Prop where
  some : ∃ s ∈ sigs, ∃ k ∈ ctx.keys, Tried ctx.apex owner r.type k ∧ Good C ctx.now 0 owner r k s
  every : ∀ s ∈ sigs, badKeys C ctx owner r s ≠ [] →
    (badKeys C ctx owner r s).length ≤ 2 ∧ ∃ k ∈ ctx.keys, Tried ctx.apex owner r.type k ∧ Good C ctx.now 0 owner r k s

/-- A node is valid: every RRset to be signed is valid, there are no signatures of others. -/
structure ValidNode (C : Crypto) (ctx : Ctx) (n : Node) : Prop where
  signed : ∀ r ∈ n.rrsets, Signable n r.type → ValidSet C ctx n.owner r n.sigs
  others : ∀ r ∈ n.rrsets, ¬ Signable n r.type → ∀ s ∈ n.sigs, s.covered ≠ r.type
  rrsig : ∀ s ∈ n.sigs, s.covered ≠ 46

/-- Every signature covers a type the node has. -/
def NoStray (n : Node) : Prop := ∀ s ∈ n.sigs, s.covered ∈ n.rrsets.map (·.type) ∨ s.covered = 46

/-! ## Assumptions -/

/-- The times of a signature have 32 bits, are not exactly half the range away, and mean moments not before the start of
the epoch; for expirations less the refresh time. -/
structure Timely (now r : Nat) (s : Sig) : Prop where
  bits : s.expiration < 4294967296 ∧ s.inception < 4294967296
  half : left now s.expiration ≠ -2147483648 ∧ left now s.inception ≠ -2147483648
  expiration : (r : Int) ≤ now + left now s.expiration ∧ 0 < now + left now s.expiration
  inception : 0 ≤ now + left now s.inception

/-- A node has one RRset of a type; the RRSIG records are apart. -/
structure Proper (n : Node) : Prop where
  types : (n.rrsets.map (·.type)).Nodup
  rrsig : 46 ∉ n.rrsets.map (·.type)

/-- Signatures that are made verify. -/
def Sound (C : Crypto) : Prop :=
  ∀ k owner r h d, C.sign k owner r h = some d → C.verify k owner r { h with signature := d } = true

/-- The meaning of the flag of a node: its signatures have been verified. -/
def Flagged (C : Crypto) (ctx : Ctx) (n : Node) : Prop :=
  n.verified = true → ctx.tagConflict = false →
    ∀ r ∈ n.rrsets, Signable n r.type → ∀ k ∈ ctx.keys, Signs ctx.apex n.owner r.type k → ∀ s ∈ n.sigs,
      Names k r s → C.verify k n.owner r s = true

/-- A policy and a time in the ranges the server uses; the lifetime exceeds what is demanded of signatures. -/
structure Sane (ctx : Ctx) : Prop where
  now : 5400 ≤ ctx.now ∧ ctx.now < 9223372036854775808
  refresh : ctx.refresh + ctx.prerefresh < 4294967296
  lifetime : ctx.refresh + ctx.prerefresh < ctx.lifetime
  short : ctx.lifetime + 5400 < 2147483648
  safe : ctx.unsafeExpired = false

/-- The flag for key tag conflicts is set if there is one. -/
def Tags (ctx : Ctx) : Prop :=
  ctx.tagConflict = false → ∀ k ∈ ctx.keys, ∀ k' ∈ ctx.keys, k.alg = k'.alg → k.tag = k'.tag → k = k'

/-- No signature verifies by two keys of the zone. -/
def Exclusive (C : Crypto) (ctx : Ctx) : Prop :=
  ∀ k ∈ ctx.keys, ∀ k' ∈ ctx.keys, ∀ owner r s, C.verify k owner r s = true → C.verify k' owner r s = true → k = k'

/-- The keys used offline are not among those in use. -/
def Apart (ctx : Ctx) : Prop :=
  ∀ s ∈ ctx.offline, ∀ k ∈ ctx.keys, ∀ r, Signs ctx.apex ctx.apex r.type k → ¬ Names k r s

/-- The assumptions on a node. -/
structure Ready (C : Crypto) (ctx : Ctx) (n : Node) : Prop where
  proper : Proper n
  timely : ∀ s ∈ n.sigs, Timely ctx.now (ctx.refresh + ctx.prerefresh) s
  flag : Flagged C ctx n

/-- The assumptions on a node to be validated. -/
structure VReady (C : Crypto) (ctx : Ctx) (n : Node) : Prop where
  timely : ∀ s ∈ n.sigs, Timely ctx.now 0 s
  flag : n.verified = true → ctx.tagConflict = false → ∀ r ∈ n.rrsets, ∀ k ∈ ctx.keys, Tried ctx.apex n.owner r.type k →
    ∀ s ∈ n.sigs, Names k r s → C.verify k n.owner r s = true
  keys : ctx.keys.length < 128
  now : ctx.now < 9223372036854775808
  safe : ctx.unsafeExpired = false

end Knot.Zonesign
