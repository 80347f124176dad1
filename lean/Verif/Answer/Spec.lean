import Verif.Answer.Model
import Verif.Nsecchain.Spec
/-!
# Specification: answers from a zone

RFC 1034 4.3.2 with wildcards (RFC 4592), DNAME (RFC 6672), DS at delegations (RFC 4035 3.1.4.1).
-/
namespace Knot.Answer
open Dname (Name)

/-- A zone: a tree of names with marks of delegations; the apex has SOA. -/
structure Wf (z : Zone) : Prop where
  closed : Nsecchain.Closed z.apex z.names
  marks : ∃ raw, z.node = Nsecchain.adjust z.apex z.names raw
  apex : z.apex ∈ z.names
  soa : 6 ∈ (z.node z.apex).types

/-- The node has records of the type. -/
def Owns (z : Zone) (x : Name) (t : Nat) : Prop :=
  t ∈ (z.node x).types ∨ t = 46 ∧ (z.node x).sigs ≠ [] ∨ t = 47 ∧ (z.node x).nsec ≠ []

/-- A delegation: a name with NS but the apex. -/
def Deleg (z : Zone) (d : Name) : Prop := d ∈ z.names ∧ d ≠ z.apex ∧ 2 ∈ (z.node d).types

/-- The topmost delegation at or above a name. -/
def Cut (z : Zone) (d n : Name) : Prop := Deleg z d ∧ d <:+ n ∧ ∀ d', Deleg z d' → d' <:+ n → d <:+ d'

/-- The closest encloser: the longest suffix that exists. -/
def Encloser (z : Zone) (c n : Name) : Prop := c ∈ z.names ∧ c <:+ n ∧ ∀ d ∈ z.names, d <:+ n → d <:+ c

/-- The node that answers for a name: its own, or, if the name does not exist, the wildcard right below the
closest encloser. -/
def Source (z : Zone) (s n : Name) : Prop :=
  s ∈ z.names ∧ (s = n ∨ n ∉ z.names ∧ ∃ c, Encloser z c n ∧ s = [42] :: c)

/-- The zone is authoritative for a type at a node: there is no delegation at or above it, but for DS at the
delegation itself. -/
def Auth (z : Zone) (t : Nat) (s : Name) : Prop := ∀ d, Deleg z d → d <:+ s → d = s ∧ t = 43

/-- Types that are answered from a node with CNAME: CNAME, RRSIG, NSEC, ANY. -/
def Direct (t : Nat) : Prop := t = 5 ∨ t = 46 ∨ t = 47 ∨ t = 255

/-- The records that answer a type at a node: for ANY those of its first type. -/
def Match (z : Zone) (t : Nat) (s : Name) (u : Nat) : Prop :=
  if t = 255 then (∃ v, Owns z s v) ∧ u = z.first s else u = t ∧ Owns z s t

inductive Outcome where
  | out
  | referral (d : Name)
  | alias (s : Name)
  | data (s : Name) (u : Nat)
  | nodata
  | dname (c : Name)
  | nxdomain
  deriving DecidableEq, Repr

/-- What a zone says about a name and a type. -/
inductive Lookup (z : Zone) (t : Nat) (n : Name) : Outcome → Prop where
  | out : ¬ z.apex <:+ n → Lookup z t n .out
  | referral {s d} : Source z s n → Cut z d s → ¬ (d = s ∧ t = 43) → Lookup z t n (.referral d)
  | alias {s} : Source z s n → Auth z t s → Owns z s 5 → ¬ Direct t → Lookup z t n (.alias s)
  | data {s u} : Source z s n → Auth z t s → ¬ (Owns z s 5 ∧ ¬ Direct t) → Match z t s u → Lookup z t n (.data s u)
  | nodata {s} : Source z s n → Auth z t s → ¬ (Owns z s 5 ∧ ¬ Direct t) → (∀ u, ¬ Match z t s u) →
      Lookup z t n .nodata
  | below {d} : (∀ s, ¬ Source z s n) → Cut z d n → Lookup z t n (.referral d)
  | dname {c} : (∀ s, ¬ Source z s n) → (∀ d, ¬ Cut z d n) → Encloser z c n → Owns z c 39 → Lookup z t n (.dname c)
  | nxdomain {c} : (∀ s, ¬ Source z s n) → (∀ d, ¬ Cut z d n) → Encloser z c n → ¬ Owns z c 39 → Lookup z t n .nxdomain

/-! ## Chains -/

/-- The name with the last labels, those of `c`, replaced. -/
def subst (c target n : Name) : Name := n.take (n.length - c.length) ++ target

/-- A name of at most 127 labels and 255 octets. -/
def Fits (n : Name) : Prop := n.length ≤ 127 ∧ (n.map (fun l => l.length + 1)).sum + 1 ≤ 255

/-- A CNAME or DNAME that leads from one name to another. -/
structure Link where
  owner : Name
  source : Name
  type : Nat
  next : Name
  deriving DecidableEq, Repr

inductive Step (z : Zone) (t : Nat) : Link → Prop where
  | cname {n s} : Lookup z t n (.alias s) → Step z t ⟨n, s, 5, z.target s 5⟩
  | dname {n c} : Lookup z t n (.dname c) → Fits (subst c (z.target c 39) n) →
      Step z t ⟨n, c, 39, subst c (z.target c 39) n⟩

/-- A chain of links from a name to another. -/
def Path (z : Zone) (t : Nat) : Name → List Link → Name → Prop
  | n, [], m => n = m
  | n, l :: ls, m => l.owner = n ∧ Step z t l ∧ Path z t l.next ls m

/-- Starts with `*`. -/
def Wild (x : Name) : Prop := ∃ y, x = [42] :: y

/-- The link takes the same CNAME, or any record of the same wildcard, as one before. -/
def Again (ls : List Link) (l : Link) : Prop :=
  ∃ l' ∈ ls, l'.source = l.source ∧ (Wild l.source ∨ l.type = 5 ∧ l'.type = 5)

/-- The records of a link added: CNAME with the name as its owner; DNAME, once, and a CNAME made of it. -/
def extend (acc : List Rec) (l : Link) : List Rec :=
  if l.type = 39 then
    (if .rr l.source l.source 39 ∈ acc then acc else acc ++ [.rr l.source l.source 39]) ++ [.synth l.owner l.next]
  else acc ++ [.rr l.owner l.source 5]

/-- The records of a chain. -/
def records (ls : List Link) : List Rec := ls.foldl extend []

/-- How the answer ends after the chain `ls` to `m`: the answer section, the state, the RCODE, the authority. -/
inductive Ends (z : Zone) (t : Nat) (ls : List Link) (m : Name) : List Rec → State → Nat → Option (Name × Nat) → Prop where
  | data {s u} : Lookup z t m (.data s u) → Ends z t ls m (records ls ++ [.rr m s u]) .hit 0 none
  | nodata : Lookup z t m .nodata → Ends z t ls m (records ls) .nodata 0 (some (z.apex, 6))
  | nxdomain : Lookup z t m .nxdomain → Ends z t ls m (records ls) .miss 3 (some (z.apex, 6))
  | referral {d} : Lookup z t m (.referral d) → Ends z t ls m (records ls) .deleg 0 (some (d, 2))
  | out : Lookup z t m .out → Ends z t ls m (records ls) .hit 0 none
  /-- DNAME that makes too long a name: YXDOMAIN, RFC 6672 2.2. -/
  | long {c} : Lookup z t m (.dname c) → ¬ Fits (subst c (z.target c 39) m) → ls.length < 5 →
      Ends z t ls m (if .rr c c 39 ∈ records ls then records ls else records ls ++ [.rr c c 39]) .hit 6 none
  /-- At most five links. -/
  | limit {o} : ls.length = 5 → Lookup z t m o → (∃ s, o = .alias s ∨ o = .dname s) → Ends z t ls m (records ls) .hit 0 none
  /-- A CNAME made of DNAME answers a query for CNAME. -/
  | made {l} : t = 5 → Step z t l → l.owner = m → l.type = 39 → ls.length < 5 →
      Ends z t ls m (extend (records ls) l) .hit 0 none
  /-- A CNAME again: not put in the answer again. -/
  | loop {l} : Step z t l → l.owner = m → Again ls l → ¬ Wild l.source → ls.length < 5 →
      Ends z t ls m (records ls) .hit 0 none
  /-- A wildcard again: its records have another owner. -/
  | wild {l} : Step z t l → l.owner = m → Again ls l → Wild l.source → t ≠ 5 ∨ l.type ≠ 39 → ls.length < 5 →
      Ends z t ls m (extend (records ls) l) .hit 0 none

/-- No link of a chain is taken again, nor after an answer. -/
def Fresh (t : Nat) (ls : List Link) : Prop :=
  (∀ A l B, ls = A ++ l :: B → ¬ Again A l) ∧ (t = 5 → ls = [])

/-- The answer to a query. -/
def Correct (z : Zone) (t : Nat) (n : Name) (r : Resp) : Prop :=
  ∃ ls m, Path z t n ls m ∧ Fresh t ls ∧ ls.length ≤ 5 ∧ Ends z t ls m r.answer r.state r.rcode r.authority ∧
    (r.aa = false ↔ ls = [] ∧ r.state = .deleg)

/-- No DNAME on the way makes too long a name; no CNAME or DNAME leads to a name answered by DNAME records of a
wildcard. -/
def Regular (z : Zone) (t : Nat) (n : Name) : Prop :=
  ∀ ls m, Path z t n ls m → (∀ c, Lookup z t m (.dname c) → Fits (subst c (z.target c 39) m)) ∧
    ∀ s, ls ≠ [] → s ≠ m → ¬ Lookup z t m (.data s 39)

end Knot.Answer
