import Verif.Xfr.Model
import Verif.Changeset.Spec
/-!
# Specification of zone transfers

RFC 5936: an AXFR is the SOA, every other record of the zone, and the SOA again. RFC 1995: an IXFR is
the new SOA, then for every difference the old SOA, what is removed, the SOA after it and what is
added, and at the end the new SOA again.
-/
namespace Knot.Xfr
open Knot.Dname (Name)
open Knot.Changeset

/-- All but the SOA. -/
def notSoa (l : List RRset) : List RRset := l.filter (fun rr => decide (rr.1.type ≠ soa))

/-! ## The server -/

/-- The RRsets read from the journal, up to the difference that starts at the serial of the zone (the
journal may know more than the zone sent). The flag tells whether the SOA read last was that
of a removal. -/
def cut (serialOf : Bytes → Nat) (soaTo : Nat) : Bool → List RRset → List RRset
  | _, [] => []
  | inRemove, rr :: t =>
    if rr.1.type = soa then
      if inRemove = false ∧ serial serialOf rr = soaTo then [] else rr :: cut serialOf soaTo (!inRemove) t
    else rr :: cut serialOf soaTo inRemove t

/-- The serial to which the last of the differences leads. -/
def lastSerial (serialOf : Bytes → Nat) (soaTo : Nat) : Bool → List RRset → Nat → Nat
  | _, [], l => l
  | inRemove, rr :: t, l =>
    if rr.1.type = soa then
      if inRemove = false ∧ serial serialOf rr = soaTo then l
      else lastSerial serialOf soaTo (!inRemove) t (if inRemove then serial serialOf rr else l)
    else lastSerial serialOf soaTo inRemove t l

/-- The RRsets of changesets as the journal keeps them. -/
def flat (chs : List Ch) : List RRset :=
  chs.flatMap fun ch => ch.soaFrom.toList ++ ch.rem ++ ch.soaTo.toList ++ ch.add

/-! ## The client -/

/-- Records as a parsed message has them: one by one. -/
def Single (l : List RRset) : Prop := ∀ rr ∈ l, KeyOk rr.1 ∧ rr.2.data.length = 1

def Event.Single : Event → Prop
  | .msg m => Xfr.Single m.answer
  | _ => True

/-- A message without an error. -/
def Msg.Fine (m : Msg) : Prop := m.rcode = 0 ∧ m.expired = false

/-- The contents made of single records, one after another. -/
def zoneOf (l : List RRset) : Contents := l.foldl insertRR []

/-- `z` has exactly the records of `l`, with the TTL that comes last (but for signatures). -/
def Zone (l : List RRset) (z : Contents) : Prop :=
  Wf z ∧ (∀ k x, x ∈ recs (lookup z k) ↔ ∃ rr ∈ l, rr.1 = k ∧ x ∈ rr.2.data) ∧
  ∀ k d, lookup z k = some d → k.type ≠ rrsig →
    ∃ a rr b, l = a ++ rr :: b ∧ rr.1 = k ∧ rr.2.ttl = d.ttl ∧ ∀ r ∈ b, r.1 ≠ k

/-- How much records take. -/
def total (c : Conf) (l : List RRset) : Nat := (l.map c.size).sum

/-- Records with the SOA of the zone and no SOA after it. -/
def Open (apex : Name) (l : List RRset) : Prop :=
  ∃ a s b, l = a ++ s :: b ∧ s.1 = soaKey apex ∧ (∀ rr ∈ a, rr.1 ≠ soaKey apex) ∧ ∀ rr ∈ b, rr.1.type ≠ soa

/-- What an AXFR brings. -/
def AxfrBrings (c : Conf) (evs : List Event) (z : Contents) : Prop :=
  ∃ (ms : List Msg) (m : Msg) (rest : List Event) (pre : List RRset) (e : RRset) (post : List RRset),
    evs = ms.map .msg ++ .msg m :: rest ∧ (∀ x ∈ ms, Msg.Fine x) ∧ m.Fine ∧ m.unsigned = false ∧
    ms.flatMap (·.answer) ++ m.answer = pre ++ e :: post ∧ (ms.flatMap (·.answer)).length ≤ pre.length ∧
    e.1.type = soa ∧ Open c.apex pre ∧ total c pre ≤ c.maxSize ∧ z = zoneOf (pre.filter (inZone c)) ∧
    c.check z = true ∧ c.commit z = true

/-- One difference of an IXFR: the SOA before, what is removed, the SOA after and what is added. -/
structure Diff where
  old : RRset
  dels : List RRset
  new : RRset
  adds : List RRset

def Diff.text (d : Diff) : List RRset := d.old :: (d.dels ++ d.new :: d.adds)

def Diff.Ok (d : Diff) : Prop :=
  d.old.1.type = soa ∧ d.new.1.type = soa ∧ (∀ rr ∈ d.dels, rr.1.type ≠ soa) ∧ ∀ rr ∈ d.adds, rr.1.type ≠ soa

/-- The changeset of a difference. -/
def Diff.ch (d : Diff) : Ch := ⟨zoneOf d.adds, zoneOf d.dels, some d.old, some d.new⟩

/-- The records of an IXFR in front of the last SOA: `final` is the SOA at the beginning. With `byOne` reading
ends after the first difference. -/
structure Diffs (byOne : Bool) (final : RRset) (ds : List Diff) : Prop where
  soa : final.1.type = soa
  some : ds ≠ []
  ok : ∀ d ∈ ds, d.Ok
  cont : ∀ d ∈ ds.tail, rrEqual d.old final = false
  one : byOne = true → ds.tail = []

/-- The differences can be applied to the zone of the client. -/
def Applied (c : Conf) (ds : List Diff) (z : Contents) : Prop :=
  ∃ z0 u0 u, c.zone = some z0 ∧ Update.init c.apex c.strict z0 = .ok u0 ∧ applyAll u0 (ds.map Diff.ch) = .ok u ∧
    z = u.zone ∧ c.check z = true ∧ c.commit z = true

/-- What an IXFR brings. -/
def IxfrBrings (c : Conf) (byOne : Bool) (evs : List Event) (z : Contents) : Prop :=
  ∃ (ms : List Msg) (m : Msg) (rest : List Event) (pre : List RRset) (e : RRset) (post : List RRset)
      (final : RRset) (ds : List Diff),
    evs = ms.map .msg ++ .msg m :: rest ∧ (∀ x ∈ ms, Msg.Fine x) ∧ m.Fine ∧ m.unsigned = false ∧
    ms.flatMap (·.answer) ++ m.answer = pre ++ e :: post ∧ (ms.flatMap (·.answer)).length ≤ pre.length ∧
    pre.filter (inZone c) = final :: ds.flatMap Diff.text ∧ Diffs byOne final ds ∧ inZone c e = true ∧ e.1.type = soa ∧
    (rrEqual e final = true ∨ byOne = true) ∧ (total c (pre.filter (inZone c)) + c.size e) / 2 ≤ c.maxSize ∧
    Applied c ds z

/-- What the answer to an IXFR query looks like: differences, or the whole zone. -/
inductive Style where
  | axfr | ixfr
  deriving DecidableEq, Repr

/-- RFC 1995, section 4: the answer is the whole zone when the second record is no SOA (or when it has no
more than the SOA twice), and differences when it is. The first message may have just the SOA. -/
def style (newer : RRset → Bool) : List Event → Option Style
  | .msg m :: rest =>
    match m.answer with
    | [] => none
    | one :: two :: more =>
      if one.1.type = soa ∧ (two.1.type ≠ soa ∨ (more = [] ∧ rrEqual one two)) then some .axfr else some .ixfr
    | [one] =>
      if one.1.type = soa ∧ newer one then
        match rest with
        | .msg m2 :: _ =>
          match m2.answer with
          | [] => none
          | two :: _ => if two.1.type ≠ soa ∨ rrEqual one two then some .axfr else some .ixfr
        | _ => none
      else none
  | _ => none

/-- The serial of a SOA record is newer than that of the zone. -/
def newer (c : Conf) (rr : RRset) : Bool := decide (isCurrent (zoneSerial c) (serial c.serialOf rr) = .ok false)

/-- The answer says that there is nothing new. -/
def UpToDate (c : Conf) (evs : List Event) : Prop :=
  ∃ (m : Msg) (rest : List Event) (one : RRset), evs = .msg m :: rest ∧ m.Fine ∧ m.unsigned = false ∧ m.answer = [one] ∧
    one.1.type = soa ∧ newer c one = false

/-- What comes of the answer to an IXFR query. -/
def Brings (c : Conf) (byOne : Bool) (evs : List Event) (z : Contents) : Prop :=
  (style (newer c) evs = some .axfr ∧ AxfrBrings c evs z) ∨ (style (newer c) evs = some .ixfr ∧ IxfrBrings c byOne evs z)

/-- The contents of a zone that may be served: one SOA, at the apex, nothing out of the zone. -/
structure ZoneOk (apex : Name) (c : Contents) (soaRr : RRset) : Prop where
  wf : Wf c
  apexSoa : lookup c soaRr.1 = some soaRr.2
  key : soaRr.1 = soaKey apex
  one : soaRr.2.data.length = 1
  only : ∀ rr ∈ c, rr.1.type = soa → rr.1 = soaKey apex
  inside : ∀ rr ∈ c, apex.isSuffixOf rr.1.owner = true

/-- Changesets lead from `z` to `z'`: strict updates accept them one after another, their TTLs suit the
zone, each has its two SOAs, and nothing in them is out of the zone. -/
inductive History (apex : Name) : Contents → List Ch → Contents → Prop
  | nil {z : Contents} : History apex z [] z
  | cons {z z' : Contents} {ch : Ch} {chs : List Ch} {a b : RRset} {u0 u : Update} : ch.Wf apex → ch.TtlOk z →
      ch.soaFrom = some a → a.2.data.length = 1 → ch.soaTo = some b → b.2.data.length = 1 →
      (∀ rr ∈ ch.rem ++ ch.add, apex.isSuffixOf rr.1.owner = true) →
      Update.init apex true z = .ok u0 → u0.applyChangeset ch = .ok u → History apex u.zone chs z' →
      History apex z (ch :: chs) z'

/-- The changeset starts at a serial. -/
def StartsAt (serialOf : Bytes → Nat) (ch : Ch) (n : Nat) : Prop :=
  ∃ a, ch.soaFrom = some a ∧ a.1.type = soa ∧ serial serialOf a = n

/-- A message on its way. -/
def wire (m : List RRset) : Event := .msg ⟨0, m.flatMap split, false, false⟩

end Knot.Xfr
