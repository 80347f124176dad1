import Verif.Ddns.Model
import Verif.Changeset.Spec
import Verif.Serial.Props
/-!
# Specification: RFC 2136, sections 3.2 and 3.4

A zone is seen as a set of records `Has z owner type data` with one TTL per owner and type. NSEC3
records and their signatures live apart and are not seen.
-/
namespace Knot.Ddns
open Knot.Dname (Name)
open Knot.Changeset (Key RRs RRset Contents lookup recs Wf soa rrsig soaKey)

/-- The zone has the record. -/
def Has (z : Contents) (o : Name) (t : Nat) (x : Bytes) : Prop := x ∈ recs (lookup z ⟨false, o, t⟩)

/-- The zone has an RRset of this name and type. -/
def HasType (z : Contents) (o : Name) (t : Nat) : Prop := ∃ x, Has z o t x

/-- The name owns a record. -/
def InUse (z : Contents) (o : Name) : Prop := ∃ t, HasType z o t

/-- The TTL of an RRset. -/
def ttlOf (z : Contents) (o : Name) (t : Nat) : Option Nat := (lookup z ⟨false, o, t⟩).map (·.ttl)

/-- `o` is the name `a` or a name under it. -/
def Under (a o : Name) : Prop := a <:+ o

/-- A proper zone: one SOA at the apex and nowhere else. -/
structure Proper (apex : Name) (z : Contents) : Prop where
  wf : Wf z
  soa : ∃ s, lookup z (soaKey apex) = some s ∧ s.data.length = 1
  only : ∀ o x, Has z o Changeset.soa x → o = apex

/-- The name has nothing to do with names of NSEC3 records. -/
def Apart (apex : Name) (z : Contents) (o : Name) : Prop :=
  ∀ rr ∈ z, rr.1.nsec3 = true → ∀ s, Under s o → Under s rr.1.owner → Under s apex

/-! ## Prerequisites (section 3.2.5) -/

/-- A prerequisite that speaks about the existence of a name or an RRset. -/
def Rec.Exist (z : Contents) (r : Rec) : Prop :=
  (r.cls = classAny → r.type = typeAny → InUse z r.owner) ∧
  (r.cls = classAny → r.type ≠ typeAny → HasType z r.owner r.type) ∧
  (r.cls = classNone → r.type = typeAny → ¬ InUse z r.owner) ∧
  (r.cls = classNone → r.type ≠ typeAny → ¬ HasType z r.owner r.type)

/-- The form of a prerequisite. -/
def Rec.PreForm (apex : Name) (qclass : Nat) (r : Rec) : Prop :=
  r.ttl = 0 ∧ Under apex r.owner ∧
  (((r.cls = classAny ∨ r.cls = classNone) ∧ r.data = []) ∨
   (r.cls ≠ classAny ∧ r.cls ≠ classNone ∧ r.cls = qclass))

/-- The prerequisites that speak about values: the RRset must be the one given by all of them
together. -/
def Values (z : Contents) (rs : List Rec) : Prop :=
  ∀ r ∈ rs, r.cls ≠ classAny → r.cls ≠ classNone → ∀ x, Has z r.owner r.type x ↔
    ∃ r' ∈ rs, r'.cls ≠ classAny ∧ r'.cls ≠ classNone ∧ r'.owner = r.owner ∧ r'.type = r.type ∧ r'.data = x

def Prereqs (apex : Name) (z : Contents) (qclass : Nat) (rs : List Rec) : Prop :=
  (∀ r ∈ rs, r.PreForm apex qclass ∧ r.Exist z) ∧ Values z rs

/-- The RCODE for the first record which is wrong. -/
inductive PreFail (apex : Name) (z : Contents) (qclass : Nat) (r : Rec) : Nat → Prop
  | ttl : r.ttl ≠ 0 → PreFail apex z qclass r formerr
  | zone : r.ttl = 0 → ¬ Under apex r.owner → PreFail apex z qclass r notzone
  | form : r.ttl = 0 → Under apex r.owner → ¬ r.PreForm apex qclass → PreFail apex z qclass r formerr
  | nxdomain : r.PreForm apex qclass → r.cls = classAny → r.type = typeAny → ¬ InUse z r.owner →
      PreFail apex z qclass r Ddns.nxdomain
  | nxrrset : r.PreForm apex qclass → r.cls = classAny → r.type ≠ typeAny → ¬ HasType z r.owner r.type →
      PreFail apex z qclass r Ddns.nxrrset
  | yxdomain : r.PreForm apex qclass → r.cls = classNone → r.type = typeAny → InUse z r.owner →
      PreFail apex z qclass r Ddns.yxdomain
  | yxrrset : r.PreForm apex qclass → r.cls = classNone → r.type ≠ typeAny → HasType z r.owner r.type →
      PreFail apex z qclass r Ddns.yxrrset

/-! ## The update section (section 3.4) -/

/-- Types that are not data: queries, OPT, signatures of messages, transfers. -/
def metaTypes : List Nat := [24, 41, 128, 249, 250, 251, 252, 255]

/-- Section 3.4.1.3 for a message of the class IN, and one rule more: a single NSEC3PARAM, at the apex. -/
def Rec.UpForm (apex : Name) (z : Contents) (r : Rec) : Prop :=
  Under apex r.owner ∧ (r.type = nsec3param → r.owner = apex ∧ ¬ HasType z apex nsec3param) ∧
  ((r.cls = classIn ∧ r.type ∉ metaTypes) ∨
   (r.cls = classAny ∧ r.data = [] ∧ (r.type = typeAny ∨ r.type ∉ metaTypes)) ∨
   (r.cls = classNone ∧ r.ttl = 0 ∧ r.type ∉ metaTypes))

/-- A DNAME above the name. -/
def UnderDname (apex : Name) (z : Contents) (o : Name) : Prop :=
  ∃ s, Under apex s ∧ Under s o ∧ s ≠ o ∧ HasType z s dname

/-- An addition that takes place (section 3.4.2.2); CNAME and DNAME must not hide other data. -/
def Accepted (apex : Name) (serialOf : Bytes → Nat) (sn : Nat) (z : Contents) (r : Rec) : Prop :=
  r.cls = classIn ∧
  (r.type = soa → r.owner = apex ∧ SerialLt sn (serialOf r.data)) ∧
  (r.type = cname → HasType z r.owner cname ∨ (¬ InUse z r.owner ∧ ¬ UnderDname apex z r.owner)) ∧
  (r.type = dname → HasType z r.owner dname ∨
    ((∀ o, Under r.owner o → o ≠ r.owner → ¬ InUse z o) ∧ ¬ HasType z r.owner cname)) ∧
  (r.type ∉ [soa, cname, dname] → ¬ HasType z r.owner cname ∧ ¬ UnderDname apex z r.owner ∧
    ¬ Has z r.owner r.type r.data)

/-- The addition replaces what there is. -/
def Rec.Replaces (r : Rec) : Prop := r.type = soa ∨ r.type = cname ∨ r.type = dname

/-- The record disappears (sections 3.4.2.2 to 3.4.2.4). -/
def Deleted (apex : Name) (serialOf : Bytes → Nat) (sn : Nat) (z : Contents) (r : Rec)
    (o : Name) (t : Nat) (x : Bytes) : Prop :=
  o = r.owner ∧
  ((r.cls = classIn ∧ t = r.type ∧ r.Replaces ∧ Accepted apex serialOf sn z r) ∨
   (r.cls = classAny ∧ (r.type = typeAny ∨ t = r.type) ∧ t ≠ soa ∧ ¬ (o = apex ∧ t = ns)) ∨
   (r.cls = classNone ∧ t = r.type ∧ t ≠ soa ∧ x = r.data ∧
     (o = apex → t = ns → ∃ y, y ≠ x ∧ Has z o t y)))

/-- One record of the update section. -/
structure Step (apex : Name) (serialOf : Bytes → Nat) (sn : Nat) (z : Contents) (r : Rec) (z' : Contents) :
    Prop where
  data : ∀ o t x, Has z' o t x ↔ (Has z o t x ∧ ¬ Deleted apex serialOf sn z r o t x) ∨
    (Accepted apex serialOf sn z r ∧ o = r.owner ∧ t = r.type ∧ x = r.data)
  newTtl : Accepted apex serialOf sn z r → r.type ≠ rrsig → ttlOf z' r.owner r.type = some r.ttl
  oldTtl : ∀ o t, HasType z' o t → ¬ (o = r.owner ∧ t = r.type ∧ Accepted apex serialOf sn z r) →
    ttlOf z' o t = ttlOf z o t
  nsec3 : ∀ o t, lookup z' ⟨true, o, t⟩ = lookup z ⟨true, o, t⟩

/-- All records of the update section, one after another. -/
inductive Steps (apex : Name) (serialOf : Bytes → Nat) (sn : Nat) : Contents → List Rec → Contents → Prop
  | nil {z : Contents} : Steps apex serialOf sn z [] z
  | cons {z z1 z' : Contents} {r : Rec} {rs : List Rec} : Step apex serialOf sn z r z1 → Proper apex z1 →
      Steps apex serialOf sn z1 rs z' → Steps apex serialOf sn z (r :: rs) z'

/-- Several messages processed together: each one takes effect as a whole if its prerequisites hold after
the previous ones and its records have a proper form, otherwise not at all. -/
inductive Bulk (apex : Name) (serialOf : Bytes → Nat) (sn : Nat) :
    Contents → List Msg → Contents → List Nat → Prop
  | nil {z : Contents} : Bulk apex serialOf sn z [] z []
  | refused {z z' : Contents} {m : Msg} {ms : List Msg} {c : Nat} {cs : List Nat} : c ≠ 0 →
      ¬ (Prereqs apex z m.qclass m.prereqs ∧ ∀ r ∈ m.updates, r.UpForm apex z) →
      Bulk apex serialOf sn z ms z' cs → Bulk apex serialOf sn z (m :: ms) z' (c :: cs)
  | applied {z z1 z' : Contents} {m : Msg} {ms : List Msg} {cs : List Nat} :
      Prereqs apex z m.qclass m.prereqs → (∀ r ∈ m.updates, r.UpForm apex z) →
      Steps apex serialOf sn z m.updates z1 → Bulk apex serialOf sn z1 ms z' cs →
      Bulk apex serialOf sn z (m :: ms) z' (0 :: cs)

end Knot.Ddns
