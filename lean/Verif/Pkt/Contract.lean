import Verif.Pkt.Model
import Verif.Pkt.Spec
/-!
# How a message is written

The sequences of calls the theorems are about: what callers of the packet interface have to observe,
and the packets that can result.
-/
namespace Knot.Pkt
open Knot
open Knot.Dname (Name Valid wire lowerName)
open Knot.Rrwire (Field encAll)

/-- The record set in memory. -/
def RSet.enc (r : RSet) (id : Nat) : RRset :=
  ⟨wire r.owner, r.type, r.rclass, r.ttl, r.rdatas.map encAll, id⟩

/-- A hint for the owner `o` of a set to be put in the packet: none, the position of QNAME or a hint
recorded with a set already there, for the same name. For the root any hint will do, including
`KNOT_COMPR_HINT_NOCOMP` as used for OPT in src/knot/query/query.c:91 (see `C06_nocomp`). -/
def HintOk (q : Option Question) (p : Pkt) (log : List Item) (o : Name) (hint : Nat) : Prop :=
  hint = 0 ∨ o = [] ∨
  (hint = 12 ∧ ∃ qn, q = some qn ∧ lowerName qn.name = lowerName o) ∨
  ∃ (j k : Nat) (e : Entry) (it : Item), p.entries[j]? = some e ∧ log[j]? = some it ∧ hint = e.hints k ∧
    ∀ nm ∈ ownOf it.set k, lowerName nm = lowerName o

/-- The hypotheses about a set to be put in a packet. -/
structure PutOk (q : Option Question) (p : Pkt) (log : List Item) (hint flags : Nat) (r : RSet) : Prop where
  good : r.Good
  flags : ∀ fs ∈ r.rdatas, FlagsOk flags fs
  hint : HintOk q p log r.owner hint

/-- The set in memory `id` is already in the packet. -/
def Dup (p : Pkt) (r : RSet) (id : Nat) : Prop := ∃ e ∈ p.entries, e.rr.type = r.type ∧ e.rr.id = id

/-- `Built q p log`: the packet `p` is the result of a sequence of calls in which the question `q` and
the sets `log` have been put in it successfully.

* The buffer is allocated with the packet; the part of it to be used may be changed (`max_size`).
* The id and the flags in the header may be written at any time.
* The question comes first, if there is one, and there is room for it beside the reserved space.
* The packet may be cleared when a question follows (see `C06_stale_qname`).
* A put may fail for lack of space, provided it leaves no reference to an incompletely written name
  (see `C06_stale_suffix`). -/
inductive Built : Option Question → Pkt → List Item → Prop
  | new {len g p} : len ≤ 65535 → Pkt.new len g = some p → Built none p []
  | limit {q p log m} : Built q p log → p.size + p.reserved ≤ m → m ≤ p.wire.length → m ≤ 65535 → Built q { p with maxSize := m } log
  | header {q p log mem} : Built q p log → mem.length = p.wire.length → (∀ i, 4 ≤ i → mem[i]? = p.wire[i]?) →
      Built q { p with wire := mem } log
  | begin {q p log} (sec : Nat) : Built q p log → sec ≤ 2 → Built q (Pkt.begin p sec).2 log
  | reserve {q p log} (n : Nat) : Built q p log → Built q (Pkt.reserve p n).2 log
  | reclaim {q p log} (n : Nat) : Built q p log → Built q (Pkt.reclaim p n).2 log
  | question {p p'} {qn : Question} : Built none p [] → p.current = 0 → Valid qn.name → 12 + qn.enc.length + p.reserved ≤ p.maxSize →
      putQuestion p (wire qn.name) qn.rclass qn.type = .ok (none, p') → Built (some qn) p' []
  | noQuestion {p p' e} {qn : Question} : Built none p [] → p.current = 0 → Valid qn.name →
      putQuestion p (wire qn.name) qn.rclass qn.type = .ok (some e, p') → Built none p' []
  | restart {q p log p1 p'} {qn : Question} : Built q p log → clear p = .ok p1 → Valid qn.name → 12 + qn.enc.length ≤ p.maxSize →
      putQuestion p1 (wire qn.name) qn.rclass qn.type = .ok (none, p') → Built (some qn) p' []
  | nothing {q p log p' r id hint rotate flags} : Built q p log → PutOk q p log hint flags r →
      r.rdatas = [] ∨ (flags.testBit 3 = true ∧ Dup p r id) →
      putRotate p hint (r.enc id) rotate flags = .ok (none, p') → Built q p' log
  | put {q p log p' r id hint rotate flags} : Built q p log → PutOk q p log hint flags r → r.rdatas ≠ [] →
      (flags.testBit 3 = false ∨ ¬ Dup p r id) →
      putRotate p hint (r.enc id) rotate flags = .ok (none, p') → Built q p' (log ++ [⟨p.current, r, rotate, flags⟩])
  | refused {q p log p' r id hint rotate flags e} : Built q p log → PutOk q p log hint flags r → r.rdatas ≠ [] →
      (flags.testBit 3 = false ∨ ¬ Dup p r id) →
      putRotate p hint (r.enc id) rotate flags = .ok (some e, p') → p'.suf < p'.size → Built q p' log

end Knot.Pkt
