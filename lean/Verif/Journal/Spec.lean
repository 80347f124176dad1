import Verif.Journal.Model
import Verif.Serial.Props
/-!
# What is expected of the journal

The zone, its zone file and its journal together, and what may happen to them. A crash is not an event
of its own: what survives it is the zone file and the journal after any number of events, and `flushed`
below may be left out after `written`.
-/
namespace Knot.Journal

variable {Z D : Type}

/-- Changesets following one another from a serial to another one, each raising the serial. -/
def Linked : Nat → List (Nat × Entry D) → Nat → Prop
  | a, [], b => a = b
  | a, (k, e) :: l, b => k = a ∧ SerialLt a e.to ∧ Linked e.to l b

/-- Applying them. -/
def applyAll (cfg : Cfg Z D) (l : List (Nat × Entry D)) (z : Z) : Z :=
  l.foldl (fun z p => cfg.act p.2.body z) z

/-- A merged changeset does what its parts do (C14), and everything stored takes space. -/
structure Laws (cfg : Cfg Z D) : Prop where
  comp : ∀ a b z, cfg.act (cfg.comp a b) z = cfg.act b (cfg.act a z)
  size : ∀ d, 0 < cfg.dsize d
  depth : 2 ≤ cfg.maxDepth

/-- The journal, the zone file and the zone the server has; the latter two with their serials. -/
structure World (Z D : Type) where
  db : Db Z D
  file : Nat × Z
  cur : Nat × Z
  deriving DecidableEq, Repr

/-- Events: a changeset is stored and then applied to the zone, the whole zone is stored, the zone file
is written, the journal is told of it. -/
inductive Op (Z D : Type) where
  | change (occupied : Nat) (to : Nat) (body : D)
  | whole (serial : Nat) (z : Z)
  | written
  | flush

/-- Their effect. -/
def step (cfg : Cfg Z D) (w : World Z D) : Op Z D → Res (World Z D)
  | .change occupied to body => do
    let r ← insert cfg occupied w.db ⟨w.cur.1, to, body⟩
    .ok { w with db := r.1, cur := if r.2 = none then (to, cfg.act body w.cur.2) else w.cur }
  | .whole serial z =>
    let r := insertZone cfg w.db serial z
    .ok { w with db := r.1, cur := if r.2 = none then (serial, z) else w.cur }
  | .written => .ok { w with file := w.cur }
  | .flush => .ok { w with file := w.cur, db := if w.db.md.serialToValid then setFlushed w.db else w.db }

/-- When they may happen. The zone file is only written if that is allowed by the configuration, or if
the journal has the whole zone (see `C13_forced_flush`); otherwise a changeset does not lead back to the
serial of the zone file (see `C13_merged_cycle`). -/
def Allowed (cfg : Cfg Z D) (w : World Z D) : Op Z D → Prop
  | .change _ to _ => to < 4294967296 ∧ (cfg.flush = false → w.db.zij = none → to ≠ w.file.1)
  | .whole serial _ => serial < 4294967296
  | .written => cfg.flush = true ∨ w.db.zij.isSome
  | .flush => cfg.flush = true ∨ w.db.zij.isSome

/-- The worlds that come about. -/
inductive Reach (cfg : Cfg Z D) : World Z D → Prop
  | init (serial : Nat) (z : Z) : serial < 4294967296 → Reach cfg ⟨{}, (serial, z), (serial, z)⟩
  | step {w w' : World Z D} {op : Op Z D} : Reach cfg w → Allowed cfg w op → step cfg w op = .ok w' →
      Reach cfg w'

/-- The zone can be had back from what is on the disk. -/
def Restorable (cfg : Cfg Z D) (w : World Z D) : Prop :=
  if w.db.zij.isSome then loadZone cfg w.db = .ok w.cur.2
  else loadFile cfg w.db w.file.1 w.file.2 = .ok w.cur.2

/-- Walking the journal gives consecutive changesets up to the serial of the zone; the special one leads
to a serial where one of the others starts, or to the end. Without a special one, they start at the zone
file or before. -/
def Contiguous (w : World Z D) : Prop :=
  ∃ special l a, walk w.db = .ok (special, l) ∧ Linked a l w.cur.1 ∧
    ∃ l1 l2 s, l = l1 ++ l2 ∧ Linked a l1 s ∧ Linked s l2 w.cur.1 ∧
      match special with
      | some (.inl z) => z.to = s
      | some (.inr e) => e.to = s
      | none => w.file.1 = s

/-- flush_journal() of a zone that is loaded, when the configuration allows it and neither force nor the
user asks for it, src/knot/zone/zone.c:63-157: nothing happens if the file has the serial already. -/
def flushJournal (w : World Z D) : World Z D :=
  if w.file.1 = w.cur.1 then w
  else { w with file := w.cur, db := if w.db.md.serialToValid then setFlushed w.db else w.db }

/-- Running several events. -/
def run (cfg : Cfg Z D) : World Z D → List (Op Z D) → Res (World Z D)
  | w, [] => .ok w
  | w, op :: l => do
    let w ← step cfg w op
    run cfg w l

end Knot.Journal
