import Verif.Prelude
/-!
# RR type descriptors (src/libknot/descriptor.c)

The table of the layout of RDATA of each known RR type, shared by the model and the
specification of RDATA.
-/
namespace Knot.Rrwire

/-- The blocks RDATA consists of. Source: src/libknot/descriptor.h:157-170
(`knot_rdata_wireformat`; the terminator `END` is the end of the list). -/
inductive Block where
  /-- a name that may be written compressed -/
  | comprName
  /-- a name written uncompressed, accepted compressed -/
  | decomprName
  /-- a name written uncompressed, accepted compressed -/
  | fixedName
  /-- order, preference and three character strings -/
  | naptr
  /-- everything up to the end of RDATA -/
  | remainder
  | fixed (k : Nat)
  deriving DecidableEq, Repr

structure Desc where
  blocks : List Block
  /-- `type_name != NULL` -/
  named : Bool
  deriving DecidableEq, Repr

open Block in
/-- `rdata_descriptors`. Source: src/libknot/descriptor.c:37-156. -/
def descTable : List (Nat × List Block) := [
  (1, [fixed 4]), (2, [comprName]), (5, [comprName]),
  (6, [comprName, comprName, fixed 20]), (10, [remainder]), (12, [comprName]),
  (13, [remainder]), (14, [comprName, comprName]), (15, [fixed 2, comprName]),
  (16, [remainder]), (17, [decomprName, decomprName]), (18, [fixed 2, decomprName]),
  (21, [fixed 2, decomprName]), (24, [fixed 18, decomprName, remainder]),
  (25, [remainder]), (28, [fixed 16]), (29, [fixed 16]), (33, [fixed 6, decomprName]),
  (35, [naptr, decomprName]), (36, [fixed 2, fixedName]), (37, [remainder]),
  (39, [fixedName]), (41, [remainder]), (42, [remainder]), (43, [remainder]),
  (44, [remainder]), (45, [remainder]), (46, [fixed 18, fixedName, remainder]),
  (47, [fixedName, remainder]), (48, [remainder]), (49, [remainder]), (50, [remainder]),
  (51, [remainder]), (52, [remainder]), (53, [remainder]), (59, [remainder]),
  (60, [remainder]), (61, [remainder]), (62, [remainder]), (63, [remainder]),
  (64, [remainder]), (65, [remainder]), (99, [remainder]), (104, [fixed 10]),
  (105, [fixed 6]), (106, [fixed 10]), (107, [fixed 2, fixedName]), (108, [fixed 6]),
  (109, [fixed 8]), (128, []), (249, [fixedName, remainder]), (250, [fixedName, remainder]),
  (251, [remainder]), (252, [remainder]), (255, [remainder]), (256, [remainder]),
  (257, [remainder]), (262, [remainder])]

open Block in
/-- `obsolete_rdata_descriptors`. Source: src/libknot/descriptor.c:163-182. -/
def obsoleteTable : List (Nat × List Block) := [
  (3, [decomprName]), (4, [decomprName]), (7, [decomprName]), (8, [decomprName]),
  (9, [decomprName]), (26, [fixed 2, decomprName, decomprName]),
  (30, [decomprName, remainder])]

/-- Table lookup, the fallback being the entry at 0. -/
def descIn (t : List (Nat × List Block)) (type : Nat) : Desc :=
  match t.lookup type with
  | some b => ⟨b, true⟩
  | none => ⟨[.remainder], false⟩

/-- `knot_get_rdata_descriptor`. Source: src/libknot/descriptor.c:184-192. -/
def rdataDesc (type : Nat) : Desc := descIn descTable type

/-- `knot_get_obsolete_rdata_descriptor`. Source: src/libknot/descriptor.c:194-203. -/
def obsoleteDesc (type : Nat) : Desc := descIn obsoleteTable type

/-- The choice made when parsing. Source: src/libknot/packet/rrset-wire.c:653-656 and
src/libknot/rrset.c:154-157. -/
def parseDesc (type : Nat) : Desc :=
  if (rdataDesc type).named then rdataDesc type else obsoleteDesc type

/-- `knot_rrtype_should_be_lowercased`. Source: src/libknot/descriptor.c:364-389. -/
def lowercased (type : Nat) : Bool :=
  [2, 3, 4, 5, 6, 7, 8, 9, 12, 14, 15, 17, 18, 21, 24, 26, 30, 35, 36, 33, 39, 46].contains type

end Knot.Rrwire
