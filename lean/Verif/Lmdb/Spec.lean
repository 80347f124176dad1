import Verif.Lmdb.Model
import Verif.Dname.Spec
/-!
# Specification of the records of the databases
-/
namespace Knot.Lmdb

/-- A field of a record: an unsigned number of 1, 2, 4 or 8 octets, a text, a domain name or
plain octets. -/
inductive Item where
  | num (width : Nat) (v : Nat)
  | text (t : List UInt8)
  | name (n : Dname.Name)
  | octets (d : List UInt8)

/-- The value fits the field; texts have no zero octet, names are legal. -/
def Item.Legal : Item → Prop
  | .num w v => (w = 1 ∨ w = 2 ∨ w = 4 ∨ w = 8) ∧ v < 256 ^ w
  | .text t => 0 ∉ t
  | .name n => Dname.Valid n
  | .octets _ => True

/-- Big-endian octets of a number. -/
def bigEndian : (width : Nat) → Nat → List UInt8
  | 0, _ => []
  | w + 1, v => bigEndian w (v / 256) ++ [UInt8.ofNat (v % 256)]

/-- The stored form: numbers in network order, texts with a zero at the end, names in wire
format, octets as they are. -/
def Item.stored : Item → List UInt8
  | .num w v => bigEndian w v
  | .text t => t ++ [0]
  | .name n => Dname.wire n
  | .octets d => d

/-- The fields one after another. -/
def stored (is : List Item) : List UInt8 := is.flatMap Item.stored

/-- The argument that passes the field to knot_lmdb_make_key(); behind a text or a name the
memory may go on with anything. -/
inductive Passes : Item → Arg → Prop
  | b {v : Nat} : Passes (.num 1 v) (.b v)
  | h {v : Nat} : Passes (.num 2 v) (.h v)
  | i {v : Nat} : Passes (.num 4 v) (.i v)
  | l {v : Nat} : Passes (.num 8 v) (.l v)
  | s {t r : List UInt8} : Passes (.text t) (.s (t ++ 0 :: r))
  | n {x : Dname.Name} {r : List UInt8} : Passes (.name x) (.n (Dname.wire x ++ r))
  | d {x : List UInt8} : Passes (.octets x) (.d x)

/-- The arguments pass the fields, one by one. -/
def PassAll : List Item → List Arg → Prop
  | [], [] => True
  | i :: is, a :: as => Passes i a ∧ PassAll is as
  | _, _ => False

/-- The format letter for the field, all values being asked for. -/
def Item.fmt : Item → Fmt
  | .num w _ => if w = 1 then .b true else if w = 2 then .h true else if w = 4 then .i true else .l true
  | .text _ => .s true
  | .name _ => .n true
  | .octets d => .d true d.length

/-- The value delivered is the value of the field; a pointer points to its stored form. -/
inductive Delivers : Item → Val → Prop
  | num {w v : Nat} : Delivers (.num w v) (.num v)
  | text {t r : List UInt8} : Delivers (.text t) (.ptr (t ++ 0 :: r))
  | name {x : Dname.Name} {r : List UInt8} : Delivers (.name x) (.ptr (Dname.wire x ++ r))
  | octets {d : List UInt8} : Delivers (.octets d) (.data d)

/-- The values are those of the fields, one by one. -/
def DeliverAll : List Item → List Val → Prop
  | [], [] => True
  | i :: is, v :: vs => Delivers i v ∧ DeliverAll is vs
  | _, _ => False

/-- The format letter with no place for the value. -/
def Fmt.unwanted : Fmt → Fmt
  | .b _ => .b false | .h _ => .h false | .i _ => .i false | .l _ => .l false
  | .s _ => .s false | .n _ => .n false | .d _ len => .d false len

/-- Fields of which only some are asked for. -/
def selFmt (p : Item × Bool) : Fmt := if p.2 then p.1.fmt else p.1.fmt.unwanted

/-- The values of the fields asked for, nothing for the others. -/
def SelectAll : List (Item × Bool) → List Val → Prop
  | [], [] => True
  | p :: ps, v :: vs => (if p.2 then Delivers p.1 v else v = .skip) ∧ SelectAll ps vs
  | _, _ => False

end Knot.Lmdb
