import Verif.Prelude
/-!
# Specification of domain names (independent of the model)

A name is a list of labels, most specific first; the root is the empty list.
-/
namespace Knot.Dname

abbrev Label := List UInt8
abbrev Name := List Label

/-- Length of the uncompressed wire form: RFC 1035, 3.1. -/
def nameLen : Name → Nat
  | [] => 1
  | l :: ls => l.length + 1 + nameLen ls

/-- Uncompressed wire form: RFC 1035, 3.1. -/
def wire : Name → List UInt8
  | [] => [0]
  | l :: ls => UInt8.ofNat l.length :: (l ++ wire ls)

/-- The length limits of RFC 1035, 2.3.4. -/
def Valid (ls : Name) : Prop :=
  (∀ l ∈ ls, 1 ≤ l.length ∧ l.length ≤ 63) ∧ nameLen ls ≤ 255

/-- `NameAt mem endp compr pos ls n`: the bytes `mem[0..endp)` encode, at offset `pos`,
the name `ls`, its encoding at that place taking `n` octets. Compression pointers
(RFC 1035, 4.1.4) are accepted only if `compr`, and only pointing strictly backwards. -/
inductive NameAt (mem : List UInt8) (endp : Nat) (compr : Bool) : Nat → Name → Nat → Prop
  | root {pos} : pos < endp → mem[pos]? = some 0 → NameAt mem endp compr pos [] 1
  | label {pos l ls n} : mem[pos]? = some (UInt8.ofNat l.length) →
      1 ≤ l.length → l.length ≤ 63 → (mem.drop (pos + 1)).take l.length = l →
      NameAt mem endp compr (pos + (l.length + 1)) ls n →
      NameAt mem endp compr pos (l :: ls) (l.length + 1 + n)
  | ptr {pos ls n b1 b2} : compr = true → pos + 2 ≤ endp →
      mem[pos]? = some b1 → mem[pos + 1]? = some b2 → 192 ≤ b1.toNat →
      (b1.toNat - 192) * 256 + b2.toNat < pos →
      NameAt mem endp compr ((b1.toNat - 192) * 256 + b2.toNat) ls n →
      NameAt mem endp compr pos ls 2

/-- Octet equality up to ASCII case. -/
def lowerByte (c : UInt8) : UInt8 :=
  if 65 ≤ c.toNat ∧ c.toNat ≤ 90 then UInt8.ofNat (c.toNat + 32) else c

def lowerName (ls : Name) : Name := ls.map (·.map lowerByte)

/-- Lexicographic comparison of lists, a proper prefix being smaller. -/
def lexCmp {α : Type} (c : α → α → Ordering) : List α → List α → Ordering
  | [], [] => .eq
  | [], _ :: _ => .lt
  | _ :: _, [] => .gt
  | a :: s, b :: t => match c a b with
    | .lt => .lt
    | .gt => .gt
    | .eq => lexCmp c s t

def byteCmp (a b : UInt8) : Ordering := compare a.toNat b.toNat

/-- Canonical DNS name order, RFC 4034, 6.1 (without the case folding, which is done
when names are stored): labels compared from the root down, each as an octet string,
an absent label sorting first. -/
def canonCmp (a b : Name) : Ordering := lexCmp (lexCmp byteCmp) a.reverse b.reverse

/-- Length of the longest common suffix. -/
def commonSuffixLen (a b : Name) : Nat :=
  ((a.reverse.zip b.reverse).takeWhile (fun p => p.1 == p.2)).length

/-- One octet of a label in presentation format as Knot prints it: letters, digits and
`-_*/` verbatim, other printable ASCII except `#` escaped by a backslash, everything
else as `\DDD`. -/
def escByte (c : UInt8) : List UInt8 :=
  let n := c.toNat
  if (48 ≤ n ∧ n ≤ 57) ∨ (65 ≤ n ∧ n ≤ 90) ∨ (97 ≤ n ∧ n ≤ 122) ∨
     n = 45 ∨ n = 95 ∨ n = 42 ∨ n = 47 then [c]
  else if 33 ≤ n ∧ n ≤ 126 ∧ n ≠ 35 then [92, c]
  else [92, UInt8.ofNat (48 + n / 100), UInt8.ofNat (48 + n / 10 % 10), UInt8.ofNat (48 + n % 10)]

def escLabel (l : Label) : List UInt8 := l.flatMap escByte

/-- Fully qualified presentation form. -/
def text : Name → List UInt8
  | [] => [46]
  | ls => ls.flatMap (fun l => escLabel l ++ [46])

/-- `Chars s l`: the text `s` denotes the octets `l` of one label (RFC 1035, 5.1). -/
inductive Chars : List UInt8 → Label → Prop
  | nil : Chars [] []
  | plain {c s l} : c.toNat ≠ 46 → c.toNat ≠ 92 → Chars s l → Chars (c :: s) (c :: l)
  | esc {c s l} : ¬ (48 ≤ c.toNat ∧ c.toNat ≤ 57) → Chars s l → Chars (92 :: c :: s) (c :: l)
  | num {a b c : Nat} {s l} : a ≤ 9 → b ≤ 9 → c ≤ 9 → 100 * a + 10 * b + c ≤ 255 → Chars s l →
      Chars (92 :: UInt8.ofNat (48 + a) :: UInt8.ofNat (48 + b) :: UInt8.ofNat (48 + c) :: s)
        (UInt8.ofNat (100 * a + 10 * b + c) :: l)

/-- `Labels s ls`: non-empty labels separated by dots, with an optional dot at the end. -/
inductive Labels : List UInt8 → Name → Prop
  | last {s l} : Chars s l → l ≠ [] → Labels s [l]
  | lastDot {s l} : Chars s l → l ≠ [] → Labels (s ++ [46]) [l]
  | cons {s l r ls} : Chars s l → l ≠ [] → Labels r ls → Labels (s ++ 46 :: r) (l :: ls)

/-- The presentation format of a name, absolute or with the last dot left out. -/
def Parses (s : List UInt8) (ls : Name) : Prop :=
  (s = [46] ∧ ls = []) ∨ Labels s ls

end Knot.Dname
