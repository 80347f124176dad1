import Verif.Zload.Model
import Verif.Serial.Props
/-! # C53: what can happen to a zone, its file and its journal -/
namespace Knot.Zload
open Knot

/-- One step of the life of a zone. `next` is what the serial policy gives at that moment. -/
inductive Op where
  /-- the user puts a file in place (`none`: removes it, or makes it unreadable) -/
  | edit (f : Option Cont)
  /-- the zone is loaded at the start or reloaded -/
  | load (next : UInt32 → UInt32)
  /-- the zone is changed by an update or an incremental transfer -/
  | change (next : UInt32 → UInt32) (c : Cont)
  /-- the zone is replaced by a whole transfer -/
  | replace (next : UInt32 → UInt32) (c : Cont)
  /-- the zone is written to its file -/
  | flush
  /-- the server ends or crashes -/
  | stop

/-- A step. -/
def step (cfg : Cfg) (w : World) : Op → Ret
  | .edit f => .done { w with file := f } none
  | .load next => eventLoad cfg next w
  | .change next c => .of (change cfg next w c)
  | .replace next c => .of (replace cfg next w c)
  | .flush => .done (flush w) none
  | .stop => .done { w with mem := none } none

/-- A life of a zone, from nothing: the zone as it is and the contents served last. Lives in which a
zone with two SOA records is loaded are left out. -/
inductive Life (cfg : Cfg) : World → Option Cont → Prop
  | start : Life cfg {} none
  | step {w w' : World} {last : Option Cont} {o : Op} {e : Option Err} :
      Life cfg w last → Zload.step cfg w o = .done w' e → Life cfg w' (w'.mem <|> last)

/-- `a` is older than `b`, RFC 1982. -/
def Older (a b : UInt32) : Prop := SerialLt a.toNat b.toNat

/-- The lives in which the user follows the manual with journal-content `changes`: the file is given
a serial newer than that of the zone served last and not one a stored change starts from; and the zone
is not changed between that and the load of the file. The flag says that the file was edited and not
loaded yet. -/
inductive Careful (cfg : Cfg) : World → Option Cont → Bool → Prop
  | start : Careful cfg {} none false
  | edit {w : World} {last : Option Cont} {ed : Bool} (f : Cont) :
      Careful cfg w last ed → (∀ c, last = some c → Older c.serial f.serial) →
      (∀ ch ∈ w.jour.chain, ch.fr ≠ f.serial) → Careful cfg { w with file := some f } last true
  | load {w w' : World} {last : Option Cont} {ed : Bool} {e : Option Err} (next : UInt32 → UInt32) :
      Careful cfg w last ed → eventLoad cfg next w = .done w' e →
      Careful cfg w' (w'.mem <|> last) (if e = none then false else ed)
  | change {w w' : World} {last : Option Cont} {e : Option Err} (next : UInt32 → UInt32) (c : Cont) :
      Careful cfg w last false → Zload.change cfg next w c = (w', e) →
      Careful cfg w' (w'.mem <|> last) false
  | flush {w : World} {last : Option Cont} {ed : Bool} :
      Careful cfg w last ed → Careful cfg (Zload.flush w) last (if w.mem = none then ed else false)
  | stop {w : World} {last : Option Cont} {ed : Bool} :
      Careful cfg w last ed → Careful cfg { w with mem := none } last ed

end Knot.Zload
