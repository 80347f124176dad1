import Verif.Query.Model
/-!
# What a client may expect of a response

RFC 1035, section 4.1.1; RFC 6891; RFC 7314; RFC 8467.
-/
namespace Knot.Reply
open Query

/-- The bit QR. -/
def Response (h : Hdr) : Prop := h.f1 &&& 0x80 = 0x80

/-- The same operation code and the same bit RD. -/
def SameKind (a b : Hdr) : Prop := a.f1 &&& 0x79 = b.f1 &&& 0x79

/-- The bits RA, Z, AD and CD are zero. -/
def Cleared (h : Hdr) : Prop := h.f2 &&& 0xf0 = 0

/-- The code that the client reads: with the upper bits in OPT. -/
def rcode (p : Pkt) : Nat := 16 * (match p.opt with | some (_, o) => o.ext | none => 0) + (p.hdr.f2 &&& 0x0f).toNat

/-- The response belongs to the query. -/
structure Answers (q : Query) (p : Pkt) : Prop where
  id : p.hdr.id = q.hdr.id
  response : Response p.hdr
  kind : SameKind p.hdr q.hdr
  cleared : Cleared p.hdr
  question : p.question = q.question
  qd : p.hdr.qd = if q.question = [] then 0 else q.hdr.qd

/-- The largest message that may be sent over this protocol to this client. -/
def Limit (e : Env) (q : Query) (m : Nat) : Prop :=
  if e.proto = .udp then
    match q.opt with
    | none => m = 512
    | some o => (e.family = .inet ∧ m = max 512 (min o.payload e.max4)) ∨ (e.family = .inet6 ∧ m = max 512 (min o.payload e.max6))
        ∨ (e.family ≠ .inet ∧ e.family ≠ .inet6 ∧ m = 512)
  else m = 65535

/-- The size of the OPT record that the query and the configuration ask for. -/
def optSize (e : Env) (q : Query) : Nat :=
  match q.opt with
  | none => 0
  | some o => 11 + (if o.nsid = true ∧ 0 < e.nsid then 4 + e.nsid else 0)
      + (match o.ecs with | some (n, true) => if e.ecs = true then 4 + n else 0 | _ => 0)

/-- A query as the parser leaves it: the question takes at most 255 + 4 bytes. -/
structure Parsed (q : Query) : Prop where
  question : q.question.length ≤ 259
  size : q.size ≤ 65535

/-- The configuration: sizes are numbers of 16 bits. -/
structure Configured (e : Env) : Prop where
  max4 : e.max4 ≤ 65535
  max6 : e.max6 ≤ 65535

/-- This step neither adds to the message nor signs it. -/
def Small : Act → Prop
  | .aa | .tc | .rcode _ | .truncated => True
  | _ => False

/-- The hooks at the end do such steps only. -/
def Quiet (e : Env) : Prop := ∀ z, ∀ h ∈ e.endHooks z, ∀ s, ∀ a ∈ (h s).1, Small a

/-- The response has an OPT record. -/
def HasOpt (p : Pkt) : Prop := p.opt ≠ none

instance (p : Pkt) : Decidable (HasOpt p) := inferInstanceAs (Decidable (p.opt ≠ none))

/-- The modules leave the message to the server: no hooks at the end, and none that suppresses or replaces the response. -/
structure Plain (e : Env) : Prop where
  ends : ∀ z, e.endHooks z = []
  begins : ∀ z, ∀ h ∈ e.beginHooks z, ∀ s, (h s).2 = .produce ∨ (h s).2 = .done ∨ (h s).2 = .fail
  handler : ∀ s, (e.handler s).2 = .produce ∨ (e.handler s).2 = .done ∨ (e.handler s).2 = .fail

/-- This step is not the one of the module for cookies. -/
def NotCookie : Act → Prop
  | .cookie _ => False
  | _ => True

/-- The module for cookies is not in use. -/
structure NoCookies (e : Env) : Prop where
  begins : ∀ z, ∀ h ∈ e.beginHooks z, ∀ s, ∀ a ∈ (h s).1, NotCookie a
  handler : ∀ s, ∀ a ∈ (e.handler s).1, NotCookie a
  chaos : ∀ s, ∀ a ∈ (e.chaos s).1, NotCookie a

/-- The client has an address. -/
def Address (e : Env) : Prop := e.family = .inet ∨ e.family = .inet6

end Knot.Reply
