/-!
# Common vocabulary of the model

`Res` is the outcome of a C function: a value, a library error code, or
undefined behaviour (out-of-bounds access, failed `assert`, …).
-/
namespace Knot

/-- The library error codes used by the model.
Source: src/libknot/errcode.h:31-186 (only those that occur in modelled code). -/
inductive Err where
  | einval | erange | enoent | enotsup | ebusy | eexist | eagain | eacces | ealready | econn
  | esemcheck | efewdata | espace | emalf | eoutofzone | enonode | enorecord | eisrecord
  | eprereq | ettl | enottl | elimit | etrail | eloop | eemptyzone | edenied | etimeout
  | base64Size | base64Char | base32hexSize | base32hexChar
  | tsigBadSig | tsigBadKey | tsigBadTime | tsigBadTrunc | enotsig
  | eof | enodiff | euptodate | ezoneInval | enozone | enobufs | error | eparsefail
  | ensec3par | ensec3chain | esoainval | ezonesize | enoxfr | enomaster | eprocessing
  | eprogram | enoparam | exparam | enodb | eunreach | ensecBitmap | ensecChain | enonsec
  | enosig | enokey | txnEexists | txnEnotexists | ypEinvalData | enomem | ektLimit
  | malformed | outOfMem
  deriving DecidableEq, Repr, Inhabited

/-- Outcome of a C function. `ub` stands for every kind of undefined behaviour
and for failed assertions. -/
inductive Res (α : Type) where
  | ok (a : α)
  | err (e : Err)
  | ub
  deriving DecidableEq, Repr

namespace Res
variable {α β : Type}

@[inline] def bind (x : Res α) (f : α → Res β) : Res β :=
  match x with
  | .ok a => f a
  | .err e => .err e
  | .ub => .ub

instance : Monad Res where
  pure := .ok
  bind := Res.bind

@[simp] theorem pure_eq (a : α) : (pure a : Res α) = .ok a := rfl
@[simp] theorem bind_ok (a : α) (f : α → Res β) : (Res.ok a >>= f) = f a := rfl
@[simp] theorem bind_err (e : Err) (f : α → Res β) : (Res.err e >>= f) = .err e := rfl
@[simp] theorem bind_ub (f : α → Res β) : ((Res.ub : Res α) >>= f) = .ub := rfl

/-- Read one element of a buffer; out of bounds is undefined behaviour. -/
def rd (buf : List α) (i : Nat) : Res α :=
  match buf[i]? with
  | some a => .ok a
  | none => .ub

end Res
end Knot
