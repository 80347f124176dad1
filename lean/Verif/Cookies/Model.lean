import Verif.Edns.Model
/-!
# Model of DNS cookies (src/libknot/cookies.c, src/knot/modules/cookies/cookies.c)

`H key message` is SipHash-2-4; the little-endian order of its result in memory is that of the
usual hosts. A cookie is the list of its `len` octets.
-/
namespace Knot.Cookies
open WireCtx

/-- The hash as a function of the key and the message, src/contrib/openbsd/siphash.c. -/
abbrev Hash := Bytes → Bytes → UInt64

/-- `knot_edns_cookie_params_t`, src/libknot/cookies.h:41-49. The address of the client is NULL,
one without raw octets (`some none`), or its raw octets (sockaddr_raw(),
src/contrib/sockaddr.c:149-170). -/
structure Params where
  version : UInt8
  timestamp : UInt32
  before : UInt32
  after : UInt32
  client : Option (Option Bytes)
  secret : Bytes

/-- The octets of the hash in memory. -/
def le64 (x : UInt64) : Bytes := (beBytes 8 x.toNat).reverse

/-- const_time_memcmp(), src/contrib/string.c:129-138. -/
def constTimeMemcmp : Bytes → Bytes → UInt8
  | a :: s, b :: t => (a ^^^ b) ||| constTimeMemcmp s t
  | _, _ => 0

/-- cookie_server_generate(), src/libknot/cookies.c:75-106; `out` are the octets already there. -/
def generateTail (H : Hash) (out cc : Bytes) (p : Params) : Res Bytes :=
  match p.client with
  | none => .err .einval
  | some addr =>
    if cc.length ≠ 8 then .err .einval
    else do
      let v ← Res.rd out 0
      if v ≠ 1 then .err .enotsup
      else match addr with
        | none => .ub
        | some raw => .ok (out ++ le64 (H p.secret (cc ++ out ++ raw)))

/-- knot_edns_cookie_server_generate(), src/libknot/cookies.c:110-129. -/
def serverGenerate (H : Hash) (cc : Bytes) (p : Params) : Res Bytes :=
  generateTail H (p.version :: 0 :: 0 :: 0 :: beBytes 4 p.timestamp.toNat) cc p

/-- knot_edns_cookie_server_check(), src/libknot/cookies.c:131-170. -/
def serverCheck (H : Hash) (sc cc : Bytes) (p : Params) : Res Unit :=
  if sc.length < 8 then .err .einval
  else
    let cookieTime := UInt32.ofNat (beVal ((sc.drop 4).take 4))
    let minTime := p.timestamp - p.before
    let maxTime := p.timestamp + p.after
    if cookieTime < minTime ∨ cookieTime > maxTime then .err .erange
    else do
      let ref ← generateTail H (sc.take 8) cc p
      if sc.length ≠ ref.length then .err .einval
      else if constTimeMemcmp (sc.drop 8) (ref.drop 8) ≠ 0 then .err .einval
      else .ok ()

/-- knot_edns_cookie_client_generate(), src/libknot/cookies.c:27-49; `server` as in `Params.client`. -/
def clientGenerate (H : Hash) (server : Option (Option Bytes)) (secret : Bytes) : Res Bytes :=
  match server with
  | none => .err .einval
  | some none => .ub
  | some (some raw) => .ok (le64 (H secret raw))

/-- knot_edns_cookie_client_check(), src/libknot/cookies.c:51-73. -/
def clientCheck (H : Hash) (cc : Bytes) (server : Option (Option Bytes)) (secret : Bytes) : Res Unit :=
  if cc.length ≠ 8 then .err .einval
  else do
    let ref ← clientGenerate H server secret
    if constTimeMemcmp cc (ref.take 8) ≠ 0 then .err .einval else .ok ()

/-! ## The module -/

/-- `cookies_ctx_t`, src/knot/modules/cookies/cookies.c:61-71; `width` is the number of values of the
counter (uint16_t or uint_fast16_t). -/
structure Ctx where
  secrets : List Bytes
  slip : Nat
  ctr : Nat
  width : Nat

/-- update_ctr(), src/knot/modules/cookies/cookies.c:73-82. -/
def updateCtr (c : Ctx) : Ctx :=
  if c.ctr < c.slip then { c with ctr := (c.ctr + 1) % c.width } else { c with ctr := 1 }

/-- The loop over the secrets from the last one down to the first,
src/knot/modules/cookies/cookies.c:177-189: the result of the last check and the secret left in
the parameters. The list is in the order of the loop. -/
def tryAll (H : Hash) (sc cc : Bytes) (p : Params) (last : Res Unit) : List Bytes → Res Unit × Params
  | [] => (last, p)
  | s :: ss =>
    let p := { p with secret := s }
    match serverCheck H sc cc p with
    | .ok () => (.ok (), p)
    | .err e => tryAll H sc cc p (.err e) ss
    | .ub => (.ub, p)

/-- What the module does with a query. -/
inductive Out where
  /-- No cookie: nothing. -/
  | pass
  /-- FORMERR. -/
  | formerr
  /-- Processing goes on, the option is in the answer, `valid` is KNOTD_QUERY_FLAG_COOKIE. -/
  | answer (option : Bytes) (valid : Bool)
  /-- BADCOOKIE with the option. -/
  | badcookie (option : Bytes)
  /-- Silently dropped. -/
  | drop
  /-- Another failure. -/
  | fail
  deriving DecidableEq, Repr

/-- put_cookie(), src/knot/modules/cookies/cookies.c:118-143, the data of the option; there is room
for the option in the answer. -/
def putCookie (cc sc : Bytes) : Res Bytes :=
  Edns.cookieWrite (List.replicate (Edns.cookieSize cc sc) 0) cc sc

/-- Generating and inserting a new cookie, lines 194-199 and 210-215. -/
def renew (H : Hash) (cc : Bytes) (p : Params) (k : Bytes → Out) : Res Out :=
  match (do let sc ← serverGenerate H cc p; putCookie cc sc) with
  | .ok o => .ok (k o)
  | .err _ => .ok .fail
  | .ub => .ub

/-- cookies_process(), src/knot/modules/cookies/cookies.c:145-229, at the time `now`; `option` is the
data of the cookie option of the query. -/
def process (H : Hash) (c : Ctx) (option : Option Bytes) (now : UInt32) (client : Option Bytes)
    (udp : Bool) : Res (Out × Ctx) :=
  match option with
  | none => .ok (.pass, c)
  | some data =>
    match Edns.cookieParse data with
    | .ub => .ub
    | .err _ => .ok (.formerr, c)
    | .ok (cc, sc) =>
      let p : Params := ⟨1, now, 3600, 300, some client, []⟩
      match tryAll H sc cc p (.ok ()) c.secrets.reverse with
      | (.ub, _) => .ub
      | (.ok (), _) =>
        match putCookie cc sc with
        | .ok o => .ok (.answer o true, c)
        | .err _ => .ok (.fail, c)
        | .ub => .ub
      | (.err _, p) =>
        if ¬ udp then do
          let o ← renew H cc p (.answer · false)
          .ok (o, c)
        else if c.ctr > 1 then .ok (.drop, updateCtr c)
        else do
          let c' := if c.slip > 1 then updateCtr c else c
          let o ← renew H cc p .badcookie
          .ok (o, c')

end Knot.Cookies
