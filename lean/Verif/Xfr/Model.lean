import Verif.Changeset.Model
import Verif.Serial.Model
/-!
# Model of zone transfers: src/knot/nameserver/{xfr,axfr,ixfr}.c and src/knot/events/handlers/refresh.c

Records, RRsets and zone contents are those of the model of changesets: owners are names in lower
case, the class is left out. How much fits in a message is decided by any two functions (`Pack`);
knot_pkt_put() with KNOT_PF_NOTRUNC puts either the whole RRset or nothing. Logging, statistics other
than the count of messages, timers, signing of received zones and `ixfr-from-axfr` are left out.
Memory never runs out.
-/
namespace Knot.Xfr
open Knot.Dname (Name)
open Knot.Changeset

/-- KNOT_EOK, KNOT_ESPACE and any other code. -/
inductive Code where
  | ok | espace | failed
  deriving DecidableEq, Repr

/-- knot_layer_state_t, src/knot/query/layer.h:29-38, those used. -/
inductive St where
  | consume | produce | reset | done | fail | ignore
  deriving DecidableEq, Repr

/-! ## The server -/

/-- What fits: `fits m rr`, the message with the RRsets `m` has room for `rr`; `big m`, it is longer than
KNOT_WIRE_PTR_MAX. -/
structure Pack where
  fits : List RRset → RRset → Bool
  big : List RRset → Bool

/-- knot_pkt_put_rotate() with KNOT_PF_NOTRUNC, src/libknot/packet/pkt.c:501-570. -/
def pktPut (pk : Pack) (pkt : List RRset) (rr : RRset) : Option (List RRset) :=
  if pk.fits pkt rr then some (pkt ++ [rr]) else none

/-- The loop of axfr_put_rrsets(), src/knot/nameserver/axfr.c:50-72: the message, where to go on and
the outcome. -/
def putFrom (pk : Pack) : List RRset → Nat → List RRset → List RRset × Nat × Code
  | [], _, pkt => (pkt, 0, .ok)
  | rr :: t, i, pkt =>
    if rr.1.type = soa then putFrom pk t (i + 1) pkt
    else
      match pktPut pk pkt rr with
      | none => (pkt, i, .espace)
      | some pkt => if pk.big pkt then (pkt, i + 1, .espace) else putFrom pk t (i + 1) pkt

/-- axfr_put_rrsets(), src/knot/nameserver/axfr.c:44-73; `cur` is `cur_rrset`. -/
def putRrsets (pk : Pack) (node : List RRset) (cur : Nat) (pkt : List RRset) : List RRset × Nat × Code :=
  putFrom pk (node.drop cur) cur pkt

/-- The tree being walked, from the current node on, and `cur_rrset` (`struct axfr_proc`,
src/knot/nameserver/axfr.c:37-42). -/
structure AxfrSt where
  it : Option (List (List RRset))
  cur : Nat

/-- The loop of axfr_process_node_tree(), src/knot/nameserver/axfr.c:84-91. -/
def putNodes (pk : Pack) : List (List RRset) → Nat → List RRset → List RRset × List (List RRset) × Nat × Code
  | [], cur, pkt => (pkt, [], cur, .ok)
  | n :: ns, cur, pkt =>
    match putRrsets pk n cur pkt with
    | (pkt, cur, .ok) => putNodes pk ns cur pkt
    | (pkt, cur, c) => (pkt, n :: ns, cur, c)

/-- axfr_process_node_tree(), src/knot/nameserver/axfr.c:75-98. -/
def putTree (pk : Pack) (tree : List (List RRset)) (s : AxfrSt) (pkt : List RRset) :
    List RRset × AxfrSt × Code :=
  match putNodes pk (s.it.getD tree) s.cur pkt with
  | (pkt, _, cur, .ok) => (pkt, ⟨none, cur⟩, .ok)
  | (pkt, rest, cur, c) => (pkt, ⟨some rest, cur⟩, c)

/-- `struct xfr_proc`, src/knot/nameserver/xfr.h:53-57, with the state of the particular transfer. -/
structure Proc (I S : Type) where
  messages : Nat
  nodes : List I
  st : S

/-- The loop of xfr_process_list(), src/knot/nameserver/xfr.c:44-55. -/
def items {I S : Type} (put : I → S → List RRset → List RRset × S × Code) :
    List I → S → List RRset → List RRset × List I × S × Code
  | [], s, pkt => (pkt, [], s, .ok)
  | i :: is, s, pkt =>
    match put i s pkt with
    | (pkt, s, .ok) => items put is s pkt
    | (pkt, s, c) => (pkt, i :: is, s, c)

/-- The rest of xfr_process_list() after the first SOA, src/knot/nameserver/xfr.c:44-68. -/
def processRest {I S : Type} (pk : Pack) (put : I → S → List RRset → List RRset × S × Code) (soaRr : RRset)
    (x : Proc I S) (pkt : List RRset) : List RRset × Proc I S × Code :=
  match items put x.nodes x.st pkt with
  | (pkt, is, s, .ok) =>
    match pktPut pk pkt soaRr with
    | some pkt => (pkt, ⟨x.messages, is, s⟩, .ok)
    | none => (pkt, ⟨x.messages, is, s⟩, if pkt = [] then .failed else .espace)
  | (pkt, is, s, .espace) => (pkt, ⟨x.messages, is, s⟩, if pkt = [] then .failed else .espace)
  | (pkt, is, s, .failed) => (pkt, ⟨x.messages, is, s⟩, .failed)

/-- xfr_process_list(), src/knot/nameserver/xfr.c:20-69; `contents` stay (they are held by RCU). -/
def processList {I S : Type} (pk : Pack) (put : I → S → List RRset → List RRset × S × Code) (soaRr : RRset)
    (x : Proc I S) : List RRset × Proc I S × Code :=
  if x.messages = 0 then
    match pktPut pk [] soaRr with
    | none => ([], x, .espace)
    | some pkt => processRest pk put soaRr x pkt
  else processRest pk put soaRr x []

/-- axfr_process_query(), src/knot/nameserver/axfr.c:232-242, and axfr_answer_finished(), lines 112-129. -/
def axfrStep (pk : Pack) (soaRr : RRset) (x : Proc (List (List RRset)) AxfrSt) :
    List RRset × Proc (List (List RRset)) AxfrSt × St :=
  match processList pk (putTree pk) soaRr x with
  | (m, x, .espace) => (m, { x with messages := x.messages + 1 }, .produce)
  | (m, x, .ok) => (m, { x with messages := x.messages + 1 }, .done)
  | (m, x, .failed) => (m, x, .fail)

/-- The messages of an answer and how it ends: process_query_out() is called again as long as it
returns KNOT_STATE_PRODUCE, src/knot/server/tcp-handler.c:196-205. The first argument bounds the number of
messages. -/
def answer {X : Type} (step : X → List RRset × X × St) : Nat → X → List (List RRset) × St
  | 0, _ => ([], .produce)
  | n + 1, x =>
    match step x with
    | (m, x, .produce) => (m :: (answer step n x).1, (answer step n x).2)
    | (m, _, .done) => ([m], .done)
    | (_, _, st) => ([], st)

/-- Zone contents as the server walks them: the nodes, then those for NSEC3 if there are any. -/
structure Trees where
  nodes : List (List RRset)
  nsec3 : List (List RRset)

def Trees.contents (t : Trees) : Contents := t.nodes.flatten ++ t.nsec3.flatten

/-- axfr_query_init(), src/knot/nameserver/axfr.c:166-177. -/
def axfrInit (t : Trees) : Proc (List (List RRset)) AxfrSt :=
  ⟨0, t.nodes :: (if t.nsec3 = [] then [] else [t.nsec3]), ⟨none, 0⟩⟩

/-- `struct ixfr_proc`, src/knot/nameserver/ixfr.h:36-54: what is left to be read from the journal, whether
reading ends with an error, and the state. -/
structure IxfrSt where
  stream : List RRset
  broken : Bool
  cur : Option RRset
  inRemove : Bool
  soaTo : Nat
  soaLast : Nat

/-- knot_soa_serial() of an SOA RRset, src/libknot/rrtype/soa.h:52-57; what is read from RDATA is a parameter. -/
def serial (serialOf : Bytes → Nat) (rr : RRset) : Nat := serialOf (rr.2.data.headD [])

/-- The loop of ixfr_put_chg_part(), src/knot/nameserver/ixfr.c:59-82. -/
def putChg (serialOf : Bytes → Nat) (pk : Pack) (s : IxfrSt) : List RRset → Bool → Nat → List RRset →
    List RRset × IxfrSt × Code
  | [], inRemove, soaLast, pkt =>
    (pkt, ⟨[], s.broken, none, inRemove, s.soaTo, soaLast⟩, if s.broken then .failed else .ok)
  | rr :: t, inRemove, soaLast, pkt =>
    let isSoa := decide (rr.1.type = soa)
    let inRemove' := if isSoa then !inRemove else inRemove
    if isSoa ∧ inRemove' ∧ serial serialOf rr = s.soaTo then
      (pkt, ⟨t, s.broken, some rr, inRemove', s.soaTo, soaLast⟩, .ok)
    else
      let soaLast' := if isSoa ∧ ¬ inRemove' then serial serialOf rr else soaLast
      if pk.big pkt then (pkt, ⟨t, s.broken, some rr, inRemove', s.soaTo, soaLast'⟩, .espace)
      else
        match pktPut pk pkt rr with
        | none => (pkt, ⟨t, s.broken, some rr, inRemove', s.soaTo, soaLast'⟩, .espace)
        | some pkt => putChg serialOf pk s t inRemove' soaLast' pkt

/-- ixfr_put_chg_part(), src/knot/nameserver/ixfr.c:47-83. -/
def putJournal (serialOf : Bytes → Nat) (pk : Pack) (_ : Unit) (s : IxfrSt) (pkt : List RRset) :
    List RRset × IxfrSt × Code :=
  match s.cur with
  | none => putChg serialOf pk s s.stream s.inRemove s.soaLast pkt
  | some rr =>
    match pktPut pk pkt rr with
    | none => (pkt, s, .espace)
    | some pkt => putChg serialOf pk { s with cur := none } s.stream s.inRemove s.soaLast pkt

/-- ixfr_process_query(), src/knot/nameserver/ixfr.c:335-349, and ixfr_answer_finished(), lines 165-182. -/
def ixfrStep (serialOf : Bytes → Nat) (pk : Pack) (soaRr : RRset) (x : Proc Unit IxfrSt) :
    List RRset × Proc Unit IxfrSt × St :=
  match processList pk (putJournal serialOf pk) soaRr x with
  | (m, x, .espace) => (m, { x with messages := x.messages + 1 }, .produce)
  | (m, x, .ok) =>
    if x.st.soaLast ≠ x.st.soaTo then (m, x, .fail)
    else (m, { x with messages := x.messages + 1 }, .done)
  | (m, x, .failed) => (m, x, .fail)

/-- What the journal offers (journal_read_begin(), journal_read_rrset() with `allow_next_changeset`,
src/knot/journal/journal_read.c:85-116,127-190): nothing, no changeset from the serial, or the
RRsets of the changesets one after another. -/
inductive Reading where
  | none
  | range
  | rrs (stream : List RRset) (broken : Bool)

/-- The server of a zone. -/
structure Server where
  apex : Name
  trees : Trees
  soaRr : RRset
  provideIxfr : Bool
  frozen : Bool
  journal : Nat → Reading

/-- ixfr_answer_init() and ixfr_load_chsets(), src/knot/nameserver/ixfr.c:106-131,184-246: for an allowed
query what is to be sent. -/
inductive Plan where
  | refuse | soaOnly | axfr | ixfr (s : IxfrSt)

def ixfrPlan (serialOf : Bytes → Nat) (srv : Server) (from' : Nat) : Res Plan :=
  if srv.frozen then .ok .refuse
  else if ¬ srv.provideIxfr then .ok .axfr
  else do
    let c ← Serial.serialCompare (serial serialOf srv.soaRr) from'
    if c = .lower ∨ c = .equal then .ok .soaOnly
    else
      match srv.journal from' with
      | .none => .ok .axfr
      | .range => .ok .axfr
      | .rrs stream broken => .ok (.ixfr ⟨stream, broken, none, false, serial serialOf srv.soaRr, from'⟩)

/-- axfr_process_query(), src/knot/nameserver/axfr.c:190-243, for an allowed query over TCP. -/
def serveAxfr (pk : Pack) (srv : Server) (n : Nat) : List (List RRset) × St :=
  if srv.frozen then ([], .fail)
  else answer (axfrStep pk srv.soaRr) n (axfrInit srv.trees)

/-- ixfr_process_query(), src/knot/nameserver/ixfr.c:280-350, for an allowed query over TCP with an SOA of
serial `from'`. -/
def serveIxfr (serialOf : Bytes → Nat) (pk : Pack) (srv : Server) (from' n : Nat) : Res (List (List RRset) × St) := do
  let p ← ixfrPlan serialOf srv from'
  match p with
  | .refuse => .ok ([], .fail)
  | .soaOnly =>
    match pktPut pk [] srv.soaRr with
    | some m => .ok ([m], .done)
    | none => .ok ([], .fail)
  | .axfr => .ok (serveAxfr pk srv n)
  | .ixfr s => .ok (answer (ixfrStep serialOf pk srv.soaRr) n ⟨0, [()], s⟩)

/-! ## On the way -/

/-- The original TTL of an RRSIG, knot_rrsig_original_ttl(), src/libknot/rrtype/rrsig.h:51-56. -/
def origTtl (rd : Bytes) : Nat :=
  ((rd.drop 4).take 4).foldl (fun n b => n * 256 + b.toNat) 0

/-- What becomes of an RRset in a message: single records, each with the TTL; signatures get the TTL of
what they sign (KNOT_PF_ORIGTTL, src/libknot/packet/rrset-wire.c:340-342). -/
def split (rr : RRset) : List RRset :=
  rr.2.data.map fun x => (rr.1, ⟨if rr.1.type = rrsig then origTtl x else rr.2.ttl, [x]⟩)

/-! ## The client -/

/-- A message: the (extended) RCODE, the answer section, whether EDNS EXPIRE tells that the server's zone
is expired (`expire_timer < 2`), and whether messages up to here are without TSIG though it is
needed (tsig_unsigned_count()). -/
structure Msg where
  rcode : Nat
  answer : List RRset
  expired : Bool
  unsigned : Bool

/-- `enum xfr_type`, src/knot/events/handlers/refresh.c:96-103. -/
inductive XType where
  | notimp | error | undetermined | uptodate | axfr | ixfr
  deriving DecidableEq, Repr

/-- `enum ixfr_state`, src/knot/nameserver/ixfr.h:25-33. -/
inductive IxState where
  | start | soaDel | del | soaAdd | add | done
  deriving DecidableEq, Repr

/-- Parameters of a refresh: `size` is knot_rrset_size(), `check` says whether semantic checks and ZONEMD
accept contents, `commit` whether they can be stored. -/
structure Conf where
  apex : Name
  zone : Option Contents
  serialOf : Bytes → Nat
  size : RRset → Nat
  maxSize : Nat
  strict : Bool
  check : Contents → Bool
  commit : Contents → Bool

/-- `struct refresh_data`, src/knot/events/handlers/refresh.c:105-145; `published` stands for the zone
contents put in place. -/
structure Data where
  ret : Option Err
  xfr : XType
  fallbackAxfr : Bool
  byOne : Bool
  axfrStyle : Bool
  initialSoa : Option RRset
  changeSize : Nat
  axfrZone : Option Contents
  proc : Option IxState
  finalSoa : Option RRset
  chs : List Ch
  published : Option Contents

/-- knot_dname_in_bailiwick() ≥ 0, src/libknot/dname.c:794-810 (see C05_in_bailiwick). -/
def inZone (c : Conf) (rr : RRset) : Bool := c.apex.isSuffixOf rr.1.owner

/-- knot_rrset_equal() with TTL, src/libknot/rrset.c:109-124. -/
def rrEqual (a b : RRset) : Bool :=
  decide (a.1.type = b.1.type ∧ a.2.ttl = b.2.ttl ∧ a.1.owner = b.1.owner ∧ a.2.data = b.2.data)

/-- serial_is_current(), src/knot/events/handlers/refresh.c:149-152. -/
def isCurrent (localSerial remoteSerial : Nat) : Res Bool := do
  let c ← Serial.serialCompare localSerial remoteSerial
  .ok (decide (c = .greater ∨ c = .equal))

/-- slave_zone_serial(), src/knot/zone/zone.c:826-838, without signing: zone_contents_serial(),
src/knot/zone/contents.c:547-559. -/
def zoneSerial (c : Conf) : Nat :=
  match c.zone with
  | none => 0
  | some z =>
    match lookup z (soaKey c.apex) with
    | some s => serial c.serialOf (soaKey c.apex, s)
    | none => 0

/-- zcreator_step(), src/knot/zone/zonefile.c:78-94, with zone_contents_add_rr(), src/knot/zone/contents.c:220-231:
records out of the zone are ignored, a TTL that differs is taken. -/
def createStep (c : Conf) (z : Contents) (rr : RRset) : Res Contents :=
  if rr.2.data.length ≠ 1 then .err .einval
  else if ¬ inZone c rr then .ok z
  else .ok (insertRR z rr)

/-- axfr_consume_rr(), src/knot/events/handlers/refresh.c:419-452. -/
def axfrConsumeRr (c : Conf) (d : Data) (rr : RRset) : Res (Data × St) :=
  match d.axfrZone with
  | none => .ub
  | some z =>
    if rr.1.type = soa ∧ (lookup z (soaKey c.apex)).isSome then .ok (d, .done)
    else
      match createStep c z rr with
      | .ub => .ub
      | .err e => .ok ({ d with ret := some e }, .fail)
      | .ok z =>
        let d := { d with ret := none, axfrZone := some z, changeSize := d.changeSize + c.size rr }
        if d.changeSize > c.maxSize then .ok ({ d with ret := some .ezonesize }, .fail)
        else .ok (d, .consume)

/-- axfr_consume_packet(), src/knot/events/handlers/refresh.c:454-465. -/
def axfrConsumePacket (c : Conf) (d : Data) : List RRset → Res (Data × St)
  | [] => .ok (d, .consume)
  | rr :: t => do
    let r ← axfrConsumeRr c d rr
    if r.2 = .consume then axfrConsumePacket c r.1 t else .ok r

/-- axfr_init() and what follows, src/knot/events/handlers/refresh.c:481-495. -/
def axfrStart (d : Data) : Data :=
  match d.axfrZone with
  | none => { d with ret := none, axfrZone := some [], changeSize := 0 }
  | some _ => d

/-- The saved SOA, src/knot/events/handlers/refresh.c:497-507. -/
def axfrSaved (c : Conf) (d : Data) (reuse : Bool) : Res (Data × St) :=
  match d.initialSoa with
  | none => .ok (d, .consume)
  | some rr =>
    if reuse then do
      let r ← axfrConsumeRr c d rr
      .ok ({ r.1 with initialSoa := none }, r.2)
    else .ok ({ d with initialSoa := none }, .consume)

/-- axfr_consume(), src/knot/events/handlers/refresh.c:467-519. -/
def axfrConsume (c : Conf) (d : Data) (m : Msg) (reuse : Bool) : Res (Data × St) :=
  if m.rcode ≠ 0 then .ok ({ d with ret := some .edenied }, .fail)
  else do
    let r ← axfrSaved c (axfrStart d) reuse
    if r.2 = .consume then axfrConsumePacket c r.1 m.answer else .ok r

/-- Change the last changeset; TAIL() of an empty list is no changeset. -/
def updLast (f : Ch → Ch) : List Ch → Res (List Ch)
  | [] => .ub
  | [x] => .ok [f x]
  | x :: t => do
    let t ← updLast f t
    .ok (x :: t)

/-- ixfr_next_state(), src/knot/events/handlers/refresh.c:776-812: the state and `ixfr_by_one`. -/
def nextState (st : IxState) (final : Option RRset) (byOne : Bool) (rr : RRset) : Res (IxState × Bool) :=
  let isSoa := decide (rr.1.type = soa)
  let inAdd := decide (st = .soaAdd ∨ st = .add)
  match inAdd, final with
  | true, none => .ub
  | _, _ =>
    if inAdd ∧ final.any (rrEqual rr) then .ok (.done, false)
    else if inAdd ∧ isSoa ∧ byOne then .ok (.done, byOne)
    else
      match st with
      | .start => .ok (if final.isSome then .soaDel else .start, byOne)
      | .soaDel => .ok (if isSoa then .soaAdd else .del, byOne)
      | .soaAdd => .ok (if isSoa then .soaDel else .add, byOne)
      | .del => .ok (if isSoa then .soaAdd else .del, byOne)
      | .add => .ok (if isSoa then .soaDel else .add, byOne)
      | .done => .ub

/-- ixfr_step(), src/knot/events/handlers/refresh.c:824-845, with ixfr_solve_start() to ixfr_solve_add(),
lines 702-773. -/
def ixfrStepRr (d : Data) (rr : RRset) : Res Data :=
  match d.proc with
  | none => .ub
  | some st => do
    let (st, byOne) ← nextState st d.finalSoa d.byOne rr
    let d := { d with proc := some st, byOne := byOne }
    match st with
    | .start =>
      if d.finalSoa.isSome then .ub
      else if rr.1.type ≠ soa then .ok { d with ret := some .emalf }
      else .ok { d with ret := none, finalSoa := some rr, chs := [] }
    | .soaDel =>
      if rr.1.type ≠ soa then .ok { d with ret := some .emalf }
      else .ok { d with ret := none, chs := d.chs ++ [{ Ch.init with soaFrom := some rr }] }
    | .del => do
      let l ← updLast (fun ch => addRemoval ch rr false) d.chs
      .ok { d with ret := none, chs := l }
    | .soaAdd =>
      if rr.1.type ≠ soa then .ok { d with ret := some .emalf }
      else do
        let l ← updLast (fun ch => { ch with soaTo := some rr }) d.chs
        .ok { d with ret := none, chs := l }
    | .add => do
      let l ← updLast (fun ch => addAddition ch rr false) d.chs
      .ok { d with ret := none, chs := l }
    | .done => .ok { d with ret := none }

/-- ixfr_consume_rr(), src/knot/events/handlers/refresh.c:847-873. -/
def ixfrConsumeRr (c : Conf) (d : Data) (rr : RRset) : Res (Data × St) :=
  if ¬ inZone c rr then .ok (d, .consume)
  else do
    let d ← ixfrStepRr d rr
    if d.ret.isSome then .ok (d, .fail)
    else
      let d := { d with changeSize := d.changeSize + c.size rr }
      if d.changeSize / 2 > c.maxSize then .ok ({ d with ret := some .ezonesize }, .fail)
      else if d.proc = some .done then .ok (d, .done)
      else .ok (d, .consume)

/-- ixfr_consume_packet(), src/knot/events/handlers/refresh.c:883-892. -/
def ixfrConsumePacket (c : Conf) (d : Data) : List RRset → Res (Data × St)
  | [] => .ok (d, .consume)
  | rr :: t => do
    let r ← ixfrConsumeRr c d rr
    if r.2 = .consume then ixfrConsumePacket c r.1 t else .ok r

/-- determine_xfr_type(), src/knot/events/handlers/refresh.c:894-926. -/
def determine (c : Conf) (answer : List RRset) (zoneSerial : Nat) (initial : Option RRset) : Res XType :=
  match answer with
  | [] => .ok .notimp
  | one :: rest =>
    match initial with
    | some i =>
      if one.1.type = soa then .ok (if rrEqual i one then .axfr else .ixfr) else .ok .axfr
    | none =>
      match rest with
      | [] =>
        if one.1.type = soa then do
          let cur ← isCurrent zoneSerial (serial c.serialOf one)
          .ok (if cur then .uptodate else .undetermined)
        else .ok .error
      | two :: more =>
        if more = [] ∧ one.1.type = soa ∧ rrEqual one two then .ok .axfr
        else if one.1.type = soa ∧ two.1.type ≠ soa then .ok .axfr
        else .ok .ixfr

/-- The end of ixfr_consume(), src/knot/events/handlers/refresh.c:1016-1036. -/
def ixfrGoOn (c : Conf) (d : Data) (m : Msg) : Res (Data × St) :=
  match d.initialSoa with
  | none => ixfrConsumePacket c d m.answer
  | some rr => do
    let r ← ixfrConsumeRr c d rr
    let d := { r.1 with initialSoa := none }
    if r.2 = .consume then ixfrConsumePacket c d m.answer else .ok (d, r.2)

/-- ixfr_consume(), src/knot/events/handlers/refresh.c:928-1037. -/
def ixfrConsume (c : Conf) (d : Data) (m : Msg) : Res (Data × St) :=
  if m.rcode ≠ 0 then .ok ({ d with ret := some .edenied }, .fail)
  else
    match d.proc with
    | some _ => ixfrGoOn c d m
    | none => do
      let t ← determine c m.answer (zoneSerial c) d.initialSoa
      let d := { d with ret := none, xfr := t }
      match t with
      | .error => .ok ({ d with ret := some .emalf, xfr := .ixfr }, .fail)
      | .notimp => .ok ({ d with ret := some .enotsup, xfr := .ixfr }, .fail)
      | .undetermined => .ok ({ d with initialSoa := m.answer.head? }, .consume)
      | .axfr => axfrConsume c { d with axfrStyle := true } m true
      | .uptodate => .ok (d, .done)
      | .ixfr => ixfrGoOn c { d with proc := some .start, finalSoa := none, chs := [], changeSize := 0 } m

/-- The changesets of an IXFR, one after another: ixfr_finalize(), src/knot/events/handlers/refresh.c:630-642.
When one cannot be applied its serials are read. -/
def applyAll (u : Update) : List Ch → Res Update
  | [] => .ok u
  | ch :: t =>
    match u.applyChangeset ch with
    | .ok u => applyAll u t
    | .err e => if ch.soaFrom.isSome ∧ ch.soaTo.isSome then .err e else .ub
    | .ub => .ub

/-- ixfr_finalize(), src/knot/events/handlers/refresh.c:601-700, without signing; zone_contents of the zone
are there (IXFR is asked for only then). -/
def ixfrFinalize (c : Conf) (d : Data) : Res Data :=
  match c.zone with
  | none => .ub
  | some z =>
    match Update.init c.apex c.strict z with
    | .ub => .ub
    | .err e => .ok { d with ret := some e, fallbackAxfr := false }
    | .ok u =>
      match applyAll u d.chs with
      | .ub => .ub
      | .err e => .ok { d with ret := some e }
      | .ok u =>
        if ¬ c.check u.zone then .ok { d with ret := some .esemcheck, fallbackAxfr := false }
        else if ¬ c.commit u.zone then .ok { d with ret := some .error }
        else .ok { d with ret := none, published := some u.zone }

/-- axfr_finalize(), src/knot/events/handlers/refresh.c:338-417, without signing. -/
def axfrFinalize (c : Conf) (d : Data) : Res Data :=
  match d.axfrZone with
  | none => .ub
  | some z =>
    let d := { d with axfrZone := none }
    if ¬ c.check z then .ok { d with ret := some .esemcheck }
    else if ¬ c.commit z then .ok { d with ret := some .error }
    else .ok { d with ret := none, published := some z }

/-- The end of transfer_consume(), src/knot/events/handlers/refresh.c:1200-1259: with DONE. -/
def transferDone (c : Conf) (d : Data) (m : Msg) : Res (Data × St) :=
  if d.xfr = .ixfr ∧ d.finalSoa = none then .ub
  else if m.unsigned then .ok ({ d with ret := some .emalf }, .fail)
  else
    match d.xfr with
    | .ixfr => do
      let d ← ixfrFinalize c d
      .ok (d, if d.ret.isSome then .fail else .done)
    | .axfr => do
      let d ← axfrFinalize c d
      .ok (d, if d.ret.isSome then .fail else .done)
    | _ => .ok (d, .done)

/-- transfer_consume(), src/knot/events/handlers/refresh.c:1184-1260. -/
def transferConsume (c : Conf) (d : Data) (m : Msg) : Res (Data × St) :=
  if m.expired then .ok (d, .ignore)
  else do
    let d := { d with fallbackAxfr := decide (d.xfr = .ixfr) }
    let r ← (if d.xfr = .axfr then axfrConsume c d m false else ixfrConsume c d m)
    if r.2 = .done then transferDone c r.1 m else .ok r

/-- refresh_finish(), src/knot/events/handlers/refresh.c:1316-1326. -/
def finish (d : Data) : Data :=
  match d.proc with
  | none => { d with axfrZone := none }
  | some _ => { d with axfrZone := none, proc := none, finalSoa := none, chs := [] }

/-- What comes from the network in request_consume(), src/knot/query/requestor.c:427-461: a message, something
that is refused there (malformed, wrong ID, truncated, bad TSIG), or nothing (with an I/O error). -/
inductive Event where
  | msg (m : Msg)
  | bad (e : Err)
  | io (e : Err)

/-- knot_requestor_exec(), src/knot/query/requestor.c:490-531, after the query is sent: the outcome and
KNOT_REQUESTOR_IOFAIL. -/
def exec (c : Conf) (d : Data) : List Event → Res (Data × Option Err × Bool)
  | [] => .ok (finish d, some .etimeout, true)
  | .io e :: _ => .ok (finish d, some e, true)
  | .bad e :: _ => .ok (finish d, some e, false)
  | .msg m :: es => do
    let r ← transferConsume c d m
    match r.2 with
    | .consume => exec c r.1 es
    | .done => .ok (finish r.1, none, false)
    | .ignore => .ok (finish r.1, some .error, false)
    | _ => .ok (finish r.1, some .eprocessing, false)

/-- The start of a transfer, try_refresh(), src/knot/events/handlers/refresh.c:1373-1385, and refresh_begin(),
lines 1262-1281. -/
def Data.init (ixfr byOne : Bool) : Data :=
  ⟨none, if ixfr then .ixfr else .axfr, false, byOne, false, none, 0, none, none, none, [], none⟩

/-- The loop in try_refresh(), src/knot/events/handlers/refresh.c:1410-1423: the data, whether AXFR was asked
for after a failure, and the outcome. -/
def tryRefresh (c : Conf) (d : Data) (evs evs2 : List Event) : Res (Data × Bool × Option Err) := do
  let (d, ret, io) ← exec c d evs
  let ret := d.ret <|> ret
  if ¬ io ∧ d.fallbackAxfr ∧ ret.isSome then do
    let (d, ret, _) ← exec c { d with ret := none, xfr := .axfr, fallbackAxfr := false } evs2
    .ok (d, true, d.ret <|> ret)
  else .ok (d, false, ret)

/-- soa_query_consume(), src/knot/events/handlers/refresh.c:1082-1146, without master pinning: whether to go on
with a transfer. -/
def soaQueryConsume (c : Conf) (soft : Bool) (m : Msg) : Res (St × Option XType) :=
  if m.rcode ≠ 0 then .ok (.fail, none)
  else
    match m.answer with
    | [rr] =>
      if rr.1.type ≠ soa ∨ rr.2.data.length ≠ 1 then .ok (if soft then (.reset, some .axfr) else (.fail, none))
      else do
        let cur ← isCurrent (zoneSerial c) (serial c.serialOf rr)
        .ok (if cur then (.done, none) else (.reset, some .ixfr))
    | _ => .ok (if soft then (.reset, some .axfr) else (.fail, none))

end Knot.Xfr
