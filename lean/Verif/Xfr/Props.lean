import Verif.Xfr.Lemmas11
/-! # Theorems about zone transfers -/
namespace Knot
open Xfr
open Dname (Name)
open Changeset (Bytes Ch Contents RRset Wf Same lookup soaKey)

/-! ## The server -/

/-- An AXFR that the server ends with success is, over all its messages, the SOA, every other RRset of the zone
in order, and the SOA; no message is empty. -/
theorem C46_axfr_answer {pk : Pack} {srv : Server} {n : Nat} {ms : List (List RRset)} (hs : pk.fits [] srv.soaRr = true)
    (h : serveAxfr pk srv n = (ms, .done)) :
    ms.flatten = srv.soaRr :: (notSoa srv.trees.contents ++ [srv.soaRr]) ∧ ∀ m ∈ ms, m ≠ [] :=
  serveAxfr_spec hs h

/-- It does end so when the zone is not frozen and every RRset fits in an empty message. -/
theorem C46_axfr_answer_ends {pk : Pack} {srv : Server} {n : Nat} (hf : srv.frozen = false)
    (hs : ∀ rr ∈ srv.soaRr :: notSoa srv.trees.contents, pk.fits [] rr = true)
    (hn : (notSoa srv.trees.contents).length + 2 < n) : ∃ ms, serveAxfr pk srv n = (ms, .done) :=
  serveAxfr_done hf hs hn

/-- What an IXFR query gets: nothing from a frozen zone; the whole zone where IXFR is off or the journal does not reach back;
the SOA alone when the client has the zone or a newer one; otherwise differences. -/
theorem C46_ixfr_plan (serialOf : Bytes → Nat) (pk : Pack) (srv : Server) (from' n : Nat) :
    (srv.frozen = true → serveIxfr serialOf pk srv from' n = .ok ([], .fail)) ∧
    (srv.frozen = false → srv.provideIxfr = false → serveIxfr serialOf pk srv from' n = .ok (serveAxfr pk srv n)) ∧
    (srv.frozen = false → srv.provideIxfr = true →
      (∀ x, Serial.serialCompare (serial serialOf srv.soaRr) from' = .ok x →
        ((x = .lower ∨ x = .equal) → pk.fits [] srv.soaRr = true → serveIxfr serialOf pk srv from' n = .ok ([[srv.soaRr]], .done)) ∧
        (¬ (x = .lower ∨ x = .equal) → (∀ l b, srv.journal from' ≠ .rrs l b) →
          serveIxfr serialOf pk srv from' n = .ok (serveAxfr pk srv n)))) := by
  refine ⟨fun h => by simp [serveIxfr, ixfrPlan, h], fun h1 h2 => by simp [serveIxfr, ixfrPlan, h1, h2], fun h1 h2 x hx => ⟨fun h hs => ?_, fun h hj => ?_⟩⟩
  · simp [serveIxfr, ixfrPlan, h1, h2, hx, h, pktPut, hs]
  · unfold serveIxfr ixfrPlan
    rw [if_neg (by simp [h1]), if_neg (by simp [h2]), hx]
    simp only [Res.bind_ok, if_neg h]
    cases hr : srv.journal from' with
    | none => rfl
    | range => rfl
    | rrs l b => exact absurd hr (hj l b)

/-- An IXFR with differences that the server ends with success is the SOA of the zone, the differences up to the serial of the zone,
and the SOA; the last difference leads to that serial. -/
theorem C46_ixfr_answer {serialOf : Bytes → Nat} {pk : Pack} {srv : Server} {from' n : Nat} {stream : List RRset} {broken : Bool}
    (hb : pk.big [] = false) (hs : pk.fits [] srv.soaRr = true)
    (hf : srv.frozen = false) (hp : srv.provideIxfr = true) (hj : srv.journal from' = .rrs stream broken)
    (hc : ∀ x, Serial.serialCompare (serial serialOf srv.soaRr) from' = .ok x → x ≠ .lower ∧ x ≠ .equal)
    {ms : List (List RRset)} (h : serveIxfr serialOf pk srv from' n = .ok (ms, .done)) :
    ms.flatten = srv.soaRr :: (cut serialOf (serial serialOf srv.soaRr) false stream ++ [srv.soaRr]) ∧ (∀ m ∈ ms, m ≠ []) ∧
      lastSerial serialOf (serial serialOf srv.soaRr) false stream from' = serial serialOf srv.soaRr := by
  rw [serveIxfr_ixfr hf hp hj hc] at h
  exact ixfr_answer hb hs (Res.ok.inj h)

/-- It does end so when the journal can be read, its differences lead to the serial of the zone, and every RRset fits in an
empty message. -/
theorem C46_ixfr_answer_ends {serialOf : Bytes → Nat} {pk : Pack} {srv : Server} {from' n : Nat} {stream : List RRset}
    (hb : pk.big [] = false)
    (hs : ∀ rr ∈ srv.soaRr :: cut serialOf (serial serialOf srv.soaRr) false stream, pk.fits [] rr = true)
    (hf : srv.frozen = false) (hp : srv.provideIxfr = true) (hj : srv.journal from' = .rrs stream false)
    (hc : ∀ x, Serial.serialCompare (serial serialOf srv.soaRr) from' = .ok x → x ≠ .lower ∧ x ≠ .equal)
    (hl : lastSerial serialOf (serial serialOf srv.soaRr) false stream from' = serial serialOf srv.soaRr)
    (hn : (cut serialOf (serial serialOf srv.soaRr) false stream).length + 2 < n) :
    ∃ ms, serveIxfr serialOf pk srv from' n = .ok (ms, .done) := by
  obtain ⟨ms, h⟩ := ixfr_answer_done (n := n) hb hs hl hn
  exact ⟨ms, by rw [serveIxfr_ixfr hf hp hj hc, h]⟩

/-! ## The client -/

/-- Whatever comes as the answer to an AXFR query: the zone is replaced exactly when the messages bring contents
(`AxfrBrings`), then by these, and this is the only success. -/
theorem C46_axfr_client (c : Conf) (byOne : Bool) (evs : List Event) (he : ∀ e ∈ evs, e.Single) :
    ∃ d o io, exec c (Data.init false byOne) evs = .ok (d, o, io) ∧ (∀ z, d.published = some z ↔ AxfrBrings c evs z) ∧
      (o = none ↔ d.published.isSome) := by
  obtain ⟨d, o, io, h1, h2, h3, _⟩ := axfr_exec (c := c) he (s := ([], 0)) (d := Data.init false byOne) (.inr ⟨rfl, rfl, rfl, rfl⟩)
  exact ⟨d, o, io, h1, fun z => (h2 z).trans (got_axfr he), h3⟩

/-- What an AXFR brings are the records in front of the closing SOA that belong in the zone, each once. -/
theorem C46_axfr_zone {c : Conf} {evs : List Event} {z : Contents} (he : ∀ e ∈ evs, e.Single) (h : AxfrBrings c evs z) :
    ∃ (ms : List Msg) (m : Msg) (rest : List Event) (pre : List RRset) (e : RRset) (post : List RRset),
      evs = ms.map .msg ++ .msg m :: rest ∧ ms.flatMap (·.answer) ++ m.answer = pre ++ e :: post ∧ e.1.type = Changeset.soa ∧
      (∃ s ∈ pre, s.1 = soaKey c.apex) ∧ Zone (pre.filter (fun rr => c.apex.isSuffixOf rr.1.owner)) z := by
  obtain ⟨ms, m, rest, pre, e, post, e1, _, _, _, e2, _, e3, ⟨a, s, b, e4, e5, _⟩, _, e6, _⟩ := h
  refine ⟨ms, m, rest, pre, e, post, e1, e2, e3, ⟨s, by rw [e4]; simp, e5⟩, ?_⟩
  rw [e6]
  refine zoneOf_zone (fun rr hr => ?_)
  have hr := (List.mem_filter.mp hr).1
  have hr : rr ∈ ms.flatMap (·.answer) ++ m.answer := by rw [e2]; simp [hr]
  rcases List.mem_append.mp hr with hr | hr
  · obtain ⟨x, hx, hr⟩ := List.mem_flatMap.mp hr
    exact he (.msg x) (by rw [e1]; simp [hx]) rr hr
  · exact he (.msg m) (by rw [e1]; simp) rr hr

/-- Whatever comes as the answer to an IXFR query: nothing is undefined; the zone is replaced exactly when the answer has the
form of an AXFR and brings contents as one, or that of an IXFR and brings contents as one. -/
theorem C46_ixfr_client {c : Conf} {z0 : Contents} (hz : c.zone = some z0) (w : Wf z0) (byOne : Bool) (evs : List Event)
    (he : ∀ e ∈ evs, e.Single) :
    ∃ d o io, exec c (Data.init true byOne) evs = .ok (d, o, io) ∧ (∀ z, d.published = some z ↔ Brings c byOne evs z) ∧
      (o = none ↔ d.published.isSome ∨ UpToDate c evs) := by
  obtain ⟨d, o, io, h1, h2, h3, _⟩ := ixfr_client (byOne := byOne) hz w he
  exact ⟨d, o, io, h1, h2, h3⟩

/-- IXFR with AXFR after it when it fails: the zone is replaced by what the first answer brings, or, asked again, the second. -/
theorem C46_refresh {c : Conf} {z0 : Contents} (hz : c.zone = some z0) (w : Wf z0) (byOne : Bool) (evs evs2 : List Event)
    (he : ∀ e ∈ evs, e.Single) (he2 : ∀ e ∈ evs2, e.Single) :
    ∃ d again r, tryRefresh c (Data.init true byOne) evs evs2 = .ok (d, again, r) ∧
      (∀ z, d.published = some z ↔ Brings c byOne evs z ∨ (again = true ∧ AxfrBrings c evs2 z)) ∧
      (again = true → (∀ z, ¬ Brings c byOne evs z) ∧ ¬ UpToDate c evs) ∧
      (r = none ↔ d.published.isSome ∨ (again = false ∧ UpToDate c evs)) :=
  tryRefresh_spec hz w he he2

/-- However a transfer ends, nothing of what it has gathered is left for the next one. -/
theorem C46_nothing_left (c : Conf) (d d' : Data) (evs : List Event) (o : Option Err) (io : Bool)
    (h : exec c d evs = .ok (d', o, io)) : d'.axfrZone = none ∧ d'.proc = none := by
  have fin : ∀ x : Data, (finish x).axfrZone = none ∧ (finish x).proc = none := by
    intro x
    unfold finish
    cases hp : x.proc with
    | none => exact ⟨rfl, rfl⟩
    | some _ => exact ⟨rfl, rfl⟩
  induction evs generalizing d with
  | nil =>
    simp only [exec, Res.ok.injEq, Prod.mk.injEq] at h
    rw [← h.1]; exact fin d
  | cons e es ih =>
    cases e with
    | io x =>
      simp only [exec, Res.ok.injEq, Prod.mk.injEq] at h
      rw [← h.1]; exact fin d
    | bad x =>
      simp only [exec, Res.ok.injEq, Prod.mk.injEq] at h
      rw [← h.1]; exact fin d
    | msg m =>
      simp only [exec] at h
      cases hr : transferConsume c d m with
      | err x => simp [hr] at h
      | ub => simp [hr] at h
      | ok r =>
        simp only [hr, Res.bind_ok] at h
        split at h
        · exact ih _ h
        · simp only [Res.ok.injEq, Prod.mk.injEq] at h; rw [← h.1]; exact fin _
        · simp only [Res.ok.injEq, Prod.mk.injEq] at h; rw [← h.1]; exact fin _
        · simp only [Res.ok.injEq, Prod.mk.injEq] at h; rw [← h.1]; exact fin _

/-! ## Both -/

/-- AXFR from server to client: the client has the zone of the server. -/
theorem C46_axfr_transfer {pk : Pack} {srv : Server} {c : Conf} {byOne : Bool} {n : Nat} (hf : srv.frozen = false)
    (hz : ZoneOk c.apex srv.trees.contents srv.soaRr)
    (hs : ∀ rr ∈ srv.soaRr :: notSoa srv.trees.contents, pk.fits [] rr = true)
    (hn : (notSoa srv.trees.contents).length + 2 < n)
    (hsz : total c ((srv.soaRr :: notSoa srv.trees.contents).flatMap split) ≤ c.maxSize)
    (hok : ∀ y, Same y srv.trees.contents → c.check y = true ∧ c.commit y = true) :
    ∃ ms, serveAxfr pk srv n = (ms, .done) ∧ ∃ d io z, exec c (Data.init false byOne) (ms.map wire) = .ok (d, none, io) ∧
      d.published = some z ∧ Same z srv.trees.contents := by
  obtain ⟨ms, hm⟩ := C46_axfr_answer_ends hf hs hn
  obtain ⟨h1, h2⟩ := C46_axfr_answer (hs _ (by simp)) hm
  obtain ⟨y, hy, hb⟩ := axfr_brings hz h1 hsz hok
  obtain ⟨d, o, io, k1, k2, k3⟩ := C46_axfr_client c byOne (ms.map wire) (wire_single (fun rr hr => axfr_keys hz h1 rr hr))
  have := (k2 y).mpr hb
  have ho : o = none := k3.mpr (by rw [this]; rfl)
  exact ⟨ms, hm, d, io, y, by rw [k1, ho], this, hy⟩

/-- An AXFR that ends before its last message brings nothing. -/
theorem C46_axfr_cut {srv : Server} {pk : Pack} {c : Conf} {byOne : Bool} {n : Nat} {ms rest : List (List RRset)}
    (hz : ZoneOk c.apex srv.trees.contents srv.soaRr) (hs : pk.fits [] srv.soaRr = true)
    (h : serveAxfr pk srv n = (ms ++ rest, .done)) (hr : rest ≠ []) (e : Err) :
    ∃ d o io, exec c (Data.init false byOne) (ms.map wire ++ [.io e]) = .ok (d, some o, io) ∧ d.published = none := by
  obtain ⟨h1, h2⟩ := C46_axfr_answer hs h
  have hk := axfr_keys hz h1
  obtain ⟨d, o, io, k1, k2, k3⟩ := C46_axfr_client c byOne (ms.map wire ++ [.io e]) (by
    intro ev he
    rcases List.mem_append.mp he with he | he
    · exact wire_single (fun rr hr => hk rr (by simp only [List.flatten_append, List.mem_append]; exact .inl hr)) ev he
    · simp only [List.mem_cons, List.not_mem_nil, or_false] at he
      rw [he]; exact True.intro)
  have hp : d.published = none := by
    cases hp : d.published with
    | none => rfl
    | some y => exact absurd ((k2 y).mp hp) (axfr_cut hz h1 hr (fun m hm => h2 m (by simp [hm])) (by simp) y)
  rw [hp] at k3
  cases o with
  | none => simp at k3
  | some o => exact ⟨d, o, io, k1, hp⟩

/-- IXFR from server to client: the client has `y`, which is `z`; the journal of the server leads from `z` to `z'`, which is the
zone of the server, and maybe further. Afterwards the client has `z'`. -/
theorem C46_ixfr_transfer {pk : Pack} {srv : Server} {c : Conf} {n : Nat} {y z z' : Contents} {chs later : List Ch}
    (hf : srv.frozen = false) (hp : srv.provideIxfr = true) (hb : pk.big [] = false)
    (hk : srv.soaRr.1 = soaKey c.apex) (hone : srv.soaRr.2.data.length = 1)
    (hy : c.zone = some y) (wy : Wf y) (hyz : Same y z) (wz : Wf z) (hzs : (lookup z (soaKey c.apex)).isSome)
    (hh : History c.apex z chs z') (hne : chs ≠ [])
    (hj : srv.journal (zoneSerial c) = .rrs (flat (chs ++ later)) false)
    (hfrom : ∀ ch ∈ chs, ¬ StartsAt c.serialOf ch (serial c.serialOf srv.soaRr))
    (hlast : ∀ b, chs.getLast?.bind (·.soaTo) = some b → serial c.serialOf b = serial c.serialOf srv.soaRr)
    (hlater : ∀ ch, later.head? = some ch → StartsAt c.serialOf ch (serial c.serialOf srv.soaRr))
    (hnew : newer c srv.soaRr = true) (hr1 : serial c.serialOf srv.soaRr < 4294967296) (hr2 : zoneSerial c < 4294967296)
    (hs : ∀ rr ∈ srv.soaRr :: flat chs, pk.fits [] rr = true) (hn : (flat chs).length + 2 < n)
    (hsz : total c ((srv.soaRr :: (flat chs ++ [srv.soaRr])).flatMap split) / 2 ≤ c.maxSize)
    (hok : ∀ x, Same x z' → c.check x = true ∧ c.commit x = true) :
    ∃ ms, serveIxfr c.serialOf pk srv (zoneSerial c) n = .ok (ms, .done) ∧ ∃ d io x,
      exec c (Data.init true false) (ms.map wire) = .ok (d, none, io) ∧ d.published = some x ∧ Same x z' := by
  have := ixfr_run (byOne := false) (more := []) (later := later) hf hp hb hk hone hy wy hyz wz hzs hh .nil hne rfl (by simpa using hj)
    (by simpa using hfrom) (by simpa using hlast) hlater hnew hr1 hr2 (by simpa using hs) (by simpa using hn) (by simpa using hsz) hok
  exact this

/-- The same for a client that takes one difference at a time: it has the zone after the first one. -/
theorem C46_ixfr_transfer_by_one {pk : Pack} {srv : Server} {c : Conf} {n : Nat} {y z z1 z' : Contents} {ch : Ch} {more later : List Ch}
    (hf : srv.frozen = false) (hp : srv.provideIxfr = true) (hb : pk.big [] = false)
    (hk : srv.soaRr.1 = soaKey c.apex) (hone : srv.soaRr.2.data.length = 1)
    (hy : c.zone = some y) (wy : Wf y) (hyz : Same y z) (wz : Wf z) (hzs : (lookup z (soaKey c.apex)).isSome)
    (hh : History c.apex z [ch] z1) (hh2 : History c.apex z1 more z')
    (hj : srv.journal (zoneSerial c) = .rrs (flat (ch :: more ++ later)) false)
    (hfrom : ∀ x ∈ ch :: more, ¬ StartsAt c.serialOf x (serial c.serialOf srv.soaRr))
    (hlast : ∀ b, (ch :: more).getLast?.bind (·.soaTo) = some b → serial c.serialOf b = serial c.serialOf srv.soaRr)
    (hlater : ∀ x, later.head? = some x → StartsAt c.serialOf x (serial c.serialOf srv.soaRr))
    (hnew : newer c srv.soaRr = true) (hr1 : serial c.serialOf srv.soaRr < 4294967296) (hr2 : zoneSerial c < 4294967296)
    (hs : ∀ rr ∈ srv.soaRr :: flat (ch :: more), pk.fits [] rr = true) (hn : (flat (ch :: more)).length + 2 < n)
    (hsz : total c ((srv.soaRr :: (flat (ch :: more) ++ [srv.soaRr])).flatMap split) / 2 ≤ c.maxSize)
    (hok : ∀ x, Same x z1 → c.check x = true ∧ c.commit x = true) :
    ∃ ms, serveIxfr c.serialOf pk srv (zoneSerial c) n = .ok (ms, .done) ∧ ∃ d io x,
      exec c (Data.init true true) (ms.map wire) = .ok (d, none, io) ∧ d.published = some x ∧ Same x z1 :=
  ixfr_run (byOne := true) (chs := [ch]) hf hp hb hk hone hy wy hyz wz hzs hh hh2 (by simp) rfl hj hfrom hlast hlater hnew hr1 hr2
    hs hn hsz hok

/-- IXFR answered with the whole zone: the client has the zone of the server. -/
theorem C46_ixfr_by_axfr {pk : Pack} {srv : Server} {c : Conf} {byOne : Bool} {n : Nat} {y : Contents}
    (hf : srv.frozen = false) (hj : srv.provideIxfr = false ∨ ∀ l b, srv.journal (zoneSerial c) ≠ .rrs l b)
    (hz : ZoneOk c.apex srv.trees.contents srv.soaRr) (hy : c.zone = some y) (wy : Wf y)
    (hnew : newer c srv.soaRr = true) (hr1 : serial c.serialOf srv.soaRr < 4294967296) (hr2 : zoneSerial c < 4294967296)
    (hs : ∀ rr ∈ srv.soaRr :: notSoa srv.trees.contents, pk.fits [] rr = true)
    (hn : (notSoa srv.trees.contents).length + 2 < n)
    (hsz : total c ((srv.soaRr :: notSoa srv.trees.contents).flatMap split) ≤ c.maxSize)
    (hok : ∀ y, Same y srv.trees.contents → c.check y = true ∧ c.commit y = true) :
    ∃ ms, serveIxfr c.serialOf pk srv (zoneSerial c) n = .ok (ms, .done) ∧ ∃ d io x,
      exec c (Data.init true byOne) (ms.map wire) = .ok (d, none, io) ∧ d.published = some x ∧ Same x srv.trees.contents :=
  axfr_style_run hf hj hz hy wy hnew hr1 hr2 hs hn hsz hok

/-! ## A zone for examples -/

namespace Xfr.Ex

def apex : Name := [[97]]
def soaN (n : UInt8) : RRset := (soaKey apex, ⟨3600, [[n]]⟩)
def ns : Changeset.Key := ⟨false, [[97]], 2⟩
def www : Changeset.Key := ⟨false, [[119], [97]], 1⟩
/-- The zone of the client. -/
def old : Contents := [soaN 1, (ns, ⟨300, [[7]]⟩), (www, ⟨300, [[10], [11]]⟩)]
/-- One record removed, one added. -/
def ch : Ch := ⟨[(www, ⟨300, [[12]]⟩)], [(www, ⟨300, [[10]]⟩)], some (soaN 1), some (soaN 2)⟩
def ch2 : Ch := ⟨[(ns, ⟨300, [[8]]⟩)], [], some (soaN 2), some (soaN 3)⟩
/-- The zones after the first and after both. -/
def mid : Contents := [(ns, ⟨300, [[7]]⟩), (www, ⟨300, [[11], [12]]⟩), soaN 2]
def new : Contents := [(ns, ⟨300, [[7], [8]]⟩), (www, ⟨300, [[11], [12]]⟩), soaN 3]
def serialOf (b : Bytes) : Nat := (b.headD 0).toNat
/-- Two RRsets in a message. -/
def pack : Pack := ⟨fun m _ => decide (m.length < 2), fun _ => false⟩
def server : Server := ⟨apex, ⟨[[soaN 3, (ns, ⟨300, [[7], [8]]⟩)], [(www, ⟨300, [[11], [12]]⟩)]], []⟩, soaN 3, true, false,
  fun n => if n = 1 then .rrs (flat [ch, ch2]) false else .none⟩
def conf : Conf := ⟨apex, some old, serialOf, fun _ => 10, 10000, true, fun _ => true, fun _ => true⟩
def msg (l : List RRset) : Event := .msg ⟨0, l, false, false⟩

theorem history1 : History apex old [ch] mid := by
  refine .cons (z' := mid) (a := soaN 1) (b := soaN 2) (u0 := ⟨apex, true, old, ⟨[], [], some (soaN 1), none⟩⟩)
    (u := ⟨apex, true, mid, ⟨[(www, ⟨300, [[12]]⟩)], [(www, ⟨300, [[10]]⟩)], some (soaN 1), some (soaN 2)⟩⟩)
    ⟨by decide +kernel, by decide +kernel, by decide, by decide, ?_, ?_⟩ ⟨?_, ?_⟩ rfl rfl rfl rfl (by decide) rfl rfl .nil
  · intro rr h
    rw [← Option.some.inj h]
    exact ⟨rfl, by decide +kernel⟩
  · intro rr h
    rw [← Option.some.inj h]
    exact ⟨rfl, by decide +kernel⟩
  · intro rr hr d hd
    simp only [ch, List.mem_cons, List.not_mem_nil, or_false] at hr
    subst hr
    rw [show lookup old www = some ⟨300, [[10], [11]]⟩ from rfl] at hd
    rw [← Option.some.inj hd]
    exact .inr rfl
  · intro rr hr d hd
    simp only [ch, List.mem_cons, List.not_mem_nil, or_false] at hr
    subst hr
    rw [show lookup old www = some ⟨300, [[10], [11]]⟩ from rfl] at hd
    rw [← Option.some.inj hd]
    exact fun _ => .inr rfl

theorem history2 : History apex mid [ch2] new := by
  refine .cons (z' := new) (a := soaN 2) (b := soaN 3) (u0 := ⟨apex, true, mid, ⟨[], [], some (soaN 2), none⟩⟩)
    (u := ⟨apex, true, new, ⟨[(ns, ⟨300, [[8]]⟩)], [], some (soaN 2), some (soaN 3)⟩⟩)
    ⟨by decide +kernel, by decide +kernel, by decide, by decide, ?_, ?_⟩ ⟨?_, ?_⟩ rfl rfl rfl rfl (by decide) rfl rfl .nil
  · intro rr h
    rw [← Option.some.inj h]
    exact ⟨rfl, by decide +kernel⟩
  · intro rr h
    rw [← Option.some.inj h]
    exact ⟨rfl, by decide +kernel⟩
  · intro rr hr
    simp [ch2] at hr
  · intro rr hr d hd
    simp only [ch2, List.mem_cons, List.not_mem_nil, or_false] at hr
    subst hr
    rw [show lookup mid ns = some ⟨300, [[7]]⟩ from rfl] at hd
    rw [← Option.some.inj hd]
    exact fun _ => .inr rfl

theorem same_refl (z : Contents) : Same z z := by
  intro k
  cases lookup z k with
  | none => exact True.intro
  | some d => exact ⟨rfl, .inr rfl⟩

theorem starts : ∀ x ∈ [ch, ch2], ¬ StartsAt serialOf x 3 := by
  intro x hx
  simp only [List.mem_cons, List.not_mem_nil, or_false] at hx
  rintro ⟨a, h1, _, h3⟩
  rcases hx with e | e
  · subst e
    rw [← Option.some.inj (show some (soaN 1) = some a from h1)] at h3
    exact absurd h3 (by decide)
  · subst e
    rw [← Option.some.inj (show some (soaN 2) = some a from h1)] at h3
    exact absurd h3 (by decide)

theorem zone_ok : ZoneOk apex server.trees.contents server.soaRr :=
  ⟨by decide +kernel, by decide, rfl, rfl, by decide, by decide⟩

end Xfr.Ex

open Xfr.Ex in
/-- AXFR in two messages. -/
example : ∃ ms, serveAxfr pack server 20 = (ms, .done) ∧ ∃ d io z, exec conf (Data.init false false) (ms.map wire) = .ok (d, none, io) ∧
    d.published = some z ∧ Same z server.trees.contents :=
  C46_axfr_transfer rfl zone_ok (by decide) (by decide) (by decide) (fun _ _ => ⟨rfl, rfl⟩)

open Xfr.Ex in
/-- The first of the two messages and a closed connection. -/
example : ∃ d o io, exec conf (Data.init false false)
      ([[soaN 3, (ns, ⟨300, [[7], [8]]⟩)]].map wire ++ [.io .etimeout]) = .ok (d, some o, io) ∧ d.published = none :=
  C46_axfr_cut (rest := [[(www, ⟨300, [[11], [12]]⟩), soaN 3]]) zone_ok rfl (by decide +kernel : serveAxfr pack server 20 = _) (by simp) .etimeout

open Xfr.Ex in
/-- IXFR of both changes. -/
example : ∃ ms, serveIxfr serialOf pack server 1 20 = .ok (ms, .done) ∧ ∃ d io x,
    exec conf (Data.init true false) (ms.map wire) = .ok (d, none, io) ∧ d.published = some x ∧ Same x new :=
  C46_ixfr_transfer (c := conf) (later := []) rfl rfl rfl rfl rfl rfl (by decide +kernel) (same_refl old) (by decide +kernel) rfl
    (history1.append history2) (by simp) rfl starts (by decide) (by simp) (by decide +kernel) (by decide) (by decide)
    (by decide) (by decide) (by decide) (fun _ _ => ⟨rfl, rfl⟩)

open Xfr.Ex in
/-- IXFR of the first one only. -/
example : ∃ ms, serveIxfr serialOf pack server 1 20 = .ok (ms, .done) ∧ ∃ d io x,
    exec conf (Data.init true true) (ms.map wire) = .ok (d, none, io) ∧ d.published = some x ∧ Same x mid :=
  C46_ixfr_transfer_by_one (c := conf) (later := []) rfl rfl rfl rfl rfl rfl (by decide +kernel) (same_refl old) (by decide +kernel) rfl
    history1 history2 rfl starts (by decide) (by simp) (by decide +kernel) (by decide) (by decide)
    (by decide) (by decide) (by decide) (fun _ _ => ⟨rfl, rfl⟩)

open Xfr.Ex in
/-- IXFR where the journal does not reach back. -/
example : ∃ ms, serveIxfr serialOf pack { server with journal := fun _ => .none } 1 20 = .ok (ms, .done) ∧ ∃ d io x,
    exec conf (Data.init true false) (ms.map wire) = .ok (d, none, io) ∧ d.published = some x ∧ Same x server.trees.contents :=
  C46_ixfr_by_axfr (c := conf) (srv := { server with journal := fun _ => .none }) rfl (.inr (by simp)) zone_ok rfl (by decide +kernel)
    (by decide +kernel) (by decide) (by decide) (by decide) (by decide) (by decide) (fun _ _ => ⟨rfl, rfl⟩)

/-! ## Findings -/

open Xfr.Ex in
/-- Finding. Any SOA record ends an incoming AXFR once the zone has its own, even one of another name out of the zone: `www` is
lost and the transfer counts as success. -/
theorem C46_foreign_soa :
    (exec conf (Data.init false false)
      [msg [soaN 2, (ns, ⟨300, [[7]]⟩), (⟨false, [[98]], 6⟩, ⟨3600, [[9]]⟩), (www, ⟨300, [[10]]⟩), soaN 2]]).bind
        (fun r => .ok (r.1.published, r.2.1)) = .ok (some [soaN 2, (ns, ⟨300, [[7]]⟩)], none) := by decide +kernel

open Xfr.Ex in
/-- Finding. The closing SOA is not compared with the first. -/
theorem C46_other_soa :
    (exec conf (Data.init false false) [msg [soaN 2, (ns, ⟨300, [[7]]⟩), soaN 3]]).bind
        (fun r => .ok (r.1.published, r.2.1)) = .ok (some [soaN 2, (ns, ⟨300, [[7]]⟩)], none) := by decide +kernel

open Xfr.Ex in
/-- Finding. Nothing checks that the differences of an IXFR start at the zone and lead to the announced SOA: from serial 1, offered 5, with
a difference from 3 to 4. -/
theorem C46_any_serials :
    (exec conf (Data.init true false) [msg [soaN 5, soaN 3, soaN 4, (ns, ⟨300, [[8]]⟩), soaN 5]]).bind
        (fun r => .ok (r.1.published, r.2.1)) =
      .ok (some [(ns, ⟨300, [[7], [8]]⟩), (www, ⟨300, [[10], [11]]⟩), soaN 4], none) := by decide +kernel

open Xfr.Ex in
/-- Finding. When differences that cannot be applied come in one message, AXFR is tried; when the first message has just the SOA, it
is not. -/
theorem C46_no_axfr :
    let diff := [soaN 1, (www, ⟨300, [[12]]⟩), soaN 2, soaN 2]
    let full := [msg [soaN 2, (ns, ⟨300, [[7]]⟩), soaN 2]]
    ((tryRefresh conf (Data.init true false) [msg (soaN 2 :: diff)] full).bind (fun r => .ok (r.1.published, r.2)) =
      .ok (some [soaN 2, (ns, ⟨300, [[7]]⟩)], true, none)) ∧
    ((tryRefresh conf (Data.init true false) [msg [soaN 2], msg diff] full).bind (fun r => .ok (r.1.published, r.2)) =
      .ok (none, false, some .enorecord)) := by
  intro diff full
  exact ⟨by decide +kernel, by decide +kernel⟩

end Knot
