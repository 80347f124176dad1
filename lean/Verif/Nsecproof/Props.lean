import Verif.Nsecproof.Lemmas8
import Verif.Nsecchain.Props
import Verif.Answer.Props
/-!
# C45: NSEC proofs
-/
namespace Knot
open Nsecproof
open Answer (Zone Req Resp Rec State Link Path Lookup Owns Source Wild Regular answer Encloser Cut Deleg Auth)
open Dname (Name)
open Answer.Demo (lab nm ask nocut)

namespace Nsecproof.Demo

/-! ## Zones for the examples -/

/-- The zone `e.` with the names and types, with the chain made by knot_nsec_create_chain(). -/
def build (names : List Name) (types : Name → List Nat) (target : Name) : Zone :=
  let fl := Nsecchain.adjust (nm ["e"]) names (fun x => { types := types x })
  let h := match Nsecchain.create 300 names (fun x =>
      if (fl x).nonauth ∨ (fl x).types = [] then fl x else { fl x with sigs := [47] }) with
    | .ok (h, _) => h
    | _ => fl
  { apex := nm ["e"], names := names, node := Nsecchain.adjust (nm ["e"]) names h, target := fun _ _ => target
    first := fun _ => 0 }

theorem signed_of {names : List Name} {types : Name → List Nat} {t : Name}
    (h1 : names.Pairwise (fun a b => Dname.canonCmp a b = .lt))
    (h2 : ∀ x ∈ names, nm ["e"] <:+ x) (h3 : ∀ x ∈ names, x ≠ nm ["e"] → x.tail ∈ names) (h4 : nm ["e"] ∈ names)
    (h5 : 6 ∈ ((build names types t).node (nm ["e"])).types) (h6 : ∀ x ∈ names, Dname.lowerName x = x)
    (h7 : ∀ x ∈ names, ∀ u ∈ ((build names types t).node x).types, u < 65536)
    (h8 : names.head? = some (nm ["e"])) (h9 : Nsecchain.Included ((build names types t).node (nm ["e"])))
    (h10 : Nsecchain.check names (build names types t).node = .ok false)
    (h11 : ∀ x ∈ names, ((build names types t).node x).types ≠ [] ∨ ∃ y ∈ names, x <:+ y ∧ ((build names types t).node y).types ≠ [])
    (h12 : ∀ x ∈ names, 5 ∈ ((build names types t).node x).types → ∀ u ∈ ((build names types t).node x).types, u = 5)
    (h13 : ∀ x ∈ names, 39 ∈ ((build names types t).node x).types → ∀ y ∈ names, x <:+ y → y = x)
    (h14 : ∀ x ∈ names, 43 ∈ ((build names types t).node x).types → x ≠ nm ["e"] → 2 ∈ ((build names types t).node x).types) :
    Signed (build names types t) := by
  have hn : Nsecchain.Names names (build names types t).node := by
    refine ⟨h1, h6, h7, nm ["e"], names.tail, ?_, h9⟩
    cases names with
    | nil => simp at h8
    | cons a l => simp only [List.head?_cons, Option.some.injEq] at h8; rw [h8]; rfl
  refine ⟨⟨⟨h1, h2, h3⟩, ⟨_, rfl⟩, h4, h5⟩, hn, ?_, fun x hx hno => ?_, fun x hx _ => h12 x hx, fun x hx _ => h13 x hx, h14⟩
  · rcases C19_check names (build names types t).node hn with h | ⟨⟨e, h⟩, _⟩
    · exact h.2
    · rw [h10] at h; simp at h
  · rcases h11 x hx with h | ⟨y, hy, hxy, h⟩
    · obtain ⟨u, hu⟩ := List.exists_mem_of_ne_nil _ h
      exact absurd (.inl hu) (hno u)
    · obtain ⟨u, hu⟩ := List.exists_mem_of_ne_nil _ h
      exact ⟨y, hy, hxy, u, .inl hu⟩

/-- `a CNAME b.w`, `d DNAME w`, `s` delegated with DS and glue, `t` delegated, `*.w` with A, `w` without records. -/
def zone : Zone := build
  [nm ["e"], nm ["a", "e"], nm ["d", "e"], nm ["s", "e"], nm ["x", "s", "e"], nm ["t", "e"], nm ["w", "e"], nm ["*", "w", "e"]]
  (fun x => if x = nm ["e"] then [6, 2] else if x = nm ["a", "e"] then [5] else if x = nm ["d", "e"] then [39]
    else if x = nm ["s", "e"] then [2, 43] else if x = nm ["x", "s", "e"] then [1] else if x = nm ["t", "e"] then [2]
    else if x = nm ["*", "w", "e"] then [1] else []) (nm ["b", "w", "e"])

/-- `*` has no records, `a.*` has A. -/
def zone1 (l : List Nat) : Zone := build [nm ["e"], nm ["*", "e"], nm ["a", "*", "e"]]
  (fun x => if x = nm ["e"] then [6, 2] else if x = nm ["*", "e"] then l else if x = nm ["a", "*", "e"] then [1] else []) []

/-- `*` has A. -/
def zone2 : Zone := build [nm ["e"], nm ["*", "e"]] (fun x => if x = nm ["e"] then [6, 2] else if x = nm ["*", "e"] then [1] else []) []
/-- `*` and `*.b` have A. -/
def zone2' : Zone := build [nm ["e"], nm ["*", "e"], nm ["b", "e"], nm ["*", "b", "e"]]
  (fun x => if x = nm ["e"] then [6, 2] else if x = nm ["*", "e"] then [1] else if x = nm ["*", "b", "e"] then [1] else []) []

/-- `*.x DNAME x`, with A, and `a.x` with A. -/
def zone3 (l : List Name) : Zone := build ([nm ["e"], nm ["x", "e"], nm ["*", "x", "e"], nm ["a", "x", "e"]] ++ l)
  (fun x => if x = nm ["e"] then [6, 2] else if x = nm ["*", "x", "e"] then [1, 39]
    else if x = nm ["a", "x", "e"] ∨ x = nm ["b", "x", "e"] then [1] else []) (nm ["x", "e"])

theorem signed : Signed zone := by apply signed_of <;> decide +kernel
theorem signed1 : Signed (zone1 []) := by apply signed_of <;> decide +kernel
theorem signed1' : Signed (zone1 [1]) := by apply signed_of <;> decide +kernel
theorem signed2 : Signed zone2 := by apply signed_of <;> decide +kernel
theorem signed2' : Signed zone2' := by apply signed_of <;> decide +kernel
theorem signed3 : Signed (zone3 []) := by apply signed_of <;> decide +kernel
theorem signed3' : Signed (zone3 [nm ["b", "x", "e"]]) := by apply signed_of <;> decide +kernel

/-- The names on a way of one link. -/
theorem one {z : Zone} (wf : Answer.Wf z) {t : Nat} {n : Name} {l0 : Link} (h0 : Answer.Step z t l0) (hn : l0.owner = n)
    {o : Answer.Outcome} (ho : Lookup z t l0.next o) (h1 : ∀ s, o ≠ .alias s) (h2 : ∀ c, o ≠ .dname c) {ls : List Link} {m : Name}
    (hp : Path z t n ls m) : ls = [] ∧ m = n ∨ ls = [l0] ∧ m = l0.next := by
  cases ls with
  | nil => exact .inl ⟨rfl, Eq.symm hp⟩
  | cons l ls =>
    have hl := Answer.step_unique wf hp.2.1 h0 (hp.1.trans hn.symm)
    have hp2 := hp.2.2
    rw [hl] at hp2
    obtain ⟨e1, e2⟩ := Answer.path_end wf ho h1 h2 hp2
    exact .inr ⟨by rw [hl, e1], e2.symm⟩

theorem auth_of {z : Zone} {s : Name} (h : ∀ d ∈ z.names, d = z.apex ∨ 2 ∉ (z.node d).types ∨ ¬ d <:+ s) (t : Nat) : Auth z t s := by
  rintro d ⟨h1, h2, h3⟩ hds
  rcases h d h1 with h | h | h
  · exact absurd h h2
  · exact absurd h3 h
  · exact absurd hds h

theorem owns_not {z : Zone} {s : Name} {t : Nat} (h : t ∉ (z.node s).types) (h1 : t ≠ 46) (h2 : t ≠ 47) : ¬ Owns z s t := by
  rintro (a | a | a)
  · exact h a
  · exact h1 a.1
  · exact h2 a.1

end Nsecproof.Demo
open Nsecproof.Demo

/-- C45. A query gets its proof: for every signed zone and query for a name in it, if there is space for all, NSEC and DS
records are put in the authority section without any error, no assertion fails and no search for the previous name is
endless. They are records of the zone, each NSEC once; a DS is that of a delegation. -/
theorem C45_total (z : Zone) (hs : Signed z) (q : Req) (hq : ∀ l, q.fits l = true) (n : Name) (hn : z.apex <:+ n)
    (hr : Regular z q.type n) (hw : Wired z q.type n) :
    ∃ p, denial z q n = .ok p ∧ p.nsec.Nodup ∧ (∀ x ∈ p.nsec, x ∈ z.names ∧ (z.node x).nsec ≠ []) ∧
      ∀ d, p.ds = some d → Deleg z d ∧ 43 ∈ (z.node d).types := by
  obtain ⟨ls, m, st, r, p, w⟩ := whole hs hq hn hr hw
  obtain ⟨k1, k2⟩ := denial_own hs.wf hq hn hr w.den
  refine ⟨p, w.den, k1.1, k1.2, fun d hd => ?_⟩
  obtain ⟨a, n0, b⟩ := k2 d hd
  exact ⟨b.1, a⟩

/-- C45. What is said is proved: for every signed zone and query, whatever signed zone has the signed records of the
response (the zone itself is one), the response is the correct one for that zone too: no other answer than the one given
is consistent with the records. Partial: not for ANY; if a wildcard without records answers on the way, or one for a name
that starts with `*`, or if DNAME of a wildcard is on the way, the proof may be missing (see C45_wildcard_empty,
C45_wildcard_name, C45_wildcard_dname). After a chain of five links, the search ends, and the chain is what is proved. -/
theorem C45_proof_partial (z : Zone) (hs : Signed z) (q : Req) (hq : ∀ l, q.fits l = true) (ht : q.type ≠ 255) (n : Name)
    (hn : z.apex <:+ n) (hr : Regular z q.type n) (hw : Wired z q.type n) (hp : Plain z q.type n)
    (hd : NoWildDname z q.type n) :
    ∃ r p, answer z q n = .ok r ∧ denial z q n = .ok p ∧ Answer.Correct z q.type n r ∧ Agrees z z r p ∧
      ∀ z', Signed z' → Agrees z z' r p → Says z' q.type n r := by
  obtain ⟨ls, m, st, r, p, w⟩ := whole hs hq hn hr hw
  refine ⟨r, p, w.ans, w.den, ⟨ls, m, w.path, w.fresh, w.len, w.ends, w.aa⟩, agrees_self hs ht hq hn hr w, fun z' hs' ag => ?_⟩
  obtain ⟨a, b | ⟨b1, b2, b3⟩⟩ := says hs hs' ht hr hp w (hd ls m w.path) ag
  · exact .inl ⟨ls, m, a, w.fresh, w.len, b, w.aa⟩
  · exact .inr ⟨ls, m, a, b1, b2, b3⟩

/-- C45. The same for the name asked for itself: if the zone has data of the type, or there is none, or the name does not
exist, or there is a delegation, then this is so in every signed zone that has the signed records of the response. Partial
only if the name does not exist and its wildcard has no records, or the name starts with `*`. -/
theorem C45_direct_partial (z : Zone) (hs : Signed z) (q : Req) (hq : ∀ l, q.fits l = true) (ht : q.type ≠ 255) (n : Name)
    (hn : z.apex <:+ n) (hw : (∀ l ∈ n, 1 ≤ l.length) ∧ (n.map (fun l => l.length + 1)).sum + 1 ≤ 255)
    (hp : ∀ s, Source z s n → s ≠ n → ¬ Wild n ∧ ∃ u, Owns z s u) (o : Answer.Outcome) (ho : Lookup z q.type n o)
    (h1 : ∀ s, o ≠ .alias s) (h2 : ∀ c, o ≠ .dname c) :
    ∃ r p, answer z q n = .ok r ∧ denial z q n = .ok p ∧ ∀ z', Signed z' → Agrees z z' r p → Lookup z' q.type n o := by
  have hone : ∀ {ls m}, Path z q.type n ls m → ls = [] ∧ n = m := Answer.path_end hs.wf ho h1 h2
  have hr : Regular z q.type n := by
    intro ls m hp
    obtain ⟨e1, e2⟩ := hone hp
    refine ⟨fun c hc => ?_, fun s hs => absurd e1 hs⟩
    rw [← e2] at hc
    exact absurd (Answer.lookup_unique hs.wf ho hc) (h2 c)
  obtain ⟨ls, m, st, r, p, w⟩ := whole hs hq hn hr (fun ls m h => by rw [← (hone h).2]; exact hw)
  refine ⟨r, p, w.ans, w.den, fun z' hs' ag => ?_⟩
  obtain ⟨e1, e2⟩ := hone w.path
  subst e1 e2
  obtain ⟨a, b | ⟨b, _⟩⟩ := says hs hs' ht hr (fun ls m s h => by rw [← (hone h).2]; exact hp s) w (by simp) ag
  · refine ends_lookup ho w.ends b hs.wf h1 h2 (fun e => ?_)
    subst e
    cases ho with
    | out h => exact h hn
  · simp at b

/-- C45. Referrals: for every signed zone and query, a referral has either the DS records of the delegation, or a proof that
there are none: all signed zones that have the signed records of the response agree about DS there. -/
theorem C45_referral (z : Zone) (hs : Signed z) (q : Req) (hq : ∀ l, q.fits l = true) (n : Name) (hn : z.apex <:+ n)
    (hr : Regular z q.type n) (hw : Wired z q.type n) :
    ∃ r p, answer z q n = .ok r ∧ denial z q n = .ok p ∧
      ∀ d, r.state = .deleg → r.authority = some (d, 2) → (43 ∈ (z.node d).types ↔ p.ds = some d) ∧
        ∀ z', Signed z' → Agrees z z' r p → (43 ∈ (z'.node d).types ↔ 43 ∈ (z.node d).types) := by
  obtain ⟨ls, m, st, r, p, w⟩ := whole hs hq hn hr hw
  refine ⟨r, p, w.ans, w.den, fun d h1 h2 => ⟨?_, fun z' hs' ag => (ds_same hs hs' w ag h1 h2).2⟩⟩
  obtain ⟨d', e, hl⟩ := (Nsecproof.ends_cases w.ends).2.2.2 h1
  rw [h2] at e
  cases e
  obtain ⟨k1, k2⟩ := w.known.deleg h1 d hl
  by_cases h43 : 43 ∈ (z.node d).types
  · simp [h43, k1 h43]
  · simp [h43, (k2 h43).1]

/-! ## Cases -/

namespace Nsecproof.Demo

def la : Link := ⟨nm ["a", "e"], nm ["a", "e"], 5, nm ["b", "w", "e"]⟩

theorem step_a : Answer.Step zone 1 la :=
  .cname (.alias ⟨by decide +kernel, .inl rfl⟩ (auth_of (by decide +kernel) _) (.inl (by decide +kernel)) (by unfold Answer.Direct; decide))

theorem source_b : Source zone (nm ["*", "w", "e"]) (nm ["b", "w", "e"]) :=
  ⟨by decide +kernel, .inr ⟨by decide +kernel, nm ["w", "e"], ⟨by decide +kernel, ⟨nm ["b"], rfl⟩, by decide +kernel⟩, by decide +kernel⟩⟩

theorem data_b : Lookup zone 1 la.next (.data (nm ["*", "w", "e"]) 1) :=
  .data source_b (auth_of (by decide +kernel) _) (fun h => owns_not (by decide +kernel) (by omega) (by omega) h.1)
    ⟨rfl, .inl (by decide +kernel)⟩

theorem one_a {ls : List Link} {m : Name} (h : Path zone 1 (nm ["a", "e"]) ls m) :
    ls = [] ∧ m = nm ["a", "e"] ∨ ls = [la] ∧ m = la.next :=
  one signed.wf step_a rfl data_b (by simp) (by simp) h

theorem alias_a : Lookup zone 1 (nm ["a", "e"]) (.alias (nm ["a", "e"])) :=
  .alias ⟨by decide +kernel, .inl rfl⟩ (auth_of (by decide +kernel) _) (.inl (by decide +kernel)) (by unfold Answer.Direct; decide)

theorem regular_a : Regular zone 1 (nm ["a", "e"]) := by
  intro ls m h
  rcases one_a h with ⟨rfl, rfl⟩ | ⟨rfl, rfl⟩
  · exact ⟨fun c h => (by cases Answer.lookup_unique signed.wf alias_a h), fun s h => absurd rfl h⟩
  · exact ⟨fun c h => (by cases Answer.lookup_unique signed.wf data_b h),
      fun s _ _ h => by simpa using Answer.lookup_unique signed.wf data_b h⟩

theorem wired_a : Wired zone 1 (nm ["a", "e"]) := by
  intro ls m h
  rcases one_a h with ⟨rfl, rfl⟩ | ⟨rfl, rfl⟩ <;> decide +kernel

theorem plain_a : Plain zone 1 (nm ["a", "e"]) := by
  intro ls m s h h1 h2
  rcases one_a h with ⟨rfl, rfl⟩ | ⟨rfl, rfl⟩
  · exact absurd (Answer.source_unique h1 ⟨by decide +kernel, .inl rfl⟩) h2
  · refine ⟨?_, 1, ?_⟩
    · rintro ⟨y, h⟩
      have := congrArg List.head? h
      revert this
      simp only [la, List.head?_cons]
      decide +kernel
    · rw [Answer.source_unique h1 source_b]; exact .inl (by decide +kernel)

theorem noWildDname_a : NoWildDname zone 1 (nm ["a", "e"]) := by
  intro ls m h
  rcases one_a h with ⟨rfl, rfl⟩ | ⟨rfl, rfl⟩
  · simp
  · simp [la]

end Nsecproof.Demo

example : Signed zone ∧ (∀ l, (ask 1).fits l = true) ∧ (ask 1).type ≠ 255 ∧ zone.apex <:+ nm ["a", "e"] ∧
    Regular zone (ask 1).type (nm ["a", "e"]) ∧ Wired zone (ask 1).type (nm ["a", "e"]) ∧
    Plain zone (ask 1).type (nm ["a", "e"]) ∧ NoWildDname zone (ask 1).type (nm ["a", "e"]) :=
  ⟨signed, fun _ => rfl, by decide, by decide +kernel, regular_a, wired_a, plain_a, noWildDname_a⟩

/-- A chain to a name answered by a wildcard: NSEC of `*.w` shows that there is no `b.w`. -/
example : answer zone (ask 1) (nm ["a", "e"]) =
      .ok ⟨.hit, true, 0, [.rr (nm ["a", "e"]) (nm ["a", "e"]) 5, .rr (nm ["b", "w", "e"]) (nm ["*", "w", "e"]) 1], none⟩ ∧
    denial zone (ask 1) (nm ["a", "e"]) = .ok ⟨[nm ["*", "w", "e"]], none⟩ := by decide +kernel
/-- A name that does not exist: NSEC of `d` that covers it, and that of the apex, which covers the wildcard. -/
example : answer zone (ask 1) (nm ["n", "e"]) = .ok ⟨.miss, true, 3, [], some (nm ["e"], 6)⟩ ∧
    denial zone (ask 1) (nm ["n", "e"]) = .ok ⟨[nm ["d", "e"], nm ["e"]], none⟩ := by decide +kernel
/-- A name without records: NSEC of the previous name, to a name below. -/
example : answer zone (ask 1) (nm ["w", "e"]) = .ok ⟨.nodata, true, 0, [], some (nm ["e"], 6)⟩ ∧
    denial zone (ask 1) (nm ["w", "e"]) = .ok ⟨[nm ["t", "e"]], none⟩ := by decide +kernel
/-- No records of the type at a wildcard: its NSEC, which also covers the name. -/
example : answer zone (ask 16) (nm ["b", "w", "e"]) = .ok ⟨.nodata, true, 0, [], some (nm ["e"], 6)⟩ ∧
    denial zone (ask 16) (nm ["b", "w", "e"]) = .ok ⟨[nm ["*", "w", "e"]], none⟩ := by decide +kernel
/-- Delegations with and without DS. -/
example : denial zone (ask 1) (nm ["y", "s", "e"]) = .ok ⟨[], some (nm ["s", "e"])⟩ ∧
    denial zone (ask 1) (nm ["y", "t", "e"]) = .ok ⟨[nm ["t", "e"]], none⟩ := by decide +kernel

namespace Nsecproof.Demo

theorem not_says {z : Zone} (wf : Answer.Wf z) {t : Nat} {n s : Name} {u : Nat} (h : Lookup z t n (.data s u)) {r : Resp}
    (hr : r ≠ ⟨.hit, true, 0, [.rr n s u], none⟩) : ¬ Says z t n r := by
  rintro (h0 | ⟨ls, m, h0, h1, _⟩)
  · refine hr (Answer.correct_unique wf h0 ⟨[], n, rfl, ⟨fun A l B e => by simp at e, fun _ => rfl⟩, by simp, Answer.Ends.data h, by simp⟩)
  · obtain ⟨e, _⟩ := Answer.path_end wf h (by simp) (by simp) h0
    rw [e] at h1; simp at h1

end Nsecproof.Demo

/-- C45. Finding: if the wildcard that answers has no records, only names below, then NSEC that covers the name asked for
is sent, not one that shows that the wildcard has no records. The records of the response are also in a zone whose
wildcard has A. -/
theorem C45_wildcard_empty : Signed (zone1 []) ∧ Signed (zone1 [1]) ∧
    Lookup (zone1 []) 1 (nm ["b", "e"]) .nodata ∧
    ∃ r p, answer (zone1 []) (ask 1) (nm ["b", "e"]) = .ok r ∧ denial (zone1 []) (ask 1) (nm ["b", "e"]) = .ok p ∧
      p.nsec = [nm ["a", "*", "e"]] ∧ Agrees (zone1 []) (zone1 [1]) r p ∧ ¬ Says (zone1 [1]) 1 (nm ["b", "e"]) r := by
  refine ⟨signed1, signed1', ?_, ⟨.nodata, true, 0, [], some (nm ["e"], 6)⟩, ⟨[nm ["a", "*", "e"]], none⟩, by decide +kernel,
    by decide +kernel, rfl, ⟨by decide +kernel, by decide +kernel, by simp, by simp⟩, ?_⟩
  · refine .nodata (s := nm ["*", "e"]) ⟨by decide +kernel, .inr ⟨by decide +kernel, nm ["e"], ⟨by decide +kernel, ⟨nm ["b"], rfl⟩,
      by decide +kernel⟩, by decide +kernel⟩⟩ (auth_of (by decide +kernel) _) (fun h => owns_not (by decide +kernel) (by omega) (by omega) h.1) ?_
    rintro u ⟨rfl, h⟩
    exact owns_not (by decide +kernel) (by omega) (by omega) h
  · refine not_says signed1'.wf (t := 1) (s := nm ["*", "e"]) (u := 1) (.data ⟨by decide +kernel, .inr ⟨by decide +kernel, nm ["e"], ⟨by decide +kernel,
      ⟨nm ["b"], rfl⟩, by decide +kernel⟩, by decide +kernel⟩⟩ (auth_of (by decide +kernel) _)
      (fun h => owns_not (by decide +kernel) (by omega) (by omega) h.1) ⟨rfl, .inl (by decide +kernel)⟩) (by simp)

/-- C45. Finding: if a wildcard answers for a name that starts with `*`, nothing shows that the name does not exist. The
records of the response are also in a zone where it does, with records of its own. -/
theorem C45_wildcard_name : Signed zone2 ∧ Signed zone2' ∧
    Lookup zone2 1 (nm ["*", "b", "e"]) (.data (nm ["*", "e"]) 1) ∧
    ∃ r p, answer zone2 (ask 1) (nm ["*", "b", "e"]) = .ok r ∧ denial zone2 (ask 1) (nm ["*", "b", "e"]) = .ok p ∧
      p.nsec = [] ∧ Agrees zone2 zone2' r p ∧ ¬ Says zone2' 1 (nm ["*", "b", "e"]) r := by
  refine ⟨signed2, signed2', ?_, ⟨.hit, true, 0, [.rr (nm ["*", "b", "e"]) (nm ["*", "e"]) 1], none⟩, ⟨[], none⟩, by decide +kernel,
    by decide +kernel, rfl, ⟨by decide +kernel, by simp, by simp, ?_⟩, ?_⟩
  · exact .data ⟨by decide +kernel, .inr ⟨by decide +kernel, nm ["e"], ⟨by decide +kernel, ⟨nm ["*", "b"], rfl⟩,
      by decide +kernel⟩, by decide +kernel⟩⟩ (auth_of (by decide +kernel) _) (fun h => owns_not (by decide +kernel) (by omega) (by omega) h.1)
      ⟨rfl, .inl (by decide +kernel)⟩
  · intro o s u h
    simp only [List.mem_singleton, Rec.rr.injEq] at h
    obtain ⟨_, rfl, rfl⟩ := h
    exact ⟨by decide +kernel, .inl (by decide +kernel), auth_of (by decide +kernel) _, rfl, fun h => by omega⟩
  · refine not_says signed2'.wf (t := 1) (s := nm ["*", "b", "e"]) (u := 1) (.data ⟨by decide +kernel, .inl rfl⟩ (auth_of (by decide +kernel) _)
      (fun h => owns_not (by decide +kernel) (by omega) (by omega) h.1) ⟨rfl, .inl (by decide +kernel)⟩) ?_
    intro h
    have := congrArg Resp.answer h
    revert this
    decide +kernel

namespace Nsecproof.Demo

def l3 : Link := ⟨nm ["b", "*", "x", "e"], nm ["*", "x", "e"], 39, nm ["b", "x", "e"]⟩

theorem step3 {l : List Name} (h : l = [] ∨ l = [nm ["b", "x", "e"]]) : Answer.Step (zone3 l) 1 l3 := by
  have hfit : Answer.Fits (nm ["b", "x", "e"]) := by unfold Answer.Fits; decide +kernel
  rcases h with rfl | rfl
  · refine .dname (n := nm ["b", "*", "x", "e"]) (c := nm ["*", "x", "e"]) (.dname (Answer.source_or (by decide +kernel) (c := nm ["*", "x", "e"]) ?_ (by decide +kernel))
      (nocut (by decide +kernel) _) ?_ (.inl (by decide +kernel))) hfit <;>
      exact ⟨by decide +kernel, ⟨nm ["b"], rfl⟩, by decide +kernel⟩
  · refine .dname (n := nm ["b", "*", "x", "e"]) (c := nm ["*", "x", "e"]) (.dname (Answer.source_or (by decide +kernel) (c := nm ["*", "x", "e"]) ?_ (by decide +kernel))
      (nocut (by decide +kernel) _) ?_ (.inl (by decide +kernel))) hfit <;>
      exact ⟨by decide +kernel, ⟨nm ["b"], rfl⟩, by decide +kernel⟩

theorem data3 : Lookup (zone3 [nm ["b", "x", "e"]]) 1 l3.next (.data (nm ["b", "x", "e"]) 1) :=
  .data ⟨by decide +kernel, .inl rfl⟩ (auth_of (by decide +kernel) _)
    (fun h => owns_not (by decide +kernel) (by omega) (by omega) h.1) ⟨rfl, .inl (by decide +kernel)⟩

end Nsecproof.Demo

/-- C45. Finding: if DNAME of a wildcard leads to a name that the same wildcard answers for, nothing shows that this name
does not exist. The records of the response are also in a zone where it does, with records of its own. -/
theorem C45_wildcard_dname : Signed (zone3 []) ∧ Signed (zone3 [nm ["b", "x", "e"]]) ∧
    Lookup (zone3 []) 1 (nm ["b", "x", "e"]) (.data (nm ["*", "x", "e"]) 1) ∧
    ∃ r p, answer (zone3 []) (ask 1) (nm ["b", "*", "x", "e"]) = .ok r ∧ denial (zone3 []) (ask 1) (nm ["b", "*", "x", "e"]) = .ok p ∧
      r.answer = [.rr (nm ["*", "x", "e"]) (nm ["*", "x", "e"]) 39, .synth (nm ["b", "*", "x", "e"]) (nm ["b", "x", "e"]),
        .rr (nm ["b", "x", "e"]) (nm ["*", "x", "e"]) 1] ∧ p.nsec = [nm ["*", "x", "e"]] ∧
      Agrees (zone3 []) (zone3 [nm ["b", "x", "e"]]) r p ∧
      ¬ Says (zone3 [nm ["b", "x", "e"]]) 1 (nm ["b", "*", "x", "e"]) r := by
  refine ⟨signed3, signed3', ?_, ⟨.hit, true, 0, [.rr (nm ["*", "x", "e"]) (nm ["*", "x", "e"]) 39,
      .synth (nm ["b", "*", "x", "e"]) (nm ["b", "x", "e"]), .rr (nm ["b", "x", "e"]) (nm ["*", "x", "e"]) 1], none⟩,
    ⟨[nm ["*", "x", "e"]], none⟩, by decide +kernel,
    by decide +kernel, rfl, rfl, ⟨by decide +kernel, by decide +kernel, by simp, ?_⟩, ?_⟩
  · exact .data ⟨by decide +kernel, .inr ⟨by decide +kernel, nm ["x", "e"], ⟨by decide +kernel, ⟨nm ["b"], rfl⟩,
      by decide +kernel⟩, by decide +kernel⟩⟩ (auth_of (by decide +kernel) _) (fun h => owns_not (by decide +kernel) (by omega) (by omega) h.1)
      ⟨rfl, .inl (by decide +kernel)⟩
  · intro o s u h
    simp only [List.mem_cons, Rec.rr.injEq, reduceCtorEq, false_or, List.not_mem_nil, or_false] at h
    rcases h with ⟨_, rfl, rfl⟩ | ⟨_, rfl, rfl⟩
    · exact ⟨by decide +kernel, .inl (by decide +kernel), auth_of (by decide +kernel) _, rfl, fun h => by omega⟩
    · exact ⟨by decide +kernel, .inl (by decide +kernel), auth_of (by decide +kernel) _, rfl, fun h => by omega⟩
  · rintro (h0 | ⟨ls, m, h0, h1, _⟩)
    · have hc : Answer.Correct (zone3 [nm ["b", "x", "e"]]) 1 (nm ["b", "*", "x", "e"]) ⟨.hit, true, 0,
          Answer.records [l3] ++ [.rr (nm ["b", "x", "e"]) (nm ["b", "x", "e"]) 1], none⟩ := by
        refine ⟨[l3], l3.next, ⟨rfl, step3 (.inr rfl), rfl⟩, ⟨?_, by simp⟩, by simp, Answer.Ends.data (ls := [l3]) data3, by simp⟩
        intro A l B e
        have hA : A = [] := by
          cases A with
          | nil => rfl
          | cons x A => simp at e
        rw [hA]
        rintro ⟨l', h, _⟩
        simp at h
      have := congrArg Resp.answer (Answer.correct_unique signed3'.wf h0 hc)
      revert this
      decide +kernel
    · rcases one signed3'.wf (step3 (.inr rfl)) rfl data3 (by simp) (by simp) h0 with ⟨e, _⟩ | ⟨e, _⟩ <;>
        (rw [e] at h1; simp at h1)

end Knot
