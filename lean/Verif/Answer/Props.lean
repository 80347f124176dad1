import Verif.Answer.Lemmas8
/-!
# C17: answers from a zone
-/
namespace Knot
open Answer
open Dname (Name)

namespace Answer.Demo

/-! ## A zone for the examples

`e.` with `a CNAME b.w`, `c CNAME c`, `d DNAME w`, `*.w` with A, `s` delegated with DS and glue `x.s`, `t` delegated. -/

abbrev lab (s : String) : Dname.Label := s.toUTF8.toList
abbrev nm (l : List String) : Name := l.map lab

def names : List Name := [nm ["e"], nm ["a", "e"], nm ["c", "e"], nm ["d", "e"], nm ["s", "e"], nm ["x", "s", "e"],
  nm ["t", "e"], nm ["w", "e"], nm ["*", "w", "e"]]

def raw : Nsecchain.Heap := fun x =>
  if x = nm ["e"] then { types := [6, 2] }
  else if x = nm ["a", "e"] then { types := [5] }
  else if x = nm ["c", "e"] then { types := [5] }
  else if x = nm ["d", "e"] then { types := [39] }
  else if x = nm ["s", "e"] then { types := [2, 43] }
  else if x = nm ["x", "s", "e"] then { types := [1] }
  else if x = nm ["t", "e"] then { types := [2] }
  else if x = nm ["*", "w", "e"] then { types := [1] }
  else {}

def zone : Zone :=
  { apex := nm ["e"], names := names, node := Nsecchain.adjust (nm ["e"]) names raw
    target := fun x _ => if x = nm ["a", "e"] then nm ["b", "w", "e"] else if x = nm ["c", "e"] then nm ["c", "e"] else nm ["w", "e"]
    first := fun x => ((raw x).types.head?).getD 0 }

def ask (t : Nat) : Req := ⟨t, true, fun _ => true⟩

theorem wf : Wf zone := by
  refine ⟨⟨?_, ?_, ?_⟩, ⟨raw, rfl⟩, ?_, ?_⟩ <;> decide +kernel

end Answer.Demo
open Answer.Demo

/-- C17. Finding a name: for every zone and name, it is reported out of the zone iff it is not below the apex, found
iff it exists; else the closest encloser is found: the longest suffix of the name that exists. -/
theorem C17_find (z : Zone) (wf : Wf z) (n : Name) :
    (findDname z n = .ok .out ↔ ¬ z.apex <:+ n) ∧
    (∀ x, findDname z n = .ok (.found x) ↔ x = n ∧ n ∈ z.names) ∧
    (∀ c, findDname z n = .ok (.notFound c) ↔ z.apex <:+ n ∧ n ∉ z.names ∧ Encloser z c n) := by
  rcases find_spec wf n with ⟨h1, h2⟩ | ⟨h1, h2, h3⟩ | ⟨h1, h2, c, h3, h4⟩
  · rw [h2]
    refine ⟨by simp [h1], fun x => ?_, fun c => by simp [h1]⟩
    simp only [Res.ok.injEq, reduceCtorEq, false_iff]
    rintro ⟨_, h⟩
    exact h1 (wf.closed.under n h)
  · rw [h3]
    refine ⟨by simp [h1], fun x => ?_, fun c => by simp [h2]⟩
    simp [h2]; exact eq_comm
  · rw [h4]
    refine ⟨by simp [h1], fun x => by simp [h2], fun c' => ?_⟩
    simp only [Res.ok.injEq, Find.notFound.injEq, h1, h2, true_and, not_false_eq_true]
    exact ⟨fun e => e ▸ h3, fun h => encloser_unique h3 h⟩

example : Wf zone := wf
example : findDname zone (nm ["q", "b", "w", "e"]) = .ok (.notFound (nm ["w", "e"])) := by decide +kernel

/-- C17. Every query gets a response: for every zone, request and name in the zone, no assertion fails, and the
search ends. -/
theorem C17_total (z : Zone) (wf : Wf z) (q : Req) (n : Name) (hn : z.apex <:+ n) : ∃ r, answer z q n = .ok r := by
  obtain ⟨_, _, _, _, _, h⟩ := answer_total wf q hn
  exact h

/-- C17. For every zone, what it says about a name and a type is exactly one of the outcomes. -/
theorem C17_lookup (z : Zone) (wf : Wf z) (t : Nat) (n : Name) : ∃ o, Lookup z t n o ∧ ∀ o', Lookup z t n o' → o' = o := by
  obtain ⟨o, h⟩ := lookup_total wf t n
  exact ⟨o, h, fun o' h' => lookup_unique wf h' h⟩

/-- C17. The response: for every zone and query, if there is space for all, the response is the correct one, the
chain of CNAME and DNAME records from the name asked for and how it ends; and there is only one such response.
Partial: unless a DNAME on the way makes too long a name, or a chain leads to DNAME records of a wildcard (see
C17_yxdomain, C17_wildcard_dname). -/
theorem C17_answer_partial (z : Zone) (wf : Wf z) (q : Req) (hq : ∀ l, q.fits l = true) (n : Name) (hn : z.apex <:+ n)
    (hr : Regular z q.type n) :
    ∃ r, answer z q n = .ok r ∧ Correct z q.type n r ∧ ∀ r', Correct z q.type n r' → r' = r := by
  obtain ⟨r, h1, h2⟩ := answer_spec wf hq hn (fun ls m h => (hr ls m h).2) (fun ls m h => (hr ls m h).1)
  exact ⟨r, h1, h2, fun r' h => correct_unique wf h h2⟩

/-- C17. The same for the name asked for itself, without any exception: if the zone says about it anything but an
alias, that is the response. -/
theorem C17_direct (z : Zone) (wf : Wf z) (q : Req) (hq : ∀ l, q.fits l = true) (n : Name) (hn : z.apex <:+ n) :
    (∀ s u, Lookup z q.type n (.data s u) → answer z q n = .ok ⟨.hit, true, 0, [.rr n s u], none⟩) ∧
    (Lookup z q.type n .nodata → answer z q n = .ok ⟨.nodata, true, 0, [], some (z.apex, 6)⟩) ∧
    (Lookup z q.type n .nxdomain → answer z q n = .ok ⟨.miss, true, 3, [], some (z.apex, 6)⟩) ∧
    (∀ d, Lookup z q.type n (.referral d) → answer z q n = .ok ⟨.deleg, false, 0, [], some (d, 2)⟩) := by
  have key : ∀ o, Lookup z q.type n o → (∀ s, o ≠ .alias s) → (∀ c, o ≠ .dname c) → ∀ r0, Correct z q.type n r0 →
      answer z q n = .ok r0 := by
    intro o ho h1 h2 r0 h0
    have hr : Regular z q.type n := by
      intro ls m hp
      obtain ⟨e1, e2⟩ := path_end wf ho h1 h2 hp
      refine ⟨fun c hc => ?_, fun s hs => absurd e1 hs⟩
      rw [← e2] at hc
      exact absurd (lookup_unique wf ho hc) (h2 c)
    obtain ⟨r, a, _, b⟩ := C17_answer_partial z wf q hq n hn hr
    rw [a, b r0 h0]
  have fresh : Fresh q.type [] := ⟨fun A l B e => by simp at e, fun _ => rfl⟩
  refine ⟨fun s u h => ?_, fun h => ?_, fun h => ?_, fun d h => ?_⟩
  · exact key _ h (by simp) (by simp) _ ⟨[], n, rfl, fresh, by simp, Ends.data h, by simp⟩
  · exact key _ h (by simp) (by simp) _ ⟨[], n, rfl, fresh, by simp, Ends.nodata h, by simp⟩
  · exact key _ h (by simp) (by simp) _ ⟨[], n, rfl, fresh, by simp, Ends.nxdomain h, by simp⟩
  · exact key _ h (by simp) (by simp) _ ⟨[], n, rfl, fresh, by simp, Ends.referral h, by simp⟩

/-- C17. At and below a delegation nothing is answered: for every zone, a query for a name at or below a delegation,
unless for DS at the delegation itself, gets a referral to the topmost delegation without data, whatever records
there are below. -/
theorem C17_referral (z : Zone) (wf : Wf z) (q : Req) (hq : ∀ l, q.fits l = true) (n d : Name) (hn : z.apex <:+ n)
    (h : Cut z d n) (hd : ¬ (d = n ∧ q.type = 43)) : answer z q n = .ok ⟨.deleg, false, 0, [], some (d, 2)⟩ :=
  (C17_direct z wf q hq n hn).2.2.2 d (lookup_cut wf h hd)

example : answer zone (ask 1) (nm ["x", "s", "e"]) = .ok ⟨.deleg, false, 0, [], some (nm ["s", "e"], 2)⟩ := by decide +kernel
example : answer zone (ask 43) (nm ["s", "e"]) = .ok ⟨.hit, true, 0, [.rr (nm ["s", "e"]) (nm ["s", "e"]) 43], none⟩ := by
  decide +kernel
example : answer zone (ask 1) (nm ["n", "e"]) = .ok ⟨.miss, true, 3, [], some (nm ["e"], 6)⟩ := by decide +kernel
example : answer zone (ask 1) (nm ["w", "e"]) = .ok ⟨.nodata, true, 0, [], some (nm ["e"], 6)⟩ := by decide +kernel
example : answer zone (ask 1) (nm ["a", "e"]) =
    .ok ⟨.hit, true, 0, [.rr (nm ["a", "e"]) (nm ["a", "e"]) 5, .rr (nm ["b", "w", "e"]) (nm ["*", "w", "e"]) 1], none⟩ := by
  decide +kernel
example : answer zone (ask 1) (nm ["p", "d", "e"]) =
    .ok ⟨.hit, true, 0, [.rr (nm ["d", "e"]) (nm ["d", "e"]) 39, .synth (nm ["p", "d", "e"]) (nm ["p", "w", "e"]),
      .rr (nm ["p", "w", "e"]) (nm ["*", "w", "e"]) 1], none⟩ := by
  decide +kernel
example : answer zone (ask 1) (nm ["c", "e"]) =
    .ok ⟨.hit, true, 0, [.rr (nm ["c", "e"]) (nm ["c", "e"]) 5], none⟩ := by
  decide +kernel

/-- C17. Nothing is answered that the zone is not authoritative for: for every zone, query and limit of space, every
record in the answer section comes from a node of the zone with no delegation at or above it, but for DS at a
delegation, and the owner of the record is the name of the node, or a name that does not exist and whose closest
encloser has that node as its wildcard. -/
theorem C17_authoritative (z : Zone) (wf : Wf z) (q : Req) (n : Name) (hn : z.apex <:+ n) (r : Resp)
    (ha : answer z q n = .ok r) (o s : Name) (u : Nat) (hm : .rr o s u ∈ r.answer) : Source z s o ∧ Auth z q.type s := by
  obtain ⟨c, c', h1, h2, _⟩ := answer_total wf q hn
  have a0 : AuthOnly z q.type ({ name := n } : St).answer := fun _ _ _ h => by simp at h
  have a1 := solveLoop_auth wf 7 c c' (solveName_auth wf a0 h1) h2
  rcases (answer_answer h1 h2 ha).1 with e | e
  · rw [e] at hm; exact a1 o s u hm
  · rw [e] at hm; simp at hm

/-- C17. NXDOMAIN: for every zone, query and limit of space, if the name asked for is said not to exist (NXDOMAIN with
no record in the answer section), then it does not exist in the zone, its closest encloser has no wildcard, there is
no delegation at or above it and no DNAME at the closest encloser. The end of a chain: C17_answer_partial. -/
theorem C17_nxdomain (z : Zone) (wf : Wf z) (q : Req) (n : Name) (hn : z.apex <:+ n) (r : Resp)
    (ha : answer z q n = .ok r) (h3 : r.state = .miss) (he : r.answer = []) :
    n ∉ z.names ∧ (∀ d, Deleg z d → ¬ d <:+ n) ∧ ∃ c, Encloser z c n ∧ ([42] : Dname.Label) :: c ∉ z.names ∧ ¬ Owns z c 39 := by
  obtain ⟨c, c', h1, h2, _⟩ := answer_total wf q hn
  obtain ⟨m1, m2⟩ := solveName_miss wf hn h1
  have hl : Lookup z q.type n .nxdomain := by
    refine m1 ?_
    obtain ⟨_, a2, a3, _⟩ := answer_answer h1 h2 ha
    have hans := a3 h3
    by_cases hf : c.2 = .follow
    · exfalso
      have hgrow : c.1.answer <+: c'.1.answer := by
        have hk := h2
        exact solveLoop_grow 7 c c' hk
      rw [← hans, he, List.prefix_nil] at hgrow
      exact m2 hf hgrow
    · unfold solveLoop at h2
      rw [if_neg hf] at h2
      simp only [Res.ok.injEq] at h2
      rw [h2]; exact a2.mp h3
  cases hl with
  | nxdomain a b c d =>
    refine ⟨fun h => a n ⟨h, .inl rfl⟩, fun d hd hdn => ?_, _, c, fun h => ?_, d⟩
    · obtain ⟨d', hd'⟩ := cut_exists n ⟨d, hd, hdn⟩
      exact b d' hd'
    · exact a _ ⟨h, .inr ⟨fun h' => a n ⟨h', .inl rfl⟩, _, c, rfl⟩⟩

/-- C17. Limited space: for every zone, query and limit, the response is the one without a limit, or the answer is cut
right before a record that does not fit; then the response is marked as truncated, or, never over UDP, an error is
reported without any data. All that is written fits. -/
theorem C17_space (z : Zone) (wf : Wf z) (q : Req) (n : Name) (hn : z.apex <:+ n) :
    ∃ r r', answer z q n = .ok r ∧ answer z { q with fits := fun _ => true } n = .ok r' ∧
      (∀ p, p <+: r.answer → p ≠ [] → q.fits p = true) ∧ r'.state ≠ .trunc ∧ r'.state ≠ .error ∧
      (r = r' ∨ ∃ p x, q.fits (p ++ [x]) = false ∧ p ++ [x] <+: r'.answer ∧ r.authority = none ∧
        (r.state = .trunc ∧ r.rcode = 0 ∧ r.answer = p ∨ r.state = .error ∧ q.udp = false ∧ r.rcode ≠ 0 ∧ r.answer = [])) :=
  answer_space wf q hn

example : answer zone ⟨1, true, fun l => decide (l.length ≤ 2)⟩ (nm ["p", "d", "e"]) =
    .ok ⟨.trunc, true, 0, [.rr (nm ["d", "e"]) (nm ["d", "e"]) 39, .synth (nm ["p", "d", "e"]) (nm ["p", "w", "e"])], none⟩ := by
  decide +kernel

/-! ## Findings -/

namespace Answer.Demo

def lo (c : UInt8) : Dname.Label := List.replicate 60 c
/-- A name of 247 octets. -/
def far : Name := [lo 97, lo 98, lo 99, lo 100, lab "e"]

/-- `d DNAME far`. -/
def zoneL (names : List Name) (far1 : List Nat) : Zone :=
  { apex := nm ["e"], names := names
    node := Nsecchain.adjust (nm ["e"]) names (fun x => if x = nm ["e"] then { types := [6, 2] }
      else if x = nm ["d", "e"] then { types := [39] } else if x = far then { types := far1 } else {})
    target := fun _ _ => far, first := fun _ => 0 }

def namesFar : List Name := [nm ["e"], nm ["d", "e"], far.drop 3, far.drop 2, far.drop 1, far]
def namesNone : List Name := [nm ["e"], nm ["d", "e"]]

theorem wfFar : Wf (zoneL namesFar [1]) := by
  refine ⟨⟨?_, ?_, ?_⟩, ⟨_, rfl⟩, ?_, ?_⟩ <;> decide +kernel
theorem wfNone : Wf (zoneL namesNone []) := by
  refine ⟨⟨?_, ?_, ?_⟩, ⟨_, rfl⟩, ?_, ?_⟩ <;> decide +kernel

def asked : Name := nm ["abcdefghij", "d", "e"]

end Answer.Demo

namespace Answer.Demo

theorem nocut {z : Zone} (h : ∀ d ∈ z.names, d = z.apex ∨ 2 ∉ (z.node d).types) (n : Name) : ∀ d, ¬ Cut z d n := by
  rintro d ⟨⟨h1, h2, h3⟩, _⟩
  rcases h d h1 with h | h
  · exact h2 h
  · exact h h3

theorem long_lookup {names : List Name} {f : List Nat} (he : Encloser (zoneL names f) (nm ["d", "e"]) asked)
    (hn : asked ∉ names) (hw : ([42] : Dname.Label) :: nm ["d", "e"] ∉ names)
    (hd : ∀ d ∈ names, d = nm ["e"] ∨ 2 ∉ ((zoneL names f).node d).types) (ho : 39 ∈ ((zoneL names f).node (nm ["d", "e"])).types) :
    Lookup (zoneL names f) 1 asked (.dname (nm ["d", "e"])) :=
  .dname (source_or hn he hw) (nocut hd asked) he (.inl ho)

theorem long_correct {names : List Name} {f : List Nat} (h : Lookup (zoneL names f) 1 asked (.dname (nm ["d", "e"]))) :
    Correct (zoneL names f) 1 asked ⟨.hit, true, 6, [.rr (nm ["d", "e"]) (nm ["d", "e"]) 39], none⟩ := by
  refine ⟨[], asked, rfl, ⟨fun A l B e => by simp at e, fun _ => rfl⟩, by simp, ?_, by simp⟩
  have hf : ¬ Fits (subst (nm ["d", "e"]) far asked) := by unfold Fits; decide +kernel
  exact Ends.long (ls := []) h hf (by simp)

end Answer.Demo

/-- C17. Finding: after a DNAME that makes too long a name, the search goes on with the target of the DNAME, another
name than the one asked for. The records of that name get in the answer of YXDOMAIN. -/
theorem C17_yxdomain : Wf (zoneL namesFar [1]) ∧
    Correct (zoneL namesFar [1]) 1 asked ⟨.hit, true, 6, [.rr (nm ["d", "e"]) (nm ["d", "e"]) 39], none⟩ ∧
    answer (zoneL namesFar [1]) (ask 1) asked =
      .ok ⟨.hit, true, 6, [.rr (nm ["d", "e"]) (nm ["d", "e"]) 39, .rr far far 1], none⟩ := by
  refine ⟨wfFar, long_correct (long_lookup ⟨by decide +kernel, ⟨nm ["abcdefghij"], rfl⟩, by decide +kernel⟩ ?_ ?_ ?_ ?_), ?_⟩ <;>
    decide +kernel

/-- C17. Finding: if that target does not exist in the zone, YXDOMAIN is replaced by NXDOMAIN. -/
theorem C17_yxdomain_lost : Wf (zoneL namesNone []) ∧
    Correct (zoneL namesNone []) 1 asked ⟨.hit, true, 6, [.rr (nm ["d", "e"]) (nm ["d", "e"]) 39], none⟩ ∧
    answer (zoneL namesNone []) (ask 1) asked =
      .ok ⟨.miss, true, 3, [.rr (nm ["d", "e"]) (nm ["d", "e"]) 39], some (nm ["e"], 6)⟩ := by
  refine ⟨wfNone, long_correct (long_lookup ⟨by decide +kernel, ⟨nm ["abcdefghij"], rfl⟩, by decide +kernel⟩ ?_ ?_ ?_ ?_), ?_⟩ <;>
    decide +kernel

namespace Answer.Demo

def namesW : List Name := [nm ["e"], nm ["a", "e"], nm ["w", "e"], nm ["*", "w", "e"]]

/-- `a CNAME b.w`, and `*.w` with records of the type. -/
def zoneW (t : Nat) : Zone :=
  { apex := nm ["e"], names := namesW
    node := Nsecchain.adjust (nm ["e"]) namesW (fun x => if x = nm ["e"] then { types := [6, 2] }
      else if x = nm ["a", "e"] then { types := [5] } else if x = nm ["*", "w", "e"] then { types := [t] } else {})
    target := fun _ _ => nm ["b", "w", "e"], first := fun _ => 0 }

theorem wfW (t : Nat) : Wf (zoneW t) := by
  refine ⟨⟨?_, ?_, ?_⟩, ⟨_, rfl⟩, ?_, ?_⟩
  · simp only [zoneW]; decide +kernel
  · simp only [zoneW]; decide +kernel
  · simp only [zoneW]; decide +kernel
  · simp only [zoneW]; decide +kernel
  · obtain ⟨_, h⟩ := C19_flags (nm ["e"]) namesW (fun x => if x = nm ["e"] then { types := [6, 2] }
      else if x = nm ["a", "e"] then { types := [5] } else if x = nm ["*", "w", "e"] then { types := [t] } else {})
      (by refine ⟨?_, ?_, ?_⟩ <;> decide +kernel)
    show 6 ∈ (Nsecchain.adjust (nm ["e"]) namesW _ (nm ["e"])).types
    rw [h]; simp

theorem encW (t : Nat) : Encloser (zoneW t) (nm ["w", "e"]) (nm ["b", "w", "e"]) := by
  refine ⟨?_, ⟨nm ["b"], rfl⟩, ?_⟩ <;> (simp only [zoneW]; decide +kernel)

theorem sourceW (t : Nat) : Source (zoneW t) (nm ["*", "w", "e"]) (nm ["b", "w", "e"]) := by
  refine ⟨?_, .inr ⟨?_, nm ["w", "e"], encW t, by decide +kernel⟩⟩ <;> (simp only [zoneW]; decide +kernel)

theorem aliasW (t : Nat) (ht : t = 1 ∨ t = 39) : Lookup (zoneW t) t (nm ["a", "e"]) (.alias (nm ["a", "e"])) := by
  rcases ht with rfl | rfl
  · exact .alias ⟨by decide +kernel, .inl rfl⟩ ((auth_iff _).mp (fun ⟨d, h, _⟩ => nocut (by decide +kernel) _ d h))
      (.inl (by decide +kernel)) (by unfold Direct; decide)
  · exact .alias ⟨by decide +kernel, .inl rfl⟩ ((auth_iff _).mp (fun ⟨d, h, _⟩ => nocut (by decide +kernel) _ d h))
      (.inl (by decide +kernel)) (by unfold Direct; decide)

theorem dataW (t : Nat) (ht : t = 1 ∨ t = 39) : Lookup (zoneW t) t (nm ["b", "w", "e"]) (.data (nm ["*", "w", "e"]) t) := by
  rcases ht with rfl | rfl
  · refine .data (sourceW _) ((auth_iff _).mp (fun ⟨d, h, _⟩ => nocut (by decide +kernel) _ d h)) ?_ ?_
    · unfold Owns Direct; decide +kernel
    · exact ⟨rfl, .inl (by decide +kernel)⟩
  · refine .data (sourceW _) ((auth_iff _).mp (fun ⟨d, h, _⟩ => nocut (by decide +kernel) _ d h)) ?_ ?_
    · unfold Owns Direct; decide +kernel
    · exact ⟨rfl, .inl (by decide +kernel)⟩

theorem regularW : Regular (zoneW 1) 1 (nm ["a", "e"]) := by
  intro ls m hp
  cases ls with
  | nil =>
    have hp : nm ["a", "e"] = m := hp
    rw [← hp]
    refine ⟨fun c h => ?_, fun s h => absurd rfl h⟩
    cases lookup_unique (wfW 1) (aliasW 1 (.inl rfl)) h
  | cons l ls =>
    have hl := step_unique (wfW 1) hp.2.1 (.cname (aliasW 1 (.inl rfl))) hp.1
    have hp2 := hp.2.2
    rw [hl] at hp2
    obtain ⟨_, e⟩ := path_end (wfW 1) (dataW 1 (.inl rfl)) (by simp) (by simp) hp2
    rw [← e]
    refine ⟨fun c h => ?_, fun s _ _ h => ?_⟩
    · cases lookup_unique (wfW 1) (dataW 1 (.inl rfl)) h
    · have := lookup_unique (wfW 1) (dataW 1 (.inl rfl)) h
      simp at this

end Answer.Demo

example : Regular (zoneW 1) (ask 1).type (nm ["a", "e"]) := regularW

/-- C17. Finding: DNAME records of a wildcard get the wildcard as their owner, not the name, if a CNAME leads there. -/
theorem C17_wildcard_dname : Wf (zoneW 39) ∧
    Correct (zoneW 39) 39 (nm ["a", "e"]) ⟨.hit, true, 0,
      [.rr (nm ["a", "e"]) (nm ["a", "e"]) 5, .rr (nm ["b", "w", "e"]) (nm ["*", "w", "e"]) 39], none⟩ ∧
    answer (zoneW 39) (ask 39) (nm ["a", "e"]) = .ok ⟨.hit, true, 0,
      [.rr (nm ["a", "e"]) (nm ["a", "e"]) 5, .rr (nm ["*", "w", "e"]) (nm ["*", "w", "e"]) 39], none⟩ := by
  refine ⟨wfW 39, ⟨[⟨nm ["a", "e"], nm ["a", "e"], 5, nm ["b", "w", "e"]⟩], nm ["b", "w", "e"], ⟨rfl, ?_, rfl⟩, ⟨?_, by simp⟩,
    by simp, Ends.data (ls := [⟨nm ["a", "e"], nm ["a", "e"], 5, nm ["b", "w", "e"]⟩]) (dataW 39 (.inr rfl)), by simp⟩, ?_⟩
  · exact .cname (aliasW 39 (.inr rfl))
  · intro A l B e
    have hA : A = [] := by
      cases A with
      | nil => rfl
      | cons x A => simp at e
    rw [hA]
    rintro ⟨l', h, _⟩
    simp at h
  · decide +kernel

end Knot
