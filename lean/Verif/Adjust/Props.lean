import Verif.Adjust.Lemmas6
/-! # C54: adjusting of zone contents -/
namespace Knot.Adjust

/-! Checks of concrete zones, for the examples -/

def wfb (z : Zone) : Bool :=
  decide (z.Pairwise (fun a b => a.name < b.name)) &&
  (match z with | a :: _ => decide (a.name = []) && decide (a.rrs ≠ []) | [] => false) &&
  z.all (fun nd => (List.range (nd.name.length + 1)).all (fun k => decide (nd.name.take k ∈ z.map (·.name)))) &&
  z.all (fun nd => decide ((nd.rrs.map (·.type)).Nodup))

theorem prefix_take {m n : Name} (h : m <+: n) : m = n.take m.length ∧ m.length < n.length + 1 :=
  ⟨List.prefix_iff_eq_take.mp h, Nat.lt_succ_of_le h.length_le⟩

theorem wf_of {z : Zone} (h : wfb z = true) : WF z := by
  unfold wfb at h
  simp only [Bool.and_eq_true] at h
  obtain ⟨⟨⟨h1, h2⟩, h3⟩, h4⟩ := h
  refine ⟨by simpa using h1, ?_, ?_, ?_⟩
  · cases z with
    | nil => simp at h2
    | cons a l =>
      simp only [Bool.and_eq_true, decide_eq_true_iff] at h2
      exact ⟨a, l, rfl, h2.1, h2.2⟩
  · intro nd hnd m hm
    obtain ⟨h5, h6⟩ := prefix_take hm
    have := List.all_eq_true.mp h3 nd hnd
    have := List.all_eq_true.mp this m.length (List.mem_range.mpr h6)
    rw [← h5, decide_eq_true_iff, List.mem_map] at this
    exact this
  · intro nd hnd
    have := List.all_eq_true.mp h4 nd hnd
    simpa using this

def coversb (z z' : Zone) (ptrs : List Name) : Bool :=
  decide ptrs.Nodup &&
  decide (z.filter (fun nd => !decide (nd.name ∈ ptrs)) = z'.filter (fun nd => !decide (nd.name ∈ ptrs))) &&
  ptrs.all (fun n => (List.range (n.length + 1)).all (fun k => decide (n.take k ∈ ptrs)))

theorem covers_of {z z' : Zone} {ptrs : List Name} (h : coversb z z' ptrs = true) : Covers z z' ptrs := by
  unfold coversb at h
  simp only [Bool.and_eq_true, decide_eq_true_iff] at h
  obtain ⟨⟨h1, h2⟩, h3⟩ := h
  refine ⟨h1, ?_, ?_⟩
  · intro nd hn
    have := congrArg (fun l => nd ∈ l) h2
    simp only [List.mem_filter, hn, decide_false, Bool.not_false, and_true, eq_iff_iff] at this
    exact this
  · intro n hn m hm
    obtain ⟨h5, h6⟩ := prefix_take hm
    have := List.all_eq_true.mp h3 n hn
    have := List.all_eq_true.mp this m.length (List.mem_range.mpr h6)
    rw [← h5, decide_eq_true_iff] at this
    exact this

/-! The zones of the examples: SOA at the apex, a delegation at 10 with glue at 5.10, an address at 20. -/

def exSoa : RR := ⟨6, 3600, 60, [none]⟩
def exA : RR := ⟨1, 300, 20, [none]⟩
def exTxt : RR := ⟨16, 7200, 30, [none]⟩
def exNs (n : Name) : RR := ⟨2, 3600, 25, [some n]⟩
def exMx (n : Name) : RR := ⟨15, 600, 27, [none, some n]⟩

def exZ0 : Zone :=
  [⟨[], [exSoa, exNs [20]]⟩, ⟨[10], [exNs [10, 5]]⟩, ⟨[10, 5], [exA]⟩, ⟨[20], [exA]⟩]
/-- The delegation is gone. -/
def exZ1 : Zone :=
  [⟨[], [exSoa, exNs [20]]⟩, ⟨[10], [exTxt]⟩, ⟨[10, 5], [exA]⟩, ⟨[20], [exA]⟩]

theorem ex_life0 : Life (load exZ0) := .load (wf_of (by decide +kernel))
theorem ex_wf1 : WF exZ1 := wf_of (by decide +kernel)
theorem ex_covers1 : Covers (load exZ0).z exZ1 [[], [10]] := covers_of (by decide +kernel)

/-- Wildcard at the apex, mail of 30 goes to 5.20. -/
def exW0 : Zone := [⟨[], [exSoa]⟩, ⟨[30], [exMx [20, 5]]⟩, ⟨[42], [exA]⟩]
/-- 20 is added. -/
def exW1 : Zone := [⟨[], [exSoa]⟩, ⟨[20], [exTxt]⟩, ⟨[30], [exMx [20, 5]]⟩, ⟨[42], [exA]⟩]

theorem ex_wlife0 : Life (load exW0) := .load (wf_of (by decide +kernel))
theorem ex_wwf1 : WF exW1 := wf_of (by decide +kernel)
theorem ex_wcovers : Covers (load exW0).z exW1 [[], [20]] := covers_of (by decide +kernel)

/-- The server of the zone is 5.20. -/
def exG0 : Zone := [⟨[], [exSoa, exNs [20, 5]]⟩, ⟨[20], []⟩, ⟨[20, 5], [exA]⟩]
/-- 20 is delegated. -/
def exG1 : Zone := [⟨[], [exSoa, exNs [20, 5]]⟩, ⟨[20], [exNs [20, 5]]⟩, ⟨[20, 5], [exA]⟩]

theorem ex_glife0 : Life (load exG0) := .load (wf_of (by decide +kernel))
theorem ex_gwf1 : WF exG1 := wf_of (by decide +kernel)
theorem ex_gcovers : Covers (load exG0).z exG1 [[], [20]] := covers_of (by decide +kernel)

theorem refers_needs {t : Nat} (h : Refers t) : needsAdd t = true := by
  rcases h with h | h | h | h | h <;> subst h <;> rfl

end Knot.Adjust

namespace Knot
open Adjust

/-- C54. In every life of a zone, after every load and update, the flags of every node say exactly whether it is
below a delegation, whether it is a delegation, and whether there is authoritative data, or any data, at or below
it. -/
theorem C54_flags {s : St} (h : Life s) : ∀ nd ∈ s.z, FlagsOk s.z nd.name (s.fl nd.name) :=
  (life_inv h).flags

example : ((load exZ0).fl [10]).deleg = true ∧ ((load exZ0).fl [10, 5]).nonauth = true ∧
    ((update (load exZ0) exZ1 [[], [10]]).fl [10, 5]).nonauth = false ∧
    ((update (load exZ0) exZ1 [[], [10]]).fl [10]).sauth = true := by decide +kernel
example : Life (update (load exZ0) exZ1 [[], [10]]) := .update ex_life0 ex_wf1 ex_covers1

/-- C54. The same after any pass over a zone, whatever the flags were before. -/
theorem C54_flags_pass {z : Zone} (hw : WF z) (prevs : Bool) (fl : Name → Fl) (prev : Name → Option Name) :
    ∀ nd ∈ z, FlagsOk z nd.name ((adjustTree prevs z fl prev).fl nd.name) :=
  (flags_ok hw prevs fl prev).1

example : ((adjustTree true exZ0 (fun _ => ⟨true, true, true, true⟩) (fun _ => none)).fl [20]).nonauth = false := by
  decide +kernel

/-- C54. After a zone is loaded, the pointer of every node is to the nearest authoritative node before it, on the
circle of names. -/
theorem C54_prevs_load {z : Zone} (hw : WF z) : ∀ nd ∈ z, PrevOk z nd.name ((load z).prev nd.name) := by
  unfold load
  dsimp only
  exact prevs_ok hw _ (fun nd hnd => ((flags_ok hw true _ _).1 nd hnd).1)

example : (load exZ0).prev [20] = some [10] ∧ (load exZ0).prev [] = some [20] := by decide +kernel

/-- C54. The same after every update that was checked (incremental transfer, control transaction). -/
theorem C54_prevs_checked {s : St} {z' : Zone} (hw : WF z') (ptrs : List Name) :
    ∀ nd ∈ z', PrevOk z' nd.name ((updateChecked s z' ptrs).prev nd.name) := by
  unfold updateChecked adjustUpdate
  dsimp only
  exact prevs_ok hw _ (fun nd hnd => ((flags_ok hw false _ _).1 nd hnd).1)

example : (updateChecked (load exZ0) exZ1 [[], [10]]).prev [20] = some [10, 5] := by decide +kernel

/-- C54. After an update that was not checked (dynamic update, reload with differences) no pointer passes over an
authoritative node, if no node with records comes out of a delegation. Missing: the other updates, for which it
is false (`C54_prevs_stale`). -/
theorem C54_prevs_update_partial {s : St} (h : Life s) {z' : Zone} (hw : WF z') (ptrs : List Name)
    (hk : ∀ nd ∈ z', nd.rrs ≠ [] → (∃ x ∈ s.z, x.name = nd.name) → Below s.z nd.name → Below z' nd.name) :
    ∀ nd ∈ z', NoSkip z' nd.name ((update s z' ptrs).prev nd.name) := by
  unfold update adjustUpdate
  dsimp only
  apply prevs_noskip hw
  intro nd hnd h1 h2
  unfold carry at h1
  split at h1
  · rename_i hx
    obtain ⟨x, hx, hxn⟩ := mem_names.mp hx
    have := ((life_inv h).flags x hx).1
    rw [hxn] at this
    exact hk nd hnd h2 ⟨x, hx, hxn⟩ (this.mp h1)
  · simp at h1

example : Below exZ0 [10, 5] ∧ ∀ nd ∈ exZ0, nd.rrs ≠ [] → (∃ x ∈ (load exZ0).z, x.name = nd.name) →
    Below (load exZ0).z nd.name → Below exZ0 nd.name :=
  ⟨⟨[10], ⟨by decide, ⟨[10], [exNs [10, 5]]⟩, by decide +kernel, rfl, exNs [10, 5], by decide +kernel, rfl⟩,
    by decide, by decide⟩, fun _ _ _ _ h => h⟩

/-- C54. The pointer is to the nearest authoritative node, if in addition no node comes under a delegation. -/
theorem C54_prevs_update_exact_partial {s : St} (h : Life s) {z' : Zone} (hw : WF z') (ptrs : List Name)
    (hk : ∀ nd ∈ z', (((∃ x ∈ s.z, x.name = nd.name) ∧ Below s.z nd.name) ↔ Below z' nd.name)) :
    ∀ nd ∈ z', PrevOk z' nd.name ((update s z' ptrs).prev nd.name) := by
  unfold update adjustUpdate
  dsimp only
  apply prevs_ok hw
  intro nd hnd
  rw [← hk nd hnd]
  unfold carry
  split
  · rename_i hx
    obtain ⟨x, hx, hxn⟩ := mem_names.mp hx
    have := ((life_inv h).flags x hx).1
    rw [hxn] at this
    rw [this]
    exact ⟨fun h => ⟨⟨x, hx, hxn⟩, h⟩, fun h => h.2⟩
  · rename_i hx
    constructor
    · intro h1; simp at h1
    · rintro ⟨h1, _⟩; exact absurd (mem_names.mpr h1) hx

example : ∀ nd ∈ exW1, (((∃ x ∈ (load exW0).z, x.name = nd.name) ∧ Below (load exW0).z nd.name) ↔
    Below exW1 nd.name) := by
  have h0 : ∀ n, ¬ Below (load exW0).z n := by
    rintro n ⟨m, ⟨h1, nd, h2, h3, r, h4, h5⟩, _⟩
    have : ∀ nd ∈ (load exW0).z, ∀ r ∈ nd.rrs, r.type ≠ 2 := by decide +kernel
    exact this nd h2 r h4 h5
  have h1 : ∀ n, ¬ Below exW1 n := by
    rintro n ⟨m, ⟨h1, nd, h2, h3, r, h4, h5⟩, _⟩
    have : ∀ nd ∈ exW1, ∀ r ∈ nd.rrs, r.type ≠ 2 := by decide +kernel
    exact this nd h2 r h4 h5
  intro nd _
  exact ⟨fun h => absurd h.2 (h0 _), fun h => absurd h (h1 _)⟩

/-- C54. Finding: adjusting decides whether a node is authoritative by its flags from before the adjusting. When an
update that is not checked removes a delegation, the pointer of a node after it passes over the nodes that were
below the delegation. -/
theorem C54_prevs_stale : ∃ s z' ptrs, Life s ∧ WF z' ∧ Covers s.z z' ptrs ∧
    ∃ nd ∈ z', ¬ NoSkip z' nd.name ((update s z' ptrs).prev nd.name) := by
  refine ⟨load exZ0, exZ1, [[], [10]], ex_life0, ex_wf1, ex_covers1, ⟨[20], [exA]⟩, by decide +kernel, ?_⟩
  rintro ⟨m, h1, _, h2⟩
  have hp : (update (load exZ0) exZ1 [[], [10]]).prev [20] = some [10] := by decide +kernel
  rw [hp, Option.some.injEq] at h1
  subst h1
  refine h2 [10, 5] ⟨⟨⟨[10, 5], [exA]⟩, by decide +kernel, rfl, by decide⟩, ?_⟩ (.inl (by decide))
  rintro ⟨m, ⟨h1, nd, h3, h4, r, h5, h6⟩, _⟩
  have : ∀ nd ∈ exZ1, ∀ r ∈ nd.rrs, r.type = 2 → nd.name = [] := by decide +kernel
  exact h1 (h4 ▸ this nd h3 r h5 h6)

/-- C54. In every life the size of the zone, counted from the changes, is the sum of the sizes of all RRsets. -/
theorem C54_size {s : St} (h : Life s) : s.size = totalSize s.z := (life_inv h).size

example : (update (load exZ0) exZ1 [[], [10]]).size = 155 ∧ (load exZ0).size = 150 := by decide +kernel

/-- C54. In every life the maximal TTL, kept from one update to the next, is the greatest TTL in the zone. -/
theorem C54_max_ttl {s : St} (h : Life s) : GreatestTtl s.z s.ttl := greatest (life_inv h).wf (life_inv h).ttl

example : (load exZ0).ttl = 3600 ∧ (update (load exZ0) exZ1 [[], [10]]).ttl = 7200 ∧
    (update (update (load exZ0) exZ1 [[], [10]]) exZ0 [[], [10]]).ttl = 3600 := by decide +kernel

/-- C54. In every life no RRset points to an additional node that is not in the zone, every additional node belongs
to a name in the rdata, and every name in the rdata that is a node is there. -/
theorem C54_additionals {s : St} (h : Life s) : ∀ nd ∈ s.z, ∀ r ∈ nd.rrs, Refers r.type →
    AddsLoose s.z r (s.adds nd.name r.type) :=
  fun nd hnd r hr ht => (life_inv h).loose nd hnd r hr (refers_needs ht)

example : (load exW0).adds [30] 15 = [⟨[42], 1, true⟩] ∧ (load exZ0).adds [10] 2 = [⟨[10, 5], 0, false⟩] ∧
    Life (update (load exW0) exW1 [[], [20]]) :=
  ⟨by decide +kernel, by decide +kernel, .update ex_wlife0 ex_wwf1 ex_wcovers⟩

/-- C54. After a load, and after any updates that keep the closest enclosers of the names in rdata, the additional
nodes of every RRset are those that a search of the whole zone gives. Missing: the other updates, for which it
is false (`C54_additionals_stale`). -/
theorem C54_additionals_partial {s : St} (h : Clean s) : ∀ nd ∈ s.z, ∀ r ∈ nd.rrs, Refers r.type →
    AddsOk s.z nd.name r (s.adds nd.name r.type) :=
  fun nd hnd r hr ht => clean_fresh h nd hnd r hr (refers_needs ht)

/-- An update that makes a delegation: the address of the server becomes mandatory. -/
example : Clean (update (load exG0) exG1 [[], [20]]) ∧ (load exG0).adds [] 2 = [⟨[20, 5], 0, true⟩] ∧
    (update (load exG0) exG1 [[], [20]]).adds [] 2 = [⟨[20, 5], 0, false⟩] := by
  refine ⟨.update (.load (wf_of (by decide +kernel))) ex_gwf1 ex_gcovers ?_, by decide +kernel, by decide +kernel⟩
  intro nd hnd r hr x hx
  right
  have h0 : ∀ nd ∈ (load exG0).z, nd.name.getLast? ≠ some 42 := by decide +kernel
  have h1 : ∀ nd ∈ exG1, nd.name.getLast? ≠ some 42 := by decide +kernel
  exact ⟨fun nd hnd q _ he => h0 nd hnd (by rw [he]; simp), fun nd hnd q _ he => h1 nd hnd (by rw [he]; simp)⟩

/-- C54. Finding: a node added between a name in rdata and the wildcard that answered for it leaves the wildcard among
the additional nodes, though the name does not exist any more and no wildcard answers for it. -/
theorem C54_additionals_stale : ∃ s z' ptrs, Life s ∧ WF z' ∧ Covers s.z z' ptrs ∧
    ∃ nd ∈ z', ∃ r ∈ nd.rrs, Refers r.type ∧ ∃ x, some x ∈ r.refs ∧ (∀ m, ¬ Answers z' x m) ∧
      (∃ g ∈ (update s z' ptrs).adds nd.name r.type, r.refs[g.pos]? = some (some x)) ∧
      ∃ g ∈ (updateChecked s z' ptrs).adds nd.name r.type, r.refs[g.pos]? = some (some x) := by
  refine ⟨load exW0, exW1, [[], [20]], ex_wlife0, ex_wwf1, ex_wcovers, ⟨[30], [exMx [20, 5]]⟩, by decide +kernel,
    exMx [20, 5], by decide +kernel, .inr (.inl rfl), [20, 5], by decide +kernel, ?_,
    ⟨⟨[42], 1, true⟩, by decide +kernel, rfl⟩, ⟨[42], 1, true⟩, by decide +kernel, rfl⟩
  intro m hm
  rw [← find_iff ex_wwf1] at hm
  have : find exW1 [20, 5] = none := by decide +kernel
  rw [this] at hm
  simp at hm

/-- C54. After a commit both versions of every node, the one that is served and the one the next update starts with,
have the same flags and the same pointer. -/
theorem C54_versions_agree {s : St} (h : Life s) {z' : Zone} {ptrs : List Name} (hw : WF z')
    (hc : Covers s.z z' ptrs) : ∀ nd ∈ z',
    unify s.fl (update s z' ptrs).fl ptrs (adjustTree true z' (carry s) s.prev).changed nd.name =
      (update s z' ptrs).fl nd.name ∧
    unify s.prev (update s z' ptrs).prev ptrs (adjustTree true z' (carry s) s.prev).changed nd.name =
      (update s z' ptrs).prev nd.name := by
  intro nd hnd
  unfold unify
  constructor
  · split
    · rfl
    · rename_i hn
      rw [not_or] at hn
      exact (flags_changed (life_inv h) hw hc true hnd hn.1 hn.2).symm
  · split
    · rfl
    · rename_i hn
      rw [not_or] at hn
      apply Classical.byContradiction
      intro he
      exact hn.2 (prev_changed true z' (carry s) s.prev nd.name (fun e => he e.symm))

example : (adjustTree true exZ1 (carry (load exZ0)) (load exZ0).prev).changed ≠ [] ∧
    (update (load exZ0) exZ1 [[], [10]]).fl [10, 5] ≠ (load exZ0).fl [10, 5] ∧ [10, 5] ∉ [([] : Name), [10]] := by
  decide +kernel

/-- C54. The same after a checked update. -/
theorem C54_versions_agree_checked {s : St} (h : Life s) {z' : Zone} {ptrs : List Name} (hw : WF z')
    (hc : Covers s.z z' ptrs) : ∀ nd ∈ z',
    unify s.fl (updateChecked s z' ptrs).fl (insertAll ptrs (adjustTree false z' (carry s) s.prev).changed)
        (adjustTree true z' (adjustTree false z' (carry s) s.prev).fl s.prev).changed nd.name =
      (updateChecked s z' ptrs).fl nd.name ∧
    unify s.prev (updateChecked s z' ptrs).prev (insertAll ptrs (adjustTree false z' (carry s) s.prev).changed)
        (adjustTree true z' (adjustTree false z' (carry s) s.prev).fl s.prev).changed nd.name =
      (updateChecked s z' ptrs).prev nd.name := by
  intro nd hnd
  unfold unify
  constructor
  · split
    · rfl
    · rename_i hn
      rw [not_or, insertAll_mem, not_or] at hn
      have h1 := flags_changed (life_inv h) hw hc false hnd hn.1.1 hn.1.2
      have h2 := (flags_ok hw false (carry s) s.prev).1 nd hnd
      have h3 := (flags_ok hw true (adjustTree false z' (carry s) s.prev).fl s.prev).1 nd hnd
      rw [h1] at h2
      exact flags_unique h3 h2
  · split
    · rfl
    · rename_i hn
      rw [not_or] at hn
      apply Classical.byContradiction
      intro he
      exact hn.2 (prev_changed true z' _ s.prev nd.name (fun e => he e.symm))

example : [10, 5] ∈ (adjustTree false exZ1 (carry (load exZ0)) (load exZ0).prev).changed := by decide +kernel

end Knot
