import Verif.Rdataset.Lemmas
/-!
# C09: record data sets are canonically sorted mathematical sets
-/
namespace Knot
open Rdataset

/-- A canonical list is determined by its members, so stating the members of a
result together with `Holds` pins the result down completely. -/
theorem C09_canonical_unique {rs rs' : RS} {l l' : List Bytes} (h : Holds rs l) (h' : Holds rs' l')
    (hm : ∀ x, x ∈ l ↔ x ∈ l') : l = l' ∧ rs = rs' := by
  have := canon_ext h.1 h'.1 hm
  subst this
  refine ⟨rfl, ?_⟩
  obtain ⟨c, s, r⟩ := rs
  obtain ⟨c', s', r'⟩ := rs'
  obtain ⟨-, -, -, h1, h2, h3⟩ := h
  obtain ⟨-, -, -, h1', h2', h3'⟩ := h'
  simp only at h1 h2 h3 h1' h2' h3'
  subst h1 h2 h3 h1' h2' h3'
  rfl

/-- C09. A fresh set is the empty set. -/
theorem C09_init : Holds init [] := by
  simp [Holds, Canon, init]

/-- C09. Adding: a present record changes nothing, an absent one is inserted, and the only
failure, which leaves the set unchanged, is reaching the limit of 65535 records or of
4 GiB minus one maximal record. -/
theorem C09_add {rs : RS} {l : List Bytes} (h : Holds rs l) (d : Bytes) (hd : d.length ≤ 65535) :
    ∃ rs' l' st, add rs d = .ok (rs', st) ∧ Holds rs' l' ∧
      ((st = none ∧ ∀ x, x ∈ l' ↔ x = d ∨ x ∈ l) ∨
       (st = some .espace ∧ rs' = rs ∧ d ∉ l ∧ (l.length = 65535 ∨ 4294967295 - 65538 < rs.size))) := by
  have := add_spec h hd
  unfold AddOutcome at this
  split at this
  · rename_i hm
    refine ⟨rs, l, none, this, h, .inl ⟨rfl, fun x => ⟨.inr, ?_⟩⟩⟩
    rintro (rfl | hx)
    · exact hm
    · exact hx
  · split at this
    · obtain ⟨rs', pre, suf, rfl, e, hh⟩ := this
      refine ⟨rs', _, none, e, hh, .inl ⟨rfl, fun x => ?_⟩⟩
      simp only [List.mem_append, List.mem_cons]
      constructor
      · rintro (h | h | h)
        · exact .inr (.inl h)
        · exact .inl h
        · exact .inr (.inr h)
      · rintro (h | h | h)
        · exact .inr (.inl h)
        · exact .inl h
        · exact .inr (.inr h)
    · rename_i hn hroom
      refine ⟨rs, l, _, this, h, .inr ⟨rfl, rfl, hn, ?_⟩⟩
      unfold Room at hroom
      rw [h.2.2.2.1] at hroom
      omega

/-- C09. Membership test. -/
theorem C09_member {rs : RS} {l : List Bytes} (h : Holds rs l) (d : Bytes) :
    member rs d = .ok (decide (d ∈ l)) := member_spec h d

/-- C09. Indexing returns the records in canonical order and NULL behind the end. -/
theorem C09_at {rs : RS} {l : List Bytes} (h : Holds rs l) (i : Nat) :
    rdAt rs i = .ok l[i]? := by
  unfold rdAt
  by_cases hi : i < l.length
  · rw [h.2.2.2.1, if_neg (by omega), rrSeek_holds h hi, Res.bind_ok, List.drop_eq_getElem_cons hi,
      pack_cons, rdataAt_init (h.2.1 _ (List.getElem_mem hi)), Res.bind_ok]
    simp [hi]
  · rw [h.2.2.2.1, if_pos (by omega)]
    simp [hi]

/-- C09. Equality test: true exactly for equal sets of records. -/
theorem C09_eq {a b : RS} {l m : List Bytes} (ha : Holds a l) (hb : Holds b m) :
    ∃ r, Rdataset.eq a b = .ok r ∧ (r = true ↔ ∀ x, x ∈ l ↔ x ∈ m) := by
  have key : ∀ (l m : List Bytes), (∀ d ∈ l, d.length ≤ 65535) → (∀ d ∈ m, d.length ≤ 65535) →
      l.length = m.length → eqLoop l.length (pack l) (pack m) = .ok (decide (l = m)) := by
    intro l
    induction l with
    | nil =>
      intro m _ _ h
      have : m = [] := List.eq_nil_of_length_eq_zero h.symm
      subst this; simp [eqLoop]
    | cons d t ih =>
      intro m hl hm h
      cases m with
      | nil => simp at h
      | cons e u =>
        simp only [List.length_cons, eqLoop, pack_cons, rdataAt_init (hl d (by simp)),
          rdataAt_init (hm e (by simp)), Res.bind_ok]
        by_cases hc : d = e
        · subst hc
          have : rdataCmp d d = .eq := cmp_eq_iff.mpr rfl
          simp only [this, ne_eq, not_true, if_false]
          rw [ih u (fun x hx => hl x (by simp [hx])) (fun x hx => hm x (by simp [hx]))
            (by simpa using h)]
          simp
        · have : rdataCmp d e ≠ .eq := fun h => hc (cmp_eq_iff.mp h)
          simp [this, hc]
  have hiff : (∀ x, x ∈ l ↔ x ∈ m) ↔ l = m :=
    ⟨canon_ext ha.1 hb.1, fun h => by simp [h]⟩
  refine ⟨decide (l = m), ?_, by rw [hiff]; simp⟩
  unfold Rdataset.eq
  rw [ha.2.2.2.1, hb.2.2.2.1, ha.pack, hb.pack]
  by_cases hlen : l.length = m.length
  · rw [if_neg (by omega)]
    exact key l m ha.2.1 hb.2.1 hlen
  · rw [if_pos (by omega)]
    have : l ≠ m := fun h => hlen (by rw [h])
    simp [this]

/-- C09. Subset test; `same` (the two sets share their array) requires equal contents. -/
theorem C09_subset {a b : RS} {l m : List Bytes} (ha : Holds a l) (hb : Holds b m) (same : Bool)
    (hs : same = true → l = m) :
    subset a b same = .ok (decide (∀ x ∈ l, x ∈ m)) := by
  have key : ∀ (l : List Bytes), (∀ d ∈ l, d.length ≤ 65535) →
      subsetLoop b l.length (pack l) = .ok (decide (∀ x ∈ l, x ∈ m)) := by
    intro l
    induction l with
    | nil => intro _; simp [subsetLoop]
    | cons d t ih =>
      intro hl
      simp only [List.length_cons, subsetLoop, pack_cons, rdataAt_init (hl d (by simp)), Res.bind_ok,
        member_spec hb]
      by_cases hm : d ∈ m
      · simp only [hm, decide_true, not_true, if_false]
        rw [ih (fun x hx => hl x (by simp [hx]))]
        simp [hm]
      · simp [hm]
  unfold subset
  cases same with
  | true => rw [hs rfl]; simp
  | false =>
    simp only [Bool.false_eq_true, if_false]
    rw [ha.2.2.2.1, ha.pack]
    exact key l ha.2.1

theorem Rdataset.mergeLoop_spec (m : List Bytes) (hm : ∀ d ∈ m, d.length ≤ 65535) {a : RS}
    {l : List Bytes} (ha : Holds a l) :
    ∃ rs' l' st, mergeLoop a m.length (pack m) = .ok (rs', st) ∧ Holds rs' l' ∧
      ((st = none ∧ ∀ x, x ∈ l' ↔ x ∈ l ∨ x ∈ m) ∨
       (st = some .espace ∧ (∀ x, x ∈ l → x ∈ l') ∧ (∀ x, x ∈ l' → x ∈ l ∨ x ∈ m) ∧
        (l'.length = 65535 ∨ 4294967295 - 65538 < rs'.size))) := by
  induction m generalizing a l with
  | nil => exact ⟨a, l, none, rfl, ha, .inl ⟨rfl, by simp⟩⟩
  | cons d t ih =>
    simp only [List.length_cons, mergeLoop, pack_cons, rdataAt_init (hm d (by simp)), Res.bind_ok]
    obtain ⟨rs1, l1, st1, e1, h1, hcase⟩ := C09_add ha d (hm d (by simp))
    rw [e1]
    simp only [Res.bind_ok]
    rcases hcase with ⟨rfl, hmem⟩ | ⟨rfl, rfl, hn, hlim⟩
    · obtain ⟨rs', l', st, e, h', hc⟩ := ih (fun x hx => hm x (by simp [hx])) h1
      refine ⟨rs', l', st, e, h', ?_⟩
      rcases hc with ⟨rfl, hc⟩ | ⟨rfl, hc1, hc2, hc3⟩
      · refine .inl ⟨rfl, fun x => ?_⟩
        rw [hc x, hmem x, List.mem_cons]
        constructor
        · rintro ((h | h) | h)
          · exact .inr (.inl h)
          · exact .inl h
          · exact .inr (.inr h)
        · rintro (h | h | h)
          · exact .inl (.inr h)
          · exact .inl (.inl h)
          · exact .inr h
      · refine .inr ⟨rfl, fun x hx => hc1 x ((hmem x).mpr (.inr hx)), fun x hx => ?_, hc3⟩
        rcases hc2 x hx with h | h
        · rcases (hmem x).mp h with h | h
          · exact .inr (by simp [h])
          · exact .inl h
        · exact .inr (by simp [h])
    · have : l1 = l := canon_ext h1.1 ha.1 (by
        intro x
        have e1 := h1.2.2.2.2.1
        have e2 := ha.2.2.2.2.1
        have : l1 = l := by
          have k : ∀ (a b : List Bytes), (∀ d ∈ a, d.length ≤ 65535) → (∀ d ∈ b, d.length ≤ 65535) →
              a.length = b.length → pack a = pack b → a = b := by
            intro a
            induction a with
            | nil => intro b _ _ h _; exact (List.eq_nil_of_length_eq_zero h.symm).symm
            | cons x s ih =>
              intro b hA hB h e
              cases b with
              | nil => simp at h
              | cons y t =>
                rw [pack_cons, pack_cons] at e
                have := congrArg rdataAt e
                rw [rdataAt_init (hA x (by simp)), rdataAt_init (hB y (by simp))] at this
                simp only [Res.ok.injEq, Prod.mk.injEq] at this
                rw [this.1, ih t (fun z hz => hA z (by simp [hz])) (fun z hz => hB z (by simp [hz]))
                  (by simpa using h) this.2]
          exact k l1 l h1.2.1 ha.2.1 (by rw [← h1.2.2.2.1, ← ha.2.2.2.1])
            (by rw [← h1.pack, ← ha.pack])
        rw [this])
      subst this
      exact ⟨_, _, _, rfl, h1, .inr ⟨rfl, fun x hx => hx, fun x hx => .inl hx, hlim⟩⟩

/-- C09. Merging is set union, or fails at the limits with a set between the first operand and
the union. -/
theorem C09_merge {a b : RS} {l m : List Bytes} (ha : Holds a l) (hb : Holds b m) :
    ∃ rs' l' st, merge a b = .ok (rs', st) ∧ Holds rs' l' ∧
      ((st = none ∧ ∀ x, x ∈ l' ↔ x ∈ l ∨ x ∈ m) ∨
       (st = some .espace ∧ (∀ x, x ∈ l → x ∈ l') ∧ (∀ x, x ∈ l' → x ∈ l ∨ x ∈ m) ∧
        (l'.length = 65535 ∨ 4294967295 - 65538 < rs'.size))) := by
  unfold merge
  rw [hb.2.2.2.1, hb.pack]
  exact mergeLoop_spec m hb.2.1 ha

/-- C09. Subtraction is set difference and never fails. When both operands are the same
array (then their contents agree), both end up empty. -/
theorem C09_subtract {a b : RS} {l m : List Bytes} (ha : Holds a l) (hb : Holds b m) (same : Bool)
    (hs : same = true → l = m) :
    ∃ a' b' l' m', subtract a b same = .ok (a', b') ∧ Holds a' l' ∧ Holds b' m' ∧
      (∀ x, x ∈ l' ↔ x ∈ l ∧ x ∉ m) ∧ (same = false → m' = m) ∧ (same = true → m' = []) := by
  unfold subtract
  cases same with
  | true =>
    have := hs rfl
    subst this
    exact ⟨_, _, [], [], rfl, C09_init, C09_init, by simp, by simp, by simp⟩
  | false =>
    simp only [Bool.false_eq_true, if_false]
    obtain ⟨rs', l', e, hh, hm⟩ := subtractLoop_spec m hb.2.1 ha
    rw [hb.2.2.2.1, hb.pack, e]
    exact ⟨rs', b, l', m, rfl, hh, hb, hm, by simp, by simp⟩

theorem Rdataset.holds_single {d : Bytes} (hd : d.length ≤ 65535) :
    Holds ⟨1, rdataSize d.length, rdataInit d⟩ [d] := by
  refine ⟨by simp [Canon], by simpa using hd, by simp, by simp, by simp, ?_⟩
  simp [length_rdataInit]

/-- C09. Removing one record removes exactly that record, provided the record passed in is not
the very first record of the set's own array. -/
theorem C09_remove_foreign {a : RS} {l : List Bytes} (ha : Holds a l) (d : Bytes)
    (hd : d.length ≤ 65535) :
    ∃ a' l', remove a d false = .ok a' ∧ Holds a' l' ∧ ∀ x, x ∈ l' ↔ x ∈ l ∧ x ≠ d := by
  obtain ⟨a', b', l', m', e, h1, -, h3, -⟩ := C09_subtract ha (holds_single hd) false (by simp)
  refine ⟨a', l', ?_, h1, fun x => by rw [h3 x]; simp⟩
  unfold remove
  rw [e]; rfl

/-- C09. What `C09_remove_foreign` leaves out: removing a record through a pointer to the first
record of the set itself empties the whole set, not just that record. -/
theorem C09_remove_own_first_clears {a : RS} {l : List Bytes} (_ha : Holds a l) (d : Bytes) :
    remove a d true = .ok init := rfl

example : ∃ a l d, Holds a l ∧ l.head? = some d ∧ l.length = 2 ∧ remove a d true = .ok init := by
  obtain ⟨rs1, l1, st1, -, h1, hc1⟩ := C09_add C09_init [1] (by decide)
  refine ⟨⟨2, 8, rdataInit [1] ++ rdataInit [2]⟩, [[1], [2]], [1], ?_, rfl, rfl, rfl⟩
  refine ⟨?_, by decide, by decide, rfl, rfl, rfl⟩
  simp only [Canon, List.pairwise_cons, List.mem_singleton, forall_eq, List.not_mem_nil]
  exact ⟨rfl, by simp⟩

/-- C09. Intersection into a fresh set (`knot_rdataset_intersect`). -/
theorem C09_intersect {a b : RS} {l m : List Bytes} (ha : Holds a l) (hb : Holds b m) :
    ∃ rs' l' st, intersect a b = .ok (rs', st) ∧ Holds rs' l' ∧
      ((st = none ∧ ∀ x, x ∈ l' ↔ x ∈ l ∧ x ∈ m) ∨ (st = some .espace ∧ l' = [])) := by
  have key : ∀ (s : List Bytes), (∀ d ∈ s, d.length ≤ 65535) → ∀ (out : RS) (o : List Bytes),
      Holds out o →
      ∃ rs' l' st, intersectLoop b out s.length (pack s) = .ok (rs', st) ∧ Holds rs' l' ∧
      ((st = none ∧ ∀ x, x ∈ l' ↔ x ∈ o ∨ (x ∈ s ∧ x ∈ m)) ∨ (st = some .espace ∧ l' = [])) := by
    intro s
    induction s with
    | nil => intro _ out o ho; exact ⟨out, o, none, rfl, ho, .inl ⟨rfl, by simp⟩⟩
    | cons d t ih =>
      intro hl out o ho
      simp only [List.length_cons, intersectLoop, pack_cons, rdataAt_init (hl d (by simp)),
        Res.bind_ok, member_spec hb]
      have hl' : ∀ d ∈ t, d.length ≤ 65535 := fun x hx => hl x (by simp [hx])
      by_cases hm : d ∈ m
      · simp only [hm, decide_true, if_true]
        obtain ⟨rs1, l1, st1, e1, h1, hcase⟩ := C09_add ho d (hl d (by simp))
        rw [e1]
        simp only [Res.bind_ok]
        rcases hcase with ⟨rfl, hmem⟩ | ⟨rfl, rfl, hn, hlim⟩
        · obtain ⟨rs', l', st, e, h', hc⟩ := ih hl' rs1 l1 h1
          refine ⟨rs', l', st, e, h', ?_⟩
          rcases hc with ⟨rfl, hc⟩ | hc
          · refine .inl ⟨rfl, fun x => ?_⟩
            rw [hc x, hmem x, List.mem_cons]
            constructor
            · rintro ((h | h) | h)
              · exact .inr ⟨.inl h, h ▸ hm⟩
              · exact .inl h
              · exact .inr ⟨.inr h.1, h.2⟩
            · rintro (h | ⟨h | h, h'⟩)
              · exact .inl (.inr h)
              · exact .inl (.inl h)
              · exact .inr ⟨h, h'⟩
          · exact .inr hc
        · exact ⟨_, [], _, rfl, C09_init, .inr ⟨rfl, rfl⟩⟩
      · simp only [hm, decide_false, Bool.false_eq_true, if_false]
        obtain ⟨rs', l', st, e, h', hc⟩ := ih hl' out o ho
        refine ⟨rs', l', st, e, h', ?_⟩
        rcases hc with ⟨rfl, hc⟩ | hc
        · refine .inl ⟨rfl, fun x => ?_⟩
          rw [hc x, List.mem_cons]
          constructor
          · rintro (h | h)
            · exact .inl h
            · exact .inr ⟨.inr h.1, h.2⟩
          · rintro (h | ⟨rfl | h, h'⟩)
            · exact .inl h
            · exact absurd h' hm
            · exact .inr ⟨h, h'⟩
        · exact .inr hc
  unfold intersect
  rw [ha.2.2.2.1, ha.pack]
  simpa using key l ha.2.1 init [] C09_init

/-- C09. In-place intersection (`knot_rdataset_intersect2`) never fails. -/
theorem C09_intersect2 {a b : RS} {l m : List Bytes} (ha : Holds a l) (hb : Holds b m) (same : Bool)
    (hs : same = true → l = m) :
    ∃ a' l', intersect2 a b same = .ok a' ∧ Holds a' l' ∧ ∀ x, x ∈ l' ↔ x ∈ l ∧ x ∈ m := by
  unfold intersect2
  cases same with
  | true => exact ⟨a, l, rfl, ha, fun x => by rw [← hs rfl]; simp⟩
  | false =>
    simp only [Bool.false_eq_true, if_false]
    obtain ⟨a', l', e, hh, hm⟩ := intersect2Loop_spec hb l [] (rs := a) ha (pack l) (fun _ => rfl)
    rw [ha.2.2.2.1, ha.pack]
    exact ⟨a', l', e, hh, by simpa using hm⟩

/-- C09. A copy holds the same records. -/
theorem C09_copy {a : RS} {l : List Bytes} (ha : Holds a l) : copy a = .ok a := by
  unfold copy
  obtain ⟨c, s, r⟩ := a
  obtain ⟨-, -, -, h1, h2, h3⟩ := ha
  simp only at h1 h2 h3
  split
  · rw [if_neg (by simp only; omega)]
    simp only [h3, List.take_length]
  · rename_i h
    simp only at h
    have : l = [] := List.eq_nil_of_length_eq_zero (by omega)
    subst this
    simp at h2
    subst h2
    simp at h3
    subst h3
    simp

/-! ## Arbitrary histories -/

/-- One API call on a store of sets, addressed by number. -/
inductive SetOp where
  | add (i : Nat) (d : Bytes)
  | remove (i : Nat) (d : Bytes)
  | merge (i j : Nat)
  | subtract (i j : Nat)
  | intersect (i j out : Nat)
  | intersect2 (i j : Nat)
  | clear (i : Nat)
  | copy (src dst : Nat)

/-- Replace one entry of a store. -/
def Rdataset.put {α : Type} (s : Nat → α) (i : Nat) (v : α) : Nat → α :=
  fun j => if j = i then v else s j

/-- Run one call. Two operands share their array exactly when they are the same set. -/
def Rdataset.call (s : Nat → RS) : SetOp → Res (Nat → RS)
  | .add i d => do let (r, _) ← Rdataset.add (s i) d; .ok (put s i r)
  | .remove i d => do let r ← Rdataset.remove (s i) d false; .ok (put s i r)
  | .merge i j => do let (r, _) ← Rdataset.merge (s i) (s j); .ok (put s i r)
  | .subtract i j => do
      let (r, r') ← Rdataset.subtract (s i) (s j) (i == j); .ok (put (put s i r) j r')
  | .intersect i j out => do let (r, _) ← Rdataset.intersect (s i) (s j); .ok (put s out r)
  | .intersect2 i j => do let r ← Rdataset.intersect2 (s i) (s j) (i == j); .ok (put s i r)
  | .clear i => .ok (put s i (Rdataset.clear (s i)))
  | .copy i j => do let r ← Rdataset.copy (s i); .ok (put s j r)

/-- Run a history of calls. -/
def Rdataset.history (s : Nat → RS) : List SetOp → Res (Nat → RS)
  | [] => .ok s
  | o :: os => do let s' ← call s o; history s' os

/-- Record data passed to a call is at most 65535 bytes long (its length field has 16 bits). -/
def SetOp.fits : SetOp → Prop
  | .add _ d => d.length ≤ 65535
  | .remove _ d => d.length ≤ 65535
  | _ => True

theorem Rdataset.put_holds {s : Nat → RS} (hs : ∀ i, ∃ l, Holds (s i) l) {r : RS} {l : List Bytes}
    (hr : Holds r l) (i : Nat) : ∀ j, ∃ l, Holds (put s i r j) l := by
  intro j
  unfold put
  split
  · exact ⟨l, hr⟩
  · exact hs j

theorem Rdataset.call_holds (s : Nat → RS) (hs : ∀ i, ∃ l, Holds (s i) l) (o : SetOp) (ho : o.fits) :
    ∃ s', call s o = .ok s' ∧ ∀ i, ∃ l, Holds (s' i) l := by
  cases o with
  | add i d =>
    obtain ⟨l, hl⟩ := hs i
    obtain ⟨r, l', st, e, h, -⟩ := C09_add hl d ho
    exact ⟨_, by simp only [call, e, Res.bind_ok], put_holds hs h i⟩
  | remove i d =>
    obtain ⟨l, hl⟩ := hs i
    obtain ⟨r, l', e, h, -⟩ := C09_remove_foreign hl d ho
    exact ⟨_, by simp only [call, e, Res.bind_ok], put_holds hs h i⟩
  | merge i j =>
    obtain ⟨l, hl⟩ := hs i
    obtain ⟨m, hm⟩ := hs j
    obtain ⟨r, l', st, e, h, -⟩ := C09_merge hl hm
    exact ⟨_, by simp only [call, e, Res.bind_ok], put_holds hs h i⟩
  | subtract i j =>
    obtain ⟨l, hl⟩ := hs i
    obtain ⟨m, hm, hlm⟩ : ∃ m, Holds (s j) m ∧ ((i == j) = true → l = m) := by
      by_cases hij : i = j
      · subst hij; exact ⟨l, hl, fun _ => rfl⟩
      · obtain ⟨m, hm⟩ := hs j
        exact ⟨m, hm, fun h => absurd (by simpa using h) hij⟩
    obtain ⟨r, r', l', m', e, h, h', -⟩ := C09_subtract hl hm (i == j) hlm
    exact ⟨_, by simp only [call, e, Res.bind_ok], put_holds (put_holds hs h i) h' j⟩
  | intersect i j out =>
    obtain ⟨l, hl⟩ := hs i
    obtain ⟨m, hm⟩ := hs j
    obtain ⟨r, l', st, e, h, -⟩ := C09_intersect hl hm
    exact ⟨_, by simp only [call, e, Res.bind_ok], put_holds hs h out⟩
  | intersect2 i j =>
    obtain ⟨l, hl⟩ := hs i
    obtain ⟨m, hm, hlm⟩ : ∃ m, Holds (s j) m ∧ ((i == j) = true → l = m) := by
      by_cases hij : i = j
      · subst hij; exact ⟨l, hl, fun _ => rfl⟩
      · obtain ⟨m, hm⟩ := hs j
        exact ⟨m, hm, fun h => absurd (by simpa using h) hij⟩
    obtain ⟨r, l', e, h, -⟩ := C09_intersect2 hl hm (i == j) hlm
    exact ⟨_, by simp only [call, e, Res.bind_ok], put_holds hs h i⟩
  | clear i => exact ⟨_, rfl, put_holds hs C09_init i⟩
  | copy i j =>
    obtain ⟨l, hl⟩ := hs i
    exact ⟨_, by simp only [call, C09_copy hl, Res.bind_ok], put_holds hs hl j⟩

/-- C09. Whatever calls are made on a store of initially empty sets, nothing undefined happens
and every set holds a canonically sorted duplicate-free sequence of records. -/
theorem C09_histories (ops : List SetOp) (hops : ∀ o ∈ ops, o.fits) :
    ∃ s, history (fun _ => init) ops = .ok s ∧ ∀ i, ∃ l, Holds (s i) l := by
  have key : ∀ (ops : List SetOp), (∀ o ∈ ops, o.fits) → ∀ s : Nat → RS,
      (∀ i, ∃ l, Holds (s i) l) → ∃ s', history s ops = .ok s' ∧ ∀ i, ∃ l, Holds (s' i) l := by
    intro ops
    induction ops with
    | nil => intro _ s hs; exact ⟨s, rfl, hs⟩
    | cons o os ih =>
      intro ho s hs
      obtain ⟨s1, e1, h1⟩ := call_holds s hs o (ho o (by simp))
      obtain ⟨s', e', h'⟩ := ih (fun x hx => ho x (by simp [hx])) s1 h1
      exact ⟨s', by simp only [history, e1, Res.bind_ok, e'], h'⟩
  exact key ops hops _ (fun _ => ⟨[], C09_init⟩)

example : ∃ s, history (fun _ => init) [.add 0 [2], .add 0 [1, 7], .add 0 [2], .add 1 [2],
    .subtract 0 1] = .ok s ∧ (s 0).count = 1 := ⟨_, rfl, rfl⟩

end Knot
