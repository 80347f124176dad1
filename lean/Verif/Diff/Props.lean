import Verif.Diff.Lemmas2
import Verif.Serial.Props
/-!
# C15: the difference of two zones is exact
-/
namespace Knot
open Diff hiding Bytes
open Changeset
open Knot.Dname (Name)

namespace Diff

instance : DecidableRel SerialLt := fun a b => by unfold SerialLt; infer_instance

theorem chg_none {t : Nat} {a b : RRs} : chg t a b = none ↔ ∀ x ∈ a.data,
    ¬ ((a.ttl ≠ b.ttl ∧ t ≠ rrsig) ∨ x ∉ b.data) := by
  have : chg t a b = none ↔ (returnChanges t a b).data = [] := by
    unfold chg; split <;> simp_all
  rw [this, List.eq_nil_iff_forall_not_mem]
  simp only [mem_changes, not_and]

theorem rmv_none_iff {g : Ign} {t : Nat} {a b : Option RRs} (ga : GoodO a) (gb : GoodO b) :
    (rmv g t a b = none ∧ rmv g t b a = none) ↔ (t = soa ∨ ignored g t = true) ∨ SameRRs t a b := by
  unfold rmv
  by_cases h : t = soa ∨ ignored g t = true
  · simp [h]
  · simp only [h, if_false, false_or]
    cases a with
    | none => cases b <;> simp [SameRRs]
    | some x =>
      cases b with
      | none => simp [SameRRs]
      | some y =>
        simp only [SameRRs, chg_none]
        constructor
        · rintro ⟨h1, h2⟩
          refine ⟨Rdataset.canon_ext (ga x rfl).2 (gb y rfl).2 (fun d => ⟨fun hd => ?_, fun hd => ?_⟩), ?_⟩
          · by_cases e : d ∈ y.data
            · exact e
            · exact absurd (.inr e) (h1 d hd)
          · by_cases e : d ∈ x.data
            · exact e
            · exact absurd (.inr e) (h2 d hd)
          · obtain ⟨d, hd⟩ := List.exists_mem_of_ne_nil _ (ga x rfl).1
            by_cases ht : t = rrsig
            · exact .inl ht
            · by_cases e : x.ttl = y.ttl
              · exact .inr e
              · exact absurd (.inl ⟨e, ht⟩) (h1 d hd)
        · rintro ⟨e, ht⟩
          rw [e]
          constructor
          · rintro d hd (hc | hc)
            · rcases ht with h | h
              · exact hc.2 h
              · exact hc.1 h
            · exact hc hd
          · rintro d hd (hc | hc)
            · rcases ht with h | h
              · exact hc.2 h
              · exact hc.1 h.symm
            · exact hc hd

theorem empty_iff {apex : Name} {g : Ign} {z1 z2 : Zone} {ch ch' : Ch} (h1 : z1.Wf apex) (h2 : z2.Wf apex)
    (hs : ch.soaTo = none) (ha : ch.add = []) (hr : ch.rem = [])
    (x : Ext apex ch ch' (fun k => rmv g k.type (lookup z1.flat k) (lookup z2.flat k))
      (fun k => rmv g k.type (lookup z2.flat k) (lookup z1.flat k))) :
    ch'.isEmpty = true ↔ ∀ k, k ≠ soaKey apex → ignored g k.type = false →
      SameRRs k.type (lookup z1.flat k) (lookup z2.flat k) := by
  have w1 := flat_wf h1
  have w2 := flat_wf h2
  have nil : ∀ c : Contents, c = [] ↔ ∀ k, lookup c k = none := by
    intro c
    constructor
    · rintro rfl k; rfl
    · intro h
      cases c with
      | nil => rfl
      | cons y t =>
        have := h y.1
        simp [lookup] at this
  have e : ch'.isEmpty = true ↔ ch'.rem = [] ∧ ch'.add = [] := by
    unfold Ch.isEmpty
    rw [x.to, hs]
    split
    · rename_i h; cases ch'.soaFrom <;> simp [h]
    · rename_i h; simp [h]
  have nosoa : ∀ k, k.type = soa → k ≠ soaKey apex →
      lookup z1.flat k = none ∧ lookup z2.flat k = none := by
    intro k hk hne
    constructor
    · rw [lookup_none]; intro r hm; exact hne (w1.2 _ hm hk)
    · rw [lookup_none]; intro r hm; exact hne (w2.2 _ hm hk)
  rw [e, nil, nil]
  have both : (∀ k, lookup ch'.rem k = none) ∧ (∀ k, lookup ch'.add k = none) ↔
      ∀ k, (k.type = soa ∨ ignored g k.type = true) ∨
        SameRRs k.type (lookup z1.flat k) (lookup z2.flat k) := by
    constructor
    · rintro ⟨a, b⟩ k
      have a := a k; have b := b k
      rw [x.rem, hr] at a
      rw [x.add, ha] at b
      exact (rmv_none_iff (w1.1.goodO k) (w2.1.goodO k)).mp ⟨by simpa [lookup] using a, by simpa [lookup] using b⟩
    · intro h
      constructor
      · intro k
        rw [x.rem, hr, ((rmv_none_iff (w1.1.goodO k) (w2.1.goodO k)).mpr (h k)).1]; rfl
      · intro k
        rw [x.add, ha, ((rmv_none_iff (w1.1.goodO k) (w2.1.goodO k)).mpr (h k)).2]; rfl
  rw [both]
  constructor
  · intro h k hk hi
    rcases h k with (e | e) | e
    · obtain ⟨a, b⟩ := nosoa k e hk
      rw [a, b]; trivial
    · rw [hi] at e; simp at e
    · exact e
  · intro h k
    by_cases hi : ignored g k.type = true
    · exact .inl (.inr hi)
    · by_cases hk : k = soaKey apex
      · exact .inl (.inl (by rw [hk]))
      · exact .inr (h k hk (by simpa using hi))

theorem loadSoas_spec {ser : Bytes → Nat} {apex : Name} {a b : RRs} (x y : Bytes) {ta tb : List Bytes}
    (ha : a.data = x :: ta) (hb : b.data = y :: tb) (h1 : ser x < 4294967296) (h2 : ser y < 4294967296)
    (ch : Ch) :
    loadSoas ser apex (some a) (some b) ch =
      if ser x = ser y then .err .enodiff
      else if SerialLt (ser x) (ser y) then
        .ok { ch with soaFrom := some (soaKey apex, a), soaTo := some (soaKey apex, b) }
      else .err .erange := by
  obtain ⟨e1, e2, e3, e4⟩ := C08_compare_rfc1982 (ser x) (ser y) h1 h2
  obtain ⟨c, hc⟩ := C08_compare_total (ser x) (ser y)
  have heq : c = .equal ↔ ser x = ser y := by rw [← e1, hc]; simp
  have hlt : c = .lower ↔ SerialLt (ser x) (ser y) := by rw [← e2, hc]; simp
  have hl : loadSoas ser apex (some a) (some b) ch =
      soaChange (Serial.serialCompare (ser x) (ser y)) apex a b ch := by
    obtain ⟨t1, d1⟩ := a
    obtain ⟨t2, d2⟩ := b
    simp only at ha hb
    subst ha hb
    rfl
  rw [hl, hc]
  unfold soaChange
  cases c with
  | equal => rw [if_pos (heq.mp rfl)]
  | lower =>
    rw [if_neg (fun h => absurd (heq.mpr h) (by simp)), if_pos (hlt.mp rfl)]
  | greater =>
    rw [if_neg (fun h => absurd (heq.mpr h) (by simp)), if_neg (fun h => absurd (hlt.mpr h) (by simp))]
  | incomparable =>
    rw [if_neg (fun h => absurd (heq.mpr h) (by simp)), if_neg (fun h => absurd (hlt.mpr h) (by simp))]

theorem soaChange_ok {c : Res Serial.Cmp} {apex : Name} {a b : RRs} {ch ch' : Ch}
    (h : soaChange c apex a b ch = .ok ch') :
    ch' = { ch with soaFrom := some (soaKey apex, a), soaTo := some (soaKey apex, b) } := by
  unfold soaChange at h
  split at h
  · simp at h
  · simp only [Res.ok.injEq] at h; exact h.symm
  · simp at h
  · simp at h
  · simp at h

/-- The parts of a result. -/
theorem zoneDiff_ok {ser : Bytes → Nat} {apex : Name} {g : Ign} {z1 z2 : Zone} {ch : Ch} {code : Option Err}
    (h1 : z1.Wf apex) (h2 : z2.Wf apex) (h : zoneDiff ser apex g z1 z2 = .ok (ch, code)) :
    ∃ s1 s2 c0, lookup z1.flat (soaKey apex) = some s1 ∧ lookup z2.flat (soaKey apex) = some s2 ∧
      c0.Wf apex ∧ c0.add = [] ∧ c0.rem = [] ∧
      ((code = none ∧ c0.soaFrom = some (soaKey apex, s1) ∧ c0.soaTo = some (soaKey apex, s2)) ∨
       (code ≠ none ∧ c0.soaFrom = none ∧ c0.soaTo = none)) ∧
      Ext apex c0 ch (fun k => rmv g k.type (lookup z1.flat k) (lookup z2.flat k))
        (fun k => rmv g k.type (lookup z2.flat k) (lookup z1.flat k)) := by
  unfold zoneDiff at h
  rw [soaOf_eq h1, soaOf_eq h2] at h
  have w1 := flat_wf h1
  have w2 := flat_wf h2
  have some2 : ∀ {r : Res Ch}, loadSoas ser apex (lookup z1.flat (soaKey apex)) (lookup z2.flat (soaKey apex)) Ch.init = r →
      r ≠ .err .einval → ∃ s1 s2, lookup z1.flat (soaKey apex) = some s1 ∧ lookup z2.flat (soaKey apex) = some s2 := by
    intro r hr hne
    cases e1 : lookup z1.flat (soaKey apex) with
    | none => rw [e1] at hr; exact absurd hr.symm hne
    | some s1 =>
      cases e2 : lookup z2.flat (soaKey apex) with
      | none => rw [e1, e2] at hr; exact absurd hr.symm hne
      | some s2 => exact ⟨s1, s2, rfl, rfl⟩
  split at h
  · rename_i c0 hl
    obtain ⟨s1, s2, e1, e2⟩ := some2 hl (by simp)
    simp only [Res.ok.injEq, Prod.mk.injEq] at h
    obtain ⟨hc, rfl⟩ := h
    have hc0 : c0 = { Ch.init with soaFrom := some (soaKey apex, s1), soaTo := some (soaKey apex, s2) } := by
      rw [e1, e2] at hl
      unfold loadSoas at hl
      simp only at hl
      split at hl
      · exact soaChange_ok hl
      · simp at hl
    have wc : c0.Wf apex := by
      have := init_wf apex
      rw [hc0]
      refine ⟨this.1, this.2.1, this.2.2.1, this.2.2.2.1, ?_, ?_⟩
      · intro rr hr
        simp only [Option.some.injEq] at hr
        subst hr
        exact ⟨rfl, w2.1.good e2⟩
      · intro rr hr
        simp only [Option.some.injEq] at hr
        subst hr
        exact ⟨rfl, w1.1.good e1⟩
    refine ⟨s1, s2, c0, e1, e2, wc, by rw [hc0]; rfl, by rw [hc0]; rfl, .inl ⟨rfl, by rw [hc0], by rw [hc0]⟩, ?_⟩
    rw [← hc]
    exact zone_ext wc h1 h2 (by rw [hc0]; rfl) (by rw [hc0]; rfl) (by rw [e1]; rfl) (by rw [e2]; rfl)
  · rename_i hl
    obtain ⟨s1, s2, e1, e2⟩ := some2 hl (by simp)
    simp only [Res.ok.injEq, Prod.mk.injEq] at h
    obtain ⟨hc, rfl⟩ := h
    refine ⟨s1, s2, Ch.init, e1, e2, init_wf apex, rfl, rfl, .inr ⟨by simp, rfl, rfl⟩, ?_⟩
    rw [← hc]
    exact zone_ext (init_wf apex) h1 h2 rfl rfl (by rw [e1]; rfl) (by rw [e2]; rfl)
  · simp at h
  · simp at h

end Diff

/-- C15. Whatever difference is computed, applying it in any order, with a strict or a lenient update,
to the first zone succeeds and gives the RRsets of the second zone. Only types that were to be
ignored stay as they are in the first zone, and so does the SOA if the serial is the same (`code`). -/
theorem C15_diff {ser : Bytes → Nat} {apex : Name} {g : Ign} {z1 z2 : Zone} {ch : Ch} {code : Option Err}
    (h1 : z1.Wf apex) (h2 : z2.Wf apex) (h : zoneDiff ser apex g z1 z2 = .ok (ch, code)) :
    ∀ ch', ch.Reorder ch' → ∀ strict, ∃ u0 u, Update.init apex strict z1.flat = .ok u0 ∧
      u0.applyChangeset ch' = .ok u ∧
      ∀ k, SameRRs k.type (lookup u.zone k) (wanted apex g (code ≠ none) z1.flat z2.flat k) := by
  obtain ⟨s1, s2, c0, e1, e2, wc, ca, cr, hcode, x⟩ := zoneDiff_ok h1 h2 h
  have w1 := flat_wf h1
  have w2 := flat_wf h2
  intro ch' hp strict
  have hl : Leads apex z1.flat (target apex g (decide (code ≠ none)) z1.flat z2.flat) ch := by
    refine ⟨fun k hk => ?_, ?_⟩
    · rw [x.rem, x.add, cr, ca, lookup_target]
      by_cases hs : k.type = soa
      · have n1 : lookup z1.flat k = none := by rw [lookup_none]; intro r hm; exact hk (w1.2 _ hm hs)
        have n2 : lookup z2.flat k = none := by rw [lookup_none]; intro r hm; exact hk (w2.2 _ hm hs)
        simp only [wanted_def, n1, n2, rmv_none, lookup, Option.none_or, ite_self]
        exact ⟨by simp [recs], by simp [recs], by simp [recs], by simp, by simp, by simp⟩
      · have := leads_rmv (g := g) (a := lookup z1.flat k) (b := lookup z2.flat k) hs
        simp only [wanted_def, hk, false_and, or_false, lookup, Option.or_none]
        exact this
    · rw [lookup_target]
      have hi : ignored g soa = false := by simp [ignored, soa, rrsig]
      rcases hcode with ⟨hc, _, hto⟩ | ⟨hc, _, hto⟩
      · simp [wanted_def, hc, hi, x.to, hto, e2, SameRRs, SameTtl]
      · simp [wanted_def, hc, x.to, hto, e1, SameRRs, SameTtl]
  obtain ⟨u0, u, i0, iu, is, _⟩ := replay_leads w1.1 (target_wf w1.1 w2.1) (x.wf.reorder hp)
    (by rw [e1]; rfl) (hl.reorder x.wf hp) strict
  refine ⟨u0, u, i0, iu, fun k => ?_⟩
  have := is k
  rw [lookup_target] at this
  simpa [wanted_def] using this

/-- C15. If nothing is to be ignored and the serial increased, the result is exactly the second zone. -/
theorem C15_exact {ser : Bytes → Nat} {apex : Name} {z1 z2 : Zone} {ch : Ch} (h1 : z1.Wf apex)
    (h2 : z2.Wf apex) (h : zoneDiff ser apex ⟨false, false⟩ z1 z2 = .ok (ch, none)) :
    ∀ ch', ch.Reorder ch' → ∀ strict, ∃ u0 u, Update.init apex strict z1.flat = .ok u0 ∧
      u0.applyChangeset ch' = .ok u ∧ Same u.zone z2.flat := by
  intro ch' hp strict
  obtain ⟨u0, u, a, b, c⟩ := C15_diff h1 h2 h ch' hp strict
  refine ⟨u0, u, a, b, fun k => ?_⟩
  simpa [wanted_def, ignored] using c k

/-- C15. What is returned for zones with an SOA: a difference if the serial increased; if it is the
same, "no difference" exactly if all records but the SOA agree and a semantic error otherwise; an error
if the serial decreased or cannot be compared. -/
theorem C15_status (ser : Bytes → Nat) {apex : Name} (g : Ign) {z1 z2 : Zone} (h1 : z1.Wf apex)
    (h2 : z2.Wf apex) {a b : RRs} (ha : lookup z1.flat (soaKey apex) = some a)
    (hb : lookup z2.flat (soaKey apex) = some b) {x y : Bytes} (hx : a.data.head? = some x)
    (hy : b.data.head? = some y) (bx : ser x < 4294967296) (by' : ser y < 4294967296) :
    (SerialLt (ser x) (ser y) → ∃ ch, zoneDiff ser apex g z1 z2 = .ok (ch, none)) ∧
    (ser x = ser y → ∃ ch, zoneDiff ser apex g z1 z2 = .ok (ch, some .enodiff) ∨
      zoneDiff ser apex g z1 z2 = .ok (ch, some .esemcheck)) ∧
    ((∃ ch, zoneDiff ser apex g z1 z2 = .ok (ch, some .enodiff)) ↔ ser x = ser y ∧
      ∀ k, k ≠ soaKey apex → ¬ Ignored g k.type →
        SameRRs k.type (lookup z1.flat k) (lookup z2.flat k)) ∧
    (¬ SerialLt (ser x) (ser y) → ser x ≠ ser y → zoneDiff ser apex g z1 z2 = .err .erange) := by
  simp only [← not_ignored]
  obtain ⟨ta, ea⟩ := List.head?_eq_some_iff.mp hx
  obtain ⟨tb, eb⟩ := List.head?_eq_some_iff.mp hy
  have key := loadSoas_spec (ser := ser) (apex := apex) x y ea eb bx by' Ch.init
  have ze := zone_ext (g := g) (init_wf apex) h1 h2 rfl rfl (by rw [ha]; rfl) (by rw [hb]; rfl)
  have em := empty_iff h1 h2 rfl rfl rfl ze
  have irr : ∀ {s : Nat}, ¬ SerialLt s s := by
    intro s
    unfold SerialLt
    omega
  unfold zoneDiff
  rw [soaOf_eq h1, soaOf_eq h2, ha, hb, key]
  by_cases e : ser x = ser y
  · simp only [e, if_true]
    refine ⟨fun h => absurd h irr, fun _ => ?_, ?_, fun _ h => absurd rfl h⟩
    · refine ⟨loadTrees g true z1.nsec3 z2.nsec3 (loadTrees g false z1.nodes z2.nodes Ch.init), ?_⟩
      by_cases he : (loadTrees g true z1.nsec3 z2.nsec3 (loadTrees g false z1.nodes z2.nodes Ch.init)).isEmpty
      · left; rw [if_pos he]
      · right; rw [if_neg he]
    · rw [← em]
      simp only [true_and]
      constructor
      · rintro ⟨ch, hc⟩
        by_cases he : (loadTrees g true z1.nsec3 z2.nsec3 (loadTrees g false z1.nodes z2.nodes Ch.init)).isEmpty
        · exact he
        · rw [if_neg he] at hc; simp at hc
      · intro he
        exact ⟨_, by rw [if_pos he]⟩
  · rw [if_neg e]
    by_cases hl : SerialLt (ser x) (ser y)
    · simp only [if_pos hl]
      refine ⟨fun _ => ⟨_, rfl⟩, fun h => absurd h e, ?_, fun h => absurd hl h⟩
      simp [e]
    · simp only [if_neg hl]
      refine ⟨fun h => absurd h hl, fun h => absurd h e, ?_, fun _ _ => by first | rfl | trivial⟩
      simp [e]

/-- C15. A zone without an SOA has no difference. -/
theorem C15_no_soa (ser : Bytes → Nat) {apex : Name} (g : Ign) {z1 z2 : Zone} (h1 : z1.Wf apex)
    (h2 : z2.Wf apex) (h : lookup z1.flat (soaKey apex) = none ∨ lookup z2.flat (soaKey apex) = none) :
    zoneDiff ser apex g z1 z2 = .err .einval := by
  unfold zoneDiff
  rw [soaOf_eq h1, soaOf_eq h2]
  rcases h with h | h
  · rw [h]; rfl
  · rw [h]
    cases lookup z1.flat (soaKey apex) <;> rfl

/-- C15. The difference is minimal: a record is removed or added only if the other zone does not have
it, or has the RRset with another TTL. -/
theorem C15_minimal {ser : Bytes → Nat} {apex : Name} {g : Ign} {z1 z2 : Zone} {ch : Ch} {code : Option Err}
    (h1 : z1.Wf apex) (h2 : z2.Wf apex) (h : zoneDiff ser apex g z1 z2 = .ok (ch, code)) (k : Key) (x : Bytes) :
    (x ∈ recs (lookup ch.rem k) ↔ k ≠ soaKey apex ∧ ¬ Ignored g k.type ∧
      ∃ a, lookup z1.flat k = some a ∧ x ∈ a.data ∧
        ∀ b, lookup z2.flat k = some b → ¬ SameTtl k.type a.ttl b.ttl ∨ x ∉ b.data) ∧
    (x ∈ recs (lookup ch.add k) ↔ k ≠ soaKey apex ∧ ¬ Ignored g k.type ∧
      ∃ b, lookup z2.flat k = some b ∧ x ∈ b.data ∧
        ∀ a, lookup z1.flat k = some a → ¬ SameTtl k.type b.ttl a.ttl ∨ x ∉ a.data) := by
  simp only [← not_ignored]
  obtain ⟨s1, s2, c0, e1, e2, wc, ca, cr, hcode, xt⟩ := zoneDiff_ok h1 h2 h
  have w1 := flat_wf h1
  have w2 := flat_wf h2
  have m : ∀ (u v : RRs) (d : Bytes), d ∈ recs (chg k.type u v) ↔
      d ∈ u.data ∧ (¬ SameTtl k.type u.ttl v.ttl ∨ d ∉ v.data) := by
    intro u v d
    have := @mem_changes k.type u v d
    have e : d ∈ recs (chg k.type u v) ↔ d ∈ (returnChanges k.type u v).data := by
      unfold chg
      split
      · rename_i he; rw [he]; rfl
      · rfl
    rw [e, this]
    unfold SameTtl
    grind
  have main : ∀ (c c' : Contents), (∀ rr ∈ c, rr.1.type = soa → rr.1 = soaKey apex) →
      (x ∈ recs (rmv g k.type (lookup c k) (lookup c' k)) ↔ k ≠ soaKey apex ∧ ignored g k.type = false ∧
      ∃ a, lookup c k = some a ∧ x ∈ a.data ∧
        ∀ b, lookup c' k = some b → ¬ SameTtl k.type a.ttl b.ttl ∨ x ∉ b.data) := by
    intro c c' hc
    by_cases hk : k = soaKey apex
    · simp [rmv, hk, recs]
    · by_cases hi : ignored g k.type = true
      · simp [rmv, hi, recs]
      · by_cases hs : k.type = soa
        · have n1 : lookup c k = none := by rw [lookup_none]; intro r hm; exact hk (hc _ hm hs)
          simp [rmv, hs, n1, recs]
        · simp only [rmv, hs, hi, or_self, Bool.false_eq_true, if_false]
          cases lookup c k with
          | none => simp [recs]
          | some a =>
            cases lookup c' k with
            | none => simp [recs, hk]
            | some b => simp only [m]; simp [hk]
  constructor
  · rw [xt.rem, cr]
    simp only [lookup, Option.or_none]
    exact main _ _ w1.2
  · rw [xt.add, ca]
    simp only [lookup, Option.or_none]
    exact main _ _ w2.2

/-! ## Examples -/

namespace Diff.Ex

def apex : Name := [[97]]

def ser (b : Bytes) : Nat := (b.headD 0).toNat

/-- An apex with SOA and NS, `www` with two addresses, `b.c` below an empty non-terminal. -/
def old : Zone := ⟨[⟨apex, [(soa, ⟨3600, [[1]]⟩), (2, ⟨3600, [[7]]⟩)]⟩,
  ⟨[[119], [97]], [(1, ⟨300, [[10], [11]]⟩), (16, ⟨300, [[9]]⟩)]⟩,
  ⟨[[99], [97]], []⟩, ⟨[[98], [99], [97]], [(1, ⟨300, [[12]]⟩)]⟩], []⟩

/-- A changed address and TTL of TXT, records at the empty non-terminal, none below it, an NSEC3. -/
def new : Zone := ⟨[⟨apex, [(soa, ⟨3600, [[2]]⟩), (2, ⟨3600, [[7]]⟩)]⟩,
  ⟨[[119], [97]], [(1, ⟨300, [[10], [13]]⟩), (16, ⟨60, [[9]]⟩)]⟩,
  ⟨[[99], [97]], [(1, ⟨300, [[12]]⟩)]⟩], [⟨[[118], [97]], [(50, ⟨300, [[1]]⟩)]⟩]⟩

/-- Another SOA with the same serial. -/
def same : Zone := ⟨[⟨apex, [(soa, ⟨3600, [[1, 9]]⟩), (2, ⟨3600, [[7]]⟩)]⟩], []⟩
def same0 : Zone := ⟨[⟨apex, [(soa, ⟨3600, [[1]]⟩), (2, ⟨3600, [[7]]⟩)]⟩], []⟩

end Diff.Ex
open Diff.Ex

/-- The hypotheses of the theorems are met by a change of records, TTLs and nodes. -/
example : old.Wf Diff.Ex.apex ∧ new.Wf Diff.Ex.apex ∧
    (match zoneDiff ser Diff.Ex.apex ⟨false, false⟩ old new with
     | .ok (ch, none) => decide (lookup ch.add ⟨false, [[119], [97]], 1⟩ = some ⟨300, [[13]]⟩ ∧
        lookup ch.add ⟨false, [[119], [97]], 16⟩ = some ⟨60, [[9]]⟩ ∧
        lookup ch.add ⟨false, [[99], [97]], 1⟩ = some ⟨300, [[12]]⟩ ∧
        lookup ch.add ⟨true, [[118], [97]], 50⟩ = some ⟨300, [[1]]⟩ ∧
        lookup ch.rem ⟨false, [[98], [99], [97]], 1⟩ = some ⟨300, [[12]]⟩)
     | _ => false) = true := by
  refine ⟨by decide +kernel, by decide +kernel, ?_⟩
  decide +kernel

/-- C15. An SOA that changed without its serial is reported as no difference, and applying the
(empty) changeset does not change it. -/
theorem C15_soa_hidden : ∃ ch, same0.Wf Diff.Ex.apex ∧ same.Wf Diff.Ex.apex ∧
    zoneDiff ser Diff.Ex.apex ⟨false, false⟩ same0 same = .ok (ch, some .enodiff) ∧
    ¬ Same same0.flat same.flat := by
  refine ⟨Ch.init, by decide +kernel, by decide +kernel, by rfl, fun h => ?_⟩
  have := h (soaKey Diff.Ex.apex)
  simp [same0, same, Zone.flat, Tree.flat, lookup, soaKey, SameRRs] at this

end Knot
