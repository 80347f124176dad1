import Verif.Changeset.Lemmas2
/-!
# Lemmas: whole zones and changesets
-/
namespace Knot.Changeset
open Knot.Dname (Name)
open Knot.Rdataset (Canon canon_ext)

theorem Wf.goodO {c : Contents} (h : Wf c) (k : Key) : GoodO (lookup c k) := fun _ hr => h.good hr

/-! ## Single steps -/

/-- The zone after a removal, an addition, a new SOA. -/
def zRem (c : Contents) (rr : RRset) : Contents := put c rr.1 (minus (lookup c rr.1) rr.2)
def zAdd (c : Contents) (rr : RRset) : Contents :=
  put c rr.1 (some (nodeAdd rr.1.type (lookup c rr.1) rr.2))
def zSoa (c : Contents) (rr : RRset) : Contents := put (put c rr.1 none) rr.1 (some rr.2)

theorem applyRemove_ok {s : Bool} {c : Contents} {rr : RRset} {d : RRs}
    (hd : lookup c rr.1 = some d) (hs : ∀ y ∈ rr.2.data, y ∈ d.data) :
    applyRemove s c rr = .ok (zRem c rr) := by
  have : canRemove (lookup c rr.1) rr.2 = true := by
    rw [hd]; simpa [canRemove] using hs
  rw [applyRemove, if_neg (by simp [this]), zRem, hd]
  simp [nodeRemove, minus]

theorem applyAdd_ok {s : Bool} {c : Contents} {rr : RRset}
    (hs : ∀ d, lookup c rr.1 = some d → ∀ y ∈ rr.2.data, y ∉ d.data) :
    applyAdd s c rr = .ok (zAdd c rr) := by
  have : canAdd (lookup c rr.1) rr.2 = true := by
    cases h : lookup c rr.1 with
    | none => rfl
    | some d => simpa [canAdd] using hs d h
  rw [applyAdd, if_neg (by simp [this])]
  rfl

theorem lookup_zRem {c : Contents} (h : Wf c) (rr : RRset) (k : Key) :
    lookup (zRem c rr) k = if k = rr.1 then minus (lookup c k) rr.2 else lookup c k := by
  rw [zRem, lookup_put h.1]
  split
  · rename_i e; rw [e]
  · rfl

theorem lookup_zAdd {c : Contents} (h : Wf c) (rr : RRset) (k : Key) :
    lookup (zAdd c rr) k = if k = rr.1 then some (nodeAdd k.type (lookup c k) rr.2) else lookup c k := by
  rw [zAdd, lookup_put h.1]
  split
  · rename_i e; rw [e]
  · rfl

theorem lookup_zSoa {c : Contents} (h : Wf c) (rr : RRset) (k : Key) :
    lookup (zSoa c rr) k = if k = rr.1 then some rr.2 else lookup c k := by
  rw [zSoa, lookup_put (put_nodup h.1 _ _), lookup_put h.1]
  split <;> rfl

theorem Wf.zRem {c : Contents} (h : Wf c) (rr : RRset) : Wf (zRem c rr) := by
  refine h.put ?_ ((h.goodO _).minus _)
  intro hs
  cases hl : lookup c rr.1 with
  | none => rw [hl] at hs; simp [minus] at hs
  | some d => exact h.key hl

theorem Wf.zAdd {c : Contents} (h : Wf c) {rr : RRset} (hk : KeyOk rr.1) (hg : Good rr.2) :
    Wf (zAdd c rr) := by
  refine h.put (fun _ => hk) ?_
  intro r hr
  simp only [Option.some.injEq] at hr
  subst hr
  exact good_nodeAdd (h.goodO _) hg

theorem Wf.zSoa {c : Contents} (h : Wf c) {rr : RRset} (hk : KeyOk rr.1) (hg : Good rr.2) :
    Wf (zSoa c rr) := by
  refine (h.put (v := none) (by simp) (by simp)).put (fun _ => hk) ?_
  intro r hr
  simp only [Option.some.injEq] at hr
  exact hr ▸ hg

/-! ## Changesets -/

def Ch.swap (ch : Ch) : Ch := ⟨ch.rem, ch.add, ch.soaTo, ch.soaFrom⟩

theorem addAddition_swap (ch : Ch) (rr : RRset) (b : Bool) :
    addAddition ch rr b = (addRemoval ch.swap rr b).swap := by
  unfold addAddition addRemoval
  split <;> rfl

theorem Ch.Wf.swap {apex : Name} {ch : Ch} (h : ch.Wf apex) : ch.swap.Wf apex :=
  ⟨h.2.1, h.1, h.2.2.2.1, h.2.2.1, h.2.2.2.2.2, h.2.2.2.2.1⟩

theorem checkRedundancy_fst {c : Contents} (h : Wf c) (rr : RRset) (k : Key) :
    lookup (checkRedundancy c rr).1 k =
      if k = rr.1 then (ck k.type (lookup c k) rr.2).1 else lookup c k := by
  unfold checkRedundancy
  cases hl : lookup c rr.1 with
  | none =>
    by_cases e : k = rr.1
    · subst e; simp [ck, hl]
    · simp [e]
  | some d =>
    simp only
    split
    · rename_i ht
      simp only [nodeRemove, lookup_put h.1]
      by_cases e : k = rr.1
      · subst e; simp [ck, hl, ht, minus]
      · simp [e]
    · rename_i ht
      by_cases e : k = rr.1
      · subst e; simp [ck, hl, ht]
      · simp [e]

theorem checkRedundancy_snd {c : Contents} (rr : RRset) :
    (checkRedundancy c rr).2 = (ck rr.1.type (lookup c rr.1) rr.2).2 := by
  unfold checkRedundancy ck
  cases hl : lookup c rr.1 with
  | none => rfl
  | some d =>
    simp only
    split <;> simp [nodeRemove]

theorem GoodO.ck {ty : Nat} {o : Option RRs} (h : GoodO o) (x : RRs) : GoodO (ck ty o x).1 := by
  unfold Changeset.ck
  split
  · exact fun r hr => absurd hr (by simp)
  · split
    · exact h.minus _
    · exact h

theorem canon_ck {ty : Nat} {o : Option RRs} {x : RRs} (h : Canon x.data) : Canon (ck ty o x).2.data := by
  unfold Changeset.ck
  split
  · exact h
  · split
    · exact canon_subtract _ h
    · exact h

theorem checkRedundancy_wf {c : Contents} (h : Wf c) (rr : RRset) : Wf (checkRedundancy c rr).1 := by
  unfold checkRedundancy
  cases hl : lookup c rr.1 with
  | none => exact h
  | some d =>
    simp only
    split
    · simp only [nodeRemove]
      refine h.put (fun _ => h.key hl) ?_
      intro r hr
      have := (GoodO.minus (o := some d) (hl ▸ h.goodO rr.1) rr.2) r
      simp only [minus] at this
      exact this hr
    · exact h

theorem checkRedundancy_keys {c : Contents} {rr : RRset} {k : Key}
    (h : k ∈ (checkRedundancy c rr).1.map (·.1)) : k ∈ c.map (·.1) := by
  unfold checkRedundancy at h
  cases hl : lookup c rr.1 with
  | none => rw [hl] at h; exact h
  | some d =>
    rw [hl] at h
    simp only at h
    split at h
    · simp only [nodeRemove] at h
      rcases put_keys h with e | e
      · rw [e]
        exact List.mem_map.mpr ⟨_, lookup_mem hl, rfl⟩
      · exact e
    · exact h

theorem lookup_grow {c : Contents} (h : Wf c) (k0 : Key) (x : RRs) (k : Key) :
    lookup (if x.data = [] then c else insertRR c (k0, x)) k =
      if k = k0 then grow k.type (lookup c k) x else lookup c k := by
  by_cases hx : x.data = []
  · simp [hx, grow]
  · rw [if_neg hx, insertRR, lookup_put h.1]
    split
    · rename_i e; subst e; simp [grow, hx]
    · rfl

theorem wf_grow {c : Contents} (h : Wf c) {k0 : Key} {x : RRs} (hk : KeyOk k0) (hx : Canon x.data) :
    Wf (if x.data = [] then c else insertRR c (k0, x)) := by
  by_cases he : x.data = []
  · simpa [he] using h
  · rw [if_neg he]
    exact h.zAdd (rr := (k0, x)) hk ⟨he, hx⟩

theorem keys_grow {c : Contents} {k0 k : Key} {x : RRs}
    (h : k ∈ (if x.data = [] then c else insertRR c (k0, x)).map (·.1)) : k = k0 ∨ k ∈ c.map (·.1) := by
  by_cases he : x.data = []
  · rw [if_pos he] at h; exact .inr h
  · rw [if_neg he] at h; exact put_keys h

theorem notSoa_keys {c : Contents} : (∀ rr ∈ c, rr.1.type ≠ soa) ↔ ∀ k ∈ c.map (·.1), k.type ≠ soa := by
  constructor
  · intro h k hk
    obtain ⟨rr, hm, e⟩ := List.mem_map.mp hk
    exact e ▸ h rr hm
  · intro h rr hm
    exact h _ (List.mem_map.mpr ⟨rr, hm, rfl⟩)

theorem addRemoval_add {apex : Name} {ch : Ch} (w : ch.Wf apex) {rr : RRset} (ht : rr.1.type ≠ soa)
    (k : Key) : lookup (addRemoval ch rr true).add k =
      if k = rr.1 then (ck k.type (lookup ch.add k) rr.2).1 else lookup ch.add k := by
  simp only [addRemoval, if_neg ht, if_true]
  exact checkRedundancy_fst w.1 rr k

theorem addRemoval_rem {apex : Name} {ch : Ch} (w : ch.Wf apex) {rr : RRset} (ht : rr.1.type ≠ soa)
    (k : Key) : lookup (addRemoval ch rr true).rem k =
      if k = rr.1 then grow k.type (lookup ch.rem k) (ck k.type (lookup ch.add k) rr.2).2
      else lookup ch.rem k := by
  simp only [addRemoval, if_neg ht, if_true]
  rw [lookup_grow w.2.1]
  split
  · rename_i e; subst e; rw [checkRedundancy_snd]
  · rfl

theorem addRemoval_soa {ch : Ch} {rr : RRset} (ht : rr.1.type ≠ soa) :
    (addRemoval ch rr true).soaTo = ch.soaTo ∧ (addRemoval ch rr true).soaFrom = ch.soaFrom := by
  simp only [addRemoval, if_neg ht, if_true, and_self]

theorem addRemoval_wf {apex : Name} {ch : Ch} (w : ch.Wf apex) {rr : RRset} (ht : rr.1.type ≠ soa)
    (hk : KeyOk rr.1) (hg : Good rr.2) : (addRemoval ch rr true).Wf apex := by
  have hs := addRemoval_soa (ch := ch) ht
  refine ⟨?_, ?_, ?_, ?_, by rw [hs.1]; exact w.2.2.2.2.1, by rw [hs.2]; exact w.2.2.2.2.2⟩
  · simp only [addRemoval, if_neg ht, if_true]
    exact checkRedundancy_wf w.1 rr
  · simp only [addRemoval, if_neg ht, if_true]
    refine wf_grow w.2.1 hk ?_
    rw [checkRedundancy_snd]
    exact canon_ck hg.2
  · simp only [addRemoval, if_neg ht, if_true]
    rw [notSoa_keys]
    exact fun k hk => notSoa_keys.mp w.2.2.1 k (checkRedundancy_keys hk)
  · simp only [addRemoval, if_neg ht, if_true]
    rw [notSoa_keys]
    intro k hk
    rcases keys_grow hk with e | e
    · exact e ▸ ht
    · exact notSoa_keys.mp w.2.2.2.1 k e

theorem addAddition_rem {apex : Name} {ch : Ch} (w : ch.Wf apex) {rr : RRset} (ht : rr.1.type ≠ soa)
    (k : Key) : lookup (addAddition ch rr true).rem k =
      if k = rr.1 then (ck k.type (lookup ch.rem k) rr.2).1 else lookup ch.rem k := by
  rw [addAddition_swap]
  exact addRemoval_add w.swap ht k

theorem addAddition_add {apex : Name} {ch : Ch} (w : ch.Wf apex) {rr : RRset} (ht : rr.1.type ≠ soa)
    (k : Key) : lookup (addAddition ch rr true).add k =
      if k = rr.1 then grow k.type (lookup ch.add k) (ck k.type (lookup ch.rem k) rr.2).2
      else lookup ch.add k := by
  rw [addAddition_swap]
  exact addRemoval_rem w.swap ht k

theorem addAddition_soa {ch : Ch} {rr : RRset} (ht : rr.1.type ≠ soa) :
    (addAddition ch rr true).soaTo = ch.soaTo ∧ (addAddition ch rr true).soaFrom = ch.soaFrom := by
  rw [addAddition_swap]
  exact (addRemoval_soa (ch := ch.swap) ht).symm

theorem addAddition_wf {apex : Name} {ch : Ch} (w : ch.Wf apex) {rr : RRset} (ht : rr.1.type ≠ soa)
    (hk : KeyOk rr.1) (hg : Good rr.2) : (addAddition ch rr true).Wf apex := by
  rw [addAddition_swap]
  exact (addRemoval_wf w.swap ht hk hg).swap

/-! ## Leading from one zone to another -/

/-- The changeset leads from `z` to `c`. -/
def Leads (apex : Name) (z c : Contents) (ch : Ch) : Prop :=
  (∀ k, k ≠ soaKey apex →
    Leads1 k.type (lookup z k) (lookup c k) (lookup ch.rem k) (lookup ch.add k)) ∧
  SameRRs soa (lookup c (soaKey apex))
    (match ch.soaTo with
     | some rr => some rr.2
     | none => lookup z (soaKey apex))

theorem Leads.remove {apex : Name} {z c : Contents} {ch : Ch} (h : Leads apex z c ch) (wc : Wf c)
    (w : ch.Wf apex) {rr : RRset} (hr : Removable c rr) :
    Leads apex z (zRem c rr) (addRemoval ch rr true) := by
  obtain ⟨_, hg, ht, d, hd, hs, htt⟩ := hr
  refine ⟨fun k hk => ?_, ?_⟩
  · rw [addRemoval_add w ht, addRemoval_rem w ht, lookup_zRem wc]
    by_cases e : k = rr.1
    · subst e
      simp only [if_true]
      exact (h.1 _ hk).remove (w.2.1.goodO _) hd hs htt
    · simp only [if_neg e]
      exact h.1 k hk
  · rw [(addRemoval_soa ht).1, lookup_zRem wc, if_neg (by intro e; apply ht; rw [← e])]
    exact h.2

theorem Leads.add {apex : Name} {z c : Contents} {ch : Ch} (h : Leads apex z c ch) (wc : Wf c)
    (w : ch.Wf apex) {rr : RRset} (hr : Addable c rr) :
    Leads apex z (zAdd c rr) (addAddition ch rr true) := by
  obtain ⟨_, hg, ht, hs⟩ := hr
  refine ⟨fun k hk => ?_, ?_⟩
  · rw [addAddition_add w ht, addAddition_rem w ht, lookup_zAdd wc]
    by_cases e : k = rr.1
    · subst e
      simp only [if_true]
      exact (h.1 _ hk).add (wc.goodO _) (w.1.goodO _) hg hs
    · simp only [if_neg e]
      exact h.1 k hk
  · rw [(addAddition_soa ht).1, lookup_zAdd wc, if_neg (by intro e; apply ht; rw [← e])]
    exact h.2

end Knot.Changeset
