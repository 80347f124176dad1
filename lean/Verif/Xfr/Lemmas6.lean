import Verif.Xfr.Lemmas5
/-! # Transfers: applying an IXFR, and its grammar -/
namespace Knot.Xfr
open Knot.Dname (Name)
open Knot.Changeset
open Knot.Rdataset (Canon)

/-! ## Applying changesets never goes wrong -/

theorem applyAdd_total {s : Bool} {c : Contents} (w : Wf c) {rr : RRset} (hk : KeyOk rr.1) (hg : Good rr.2) :
    applyAdd s c rr ≠ .ub ∧ ∀ c', applyAdd s c rr = .ok c' → Wf c' := by
  unfold applyAdd
  split
  · split
    · exact ⟨by simp, by simp⟩
    · exact ⟨by simp, fun c' h => by simp only [Res.ok.injEq] at h; exact h ▸ w⟩
  · refine ⟨by simp, fun c' h => ?_⟩
    simp only [Res.ok.injEq] at h
    rw [← h]
    exact w.zAdd hk hg

theorem applyRemove_total {s : Bool} {c : Contents} (w : Wf c) (rr : RRset) :
    applyRemove s c rr ≠ .ub ∧ ∀ c', applyRemove s c rr = .ok c' → Wf c' := by
  cases hc : canRemove (lookup c rr.1) rr.2 with
  | false =>
    unfold applyRemove
    rw [hc]
    simp only [Bool.false_eq_true, not_false_eq_true, if_true]
    split
    · exact ⟨by simp, by simp⟩
    · exact ⟨by simp, fun c' h => by simp only [Res.ok.injEq] at h; exact h ▸ w⟩
  | true =>
    cases hl : lookup c rr.1 with
    | none => rw [hl] at hc; simp [canRemove] at hc
    | some d =>
      have : applyRemove s c rr = .ok (zRem c rr) := by
        refine applyRemove_ok hl ?_
        rw [hl] at hc
        simpa [canRemove] using hc
      rw [this]
      refine ⟨by simp, fun c' h => ?_⟩
      simp only [Res.ok.injEq] at h
      rw [← h]
      exact w.zRem rr

theorem applyReplaceSoa_total {s : Bool} {apex : Name} {c : Contents} (w : Wf c) {rr : RRset} (hk : KeyOk rr.1)
    (hg : Good rr.2) : applyReplaceSoa s apex c rr ≠ .ub ∧ ∀ c', applyReplaceSoa s apex c rr = .ok c' → Wf c' := by
  unfold applyReplaceSoa
  split
  · exact ⟨by simp, by simp⟩
  · have aux : ∀ r : Res Contents, r ≠ .ub → (∀ c', r = .ok c' → Wf c') →
        (do let c ← r
            if (lookup c (soaKey apex)).isSome then .err .esoainval else applyAdd s c rr) ≠ .ub ∧
        ∀ c', (do let c ← r
                  if (lookup c (soaKey apex)).isSome then .err .esoainval else applyAdd s c rr) = .ok c' → Wf c' := by
      intro r h1 h2
      cases r with
      | ub => exact absurd rfl h1
      | err e => exact ⟨by simp, by simp⟩
      | ok c1 =>
        simp only [Res.bind_ok]
        split
        · exact ⟨by simp, by simp⟩
        · exact applyAdd_total (h2 c1 rfl) hk hg
    cases hl : lookup c (soaKey apex) with
    | some old =>
      have := applyRemove_total (s := s) w (soaKey apex, old)
      exact aux _ this.1 this.2
    | none =>
      cases s with
      | true => exact aux (.err .enorecord) (by simp) (by simp)
      | false => exact aux (.ok c) (by simp) (fun c' h => by simp only [Res.ok.injEq] at h; exact h ▸ w)

theorem zuRemove_total {u : Update} (w : Wf u.zone) (rr : RRset) :
    zuRemove u rr ≠ .ub ∧ ∀ u', zuRemove u rr = .ok u' → Wf u'.zone := by
  unfold zuRemove
  split
  · exact ⟨by simp, fun u' h => by simp only [Res.ok.injEq] at h; exact h ▸ w⟩
  · split
    · exact ⟨by simp, fun u' h => by simp only [Res.ok.injEq] at h; exact h ▸ w⟩
    · have := applyRemove_total (s := u.strict) w rr
      cases ha : applyRemove u.strict u.zone rr with
      | ub => exact absurd ha this.1
      | err e => exact ⟨by simp, by simp⟩
      | ok z =>
        refine ⟨by simp, fun u' h => ?_⟩
        simp only [Res.bind_ok, Res.ok.injEq] at h
        rw [← h]
        exact this.2 z ha

theorem zuAdd_total {u : Update} (w : Wf u.zone) {rr : RRset} (hk : KeyOk rr.1) (hg : Good rr.2) :
    zuAdd u rr ≠ .ub ∧ ∀ u', zuAdd u rr = .ok u' → Wf u'.zone := by
  unfold zuAdd
  rw [zuAddN, if_neg hg.1]
  have h1 : (if rr.1.type = soa then applyReplaceSoa u.strict u.apex u.zone rr else applyAdd u.strict u.zone rr) ≠ .ub ∧
      ∀ c', (if rr.1.type = soa then applyReplaceSoa u.strict u.apex u.zone rr else applyAdd u.strict u.zone rr) = .ok c' → Wf c' := by
    split
    · exact applyReplaceSoa_total w hk hg
    · exact applyAdd_total w hk hg
  cases ha : (if rr.1.type = soa then applyReplaceSoa u.strict u.apex u.zone rr else applyAdd u.strict u.zone rr) with
  | ub => exact absurd ha h1.1
  | err e => exact ⟨by simp, by simp⟩
  | ok z =>
    have wz := h1.2 z ha
    simp only [Res.bind_ok]
    have h2 : ∃ u2, solveTtl (zuAddN 1) { u with zone := z } rr = .ok u2 ∧ Wf u2.zone := by
      unfold solveTtl
      split
      · exact ⟨_, rfl, wz⟩
      · rename_i hn
        have hs : rr.1.type ≠ soa := fun e => hn (.inr e)
        cases he : lookup z { rr.1 with nsec3 := false } with
        | none => exact ⟨_, rfl, wz⟩
        | some e =>
          simp only
          split
          · exact ⟨_, rfl, wz⟩
          · have hko := wz.key he
            have hge := wz.good he
            have hrem : Removable z ({ rr.1 with nsec3 := false }, e) :=
              ⟨hko, hge, hs, e, he, fun _ h => h, .inr rfl⟩
            rw [zuRemove_ok (u := { u with zone := z }) hrem]
            simp only [Res.bind_ok]
            have hnone : lookup (zRem z ({ rr.1 with nsec3 := false }, e)) { rr.1 with nsec3 := false } = none := by
              rw [lookup_zRem wz, if_pos rfl, he, minus_self]
            have hadd : Addable (zRem z ({ rr.1 with nsec3 := false }, e))
                ({ rr.1 with nsec3 := false }, { e with ttl := rr.2.ttl }) :=
              ⟨hko, hge, hs, fun d hd => by rw [hnone] at hd; simp at hd⟩
            refine ⟨_, zuAddN_ok (wz.zRem _) hadd, ?_⟩
            exact (wz.zRem _).zAdd hko hge
    obtain ⟨u2, e2, w2⟩ := h2
    rw [e2]
    refine ⟨by simp, fun u' h => ?_⟩
    simp only [Res.bind_ok, Res.ok.injEq] at h
    rw [← h]
    exact w2

/-- A call with proper records. -/
def CallOk : Call → Prop
  | .add rr => KeyOk rr.1 ∧ Good rr.2
  | .remove _ => True

theorem run_total {cs : List Call} (hc : ∀ c ∈ cs, CallOk c) {u : Update} (w : Wf u.zone) :
    u.run cs ≠ .ub ∧ ∀ u', u.run cs = .ok u' → Wf u'.zone := by
  induction cs generalizing u with
  | nil => exact ⟨by simp [Update.run], fun u' h => by simp only [Update.run, Res.ok.injEq] at h; exact h ▸ w⟩
  | cons x cs ih =>
    unfold Update.run
    have h1 : x.exec u ≠ .ub ∧ ∀ u', x.exec u = .ok u' → Wf u'.zone := by
      cases x with
      | add rr =>
        have hk : KeyOk rr.1 ∧ Good rr.2 := hc (.add rr) (by simp)
        exact zuAdd_total w hk.1 hk.2
      | remove rr => exact zuRemove_total w rr
    cases hx : x.exec u with
    | ub => exact absurd hx h1.1
    | err e => exact ⟨by simp, by simp⟩
    | ok u1 => simpa using ih (fun c h => hc c (List.mem_cons_of_mem _ h)) (h1.2 u1 hx)

theorem applyAll_total {chs : List Ch} (hc : ∀ ch ∈ chs, (∀ c ∈ ch.walk, CallOk c) ∧ ch.soaFrom.isSome ∧ ch.soaTo.isSome)
    {u : Update} (w : Wf u.zone) : applyAll u chs ≠ .ub := by
  induction chs generalizing u with
  | nil => simp [applyAll]
  | cons ch t ih =>
    obtain ⟨h1, h2, h3⟩ := hc ch (by simp)
    have h4 := run_total h1 w
    unfold applyAll Update.applyChangeset
    cases hr : u.run ch.walk with
    | ub => exact absurd hr h4.1
    | err e => simp [h2, h3]
    | ok u1 => exact ih (fun c h => hc c (List.mem_cons_of_mem _ h)) (h4.2 u1 hr)

theorem Diff.ch_walk {d : Diff} (h : Single d.text) :
    (∀ c ∈ d.ch.walk, CallOk c) ∧ d.ch.soaFrom.isSome ∧ d.ch.soaTo.isSome := by
  refine ⟨fun c hc => ?_, rfl, rfl⟩
  have hadd : Wf (zoneOf d.adds) := (zoneOf_zone (fun rr hr => h rr (by simp [Diff.text, hr]))).1
  simp only [Ch.walk, Diff.ch, List.mem_append, List.mem_map, Option.toList_some, List.mem_singleton] at hc
  rcases hc with ((⟨rr, _, e⟩ | ⟨rr, _, e⟩) | ⟨rr, hm, e⟩) | ⟨rr, hm, e⟩
  · subst e; trivial
  · subst e; trivial
  · subst e; exact hadd.2 rr hm
  · subst e
    rw [hm]
    have := h d.new (by simp [Diff.text])
    exact ⟨this.1, good_single this.2⟩

theorem ixfrFinalize_spec {c : Conf} {d : Data} {ds : List Diff} {z0 : Contents} (hz : c.zone = some z0) (w : Wf z0)
    (hc : d.chs = ds.map Diff.ch) (hs : ∀ x ∈ ds, Single x.text) (hp : d.published = none) :
    ∃ d', ixfrFinalize c d = .ok d' ∧ (∀ z, d'.published = some z ↔ Applied c ds z) ∧
      (d'.ret.isSome = false ↔ d'.published.isSome) := by
  have none_of : ∀ d' : Data, d'.published = none → d'.ret.isSome → (∀ z, ¬ Applied c ds z) →
      (∀ z, d'.published = some z ↔ Applied c ds z) ∧ (d'.ret.isSome = false ↔ d'.published.isSome) := by
    intro d' h1 h2 h3
    refine ⟨fun z => ⟨fun h => by rw [h1] at h; simp at h, fun h => absurd h (h3 z)⟩, by rw [h1, h2]; simp⟩
  unfold ixfrFinalize
  simp only [hz]
  cases hi : Update.init c.apex c.strict z0 with
  | ub => unfold Update.init at hi; split at hi <;> simp at hi
  | err e =>
    refine ⟨_, rfl, none_of _ hp rfl ?_⟩
    rintro z ⟨z1, u0, u, h1, h2, _⟩
    rw [hz] at h1
    simp only [Option.some.injEq] at h1
    rw [← h1, hi] at h2
    simp at h2
  | ok u0 =>
    have w0 : Wf u0.zone := by
      unfold Update.init at hi
      split at hi
      · simp at hi
      · simp only [Res.ok.injEq] at hi
        rw [← hi]; exact w
    have hnu : applyAll u0 d.chs ≠ .ub := by
      rw [hc]
      refine applyAll_total (fun ch hm => ?_) w0
      obtain ⟨x, hx, e⟩ := List.mem_map.mp hm
      rw [← e]
      exact Diff.ch_walk (hs x hx)
    simp only
    cases ha : applyAll u0 d.chs with
    | ub => exact absurd ha hnu
    | err e =>
      refine ⟨_, rfl, none_of _ hp rfl ?_⟩
      rintro z ⟨z1, u1, u, h1, h2, h3, _⟩
      rw [hz] at h1
      simp only [Option.some.injEq] at h1
      rw [← h1, hi] at h2
      simp only [Res.ok.injEq] at h2
      rw [← h2, ← hc, ha] at h3
      simp at h3
    | ok u =>
      have app : ∀ z, Applied c ds z ↔ z = u.zone ∧ c.check u.zone = true ∧ c.commit u.zone = true := by
        intro z
        constructor
        · rintro ⟨z1, u1, u2, h1, h2, h3, h4, h5, h6⟩
          rw [hz] at h1
          simp only [Option.some.injEq] at h1
          rw [← h1, hi] at h2
          simp only [Res.ok.injEq] at h2
          rw [← h2, ← hc, ha] at h3
          simp only [Res.ok.injEq] at h3
          rw [← h3] at h4
          exact ⟨h4, h4 ▸ h5, h4 ▸ h6⟩
        · rintro ⟨h1, h2, h3⟩
          exact ⟨z0, u0, u, hz, hi, by rw [← hc]; exact ha, h1, h1 ▸ h2, h1 ▸ h3⟩
      simp only
      split
      · rename_i h1
        refine ⟨_, rfl, none_of _ hp rfl (fun z h => ?_)⟩
        simp [((app z).mp h).2.1] at h1
      · rename_i h1
        split
        · rename_i h2
          refine ⟨_, rfl, none_of _ hp rfl (fun z h => ?_)⟩
          simp [((app z).mp h).2.2] at h2
        · rename_i h2
          refine ⟨_, rfl, fun z => ?_, by simp⟩
          rw [app]
          simp only [Option.some.injEq]
          exact ⟨fun h => ⟨h.symm, by simpa using h1, by simpa using h2⟩, fun h => h.1.symm⟩

/-! ## The grammar -/

def IxA.text : IxA → List RRset
  | .init => []
  | .first F => [F]
  | .del F ds old dels => F :: (ds.flatMap Diff.text ++ old :: dels)
  | .add F ds d => F :: (ds ++ [d]).flatMap Diff.text

def IxA.Ok (byOne : Bool) : IxA → Prop
  | .init => True
  | .first F => F.1.type = soa
  | .del F ds old dels => Diffs byOne F (ds ++ [⟨old, dels, old, []⟩])
  | .add F ds d => Diffs byOne F (ds ++ [d])

theorem diffs_snoc {byOne : Bool} {F : RRset} {ds : List Diff} {x : Diff} :
    Diffs byOne F (ds ++ [x]) ↔ F.1.type = soa ∧ x.Ok ∧
      (ds = [] ∨ (Diffs byOne F ds ∧ byOne = false ∧ rrEqual x.old F = false)) := by
  constructor
  · intro h
    refine ⟨h.soa, h.ok x (by simp), ?_⟩
    cases ds with
    | nil => exact .inl rfl
    | cons d t =>
      right
      have hc := h.cont
      have ho := h.one
      simp only [List.cons_append, List.tail_cons, List.mem_append, List.mem_singleton] at hc ho
      refine ⟨⟨h.soa, by simp, fun y hy => h.ok y (List.mem_append_left _ hy), fun y hy => hc y (.inl hy), fun e => ?_⟩, ?_, hc x (.inr rfl)⟩
      · have := ho e; simp at this
      · cases hb : byOne with
        | false => rfl
        | true => have := ho hb; simp at this
  · rintro ⟨h1, h2, h3⟩
    rcases h3 with h3 | ⟨h3, h4, h5⟩
    · subst h3
      exact ⟨h1, by simp, by simpa using h2, by simp, by simp⟩
    · refine ⟨h1, by simp, fun d hd => ?_, fun d hd => ?_, fun e => by rw [h4] at e; simp at e⟩
      · rcases List.mem_append.mp hd with hd | hd
        · exact h3.ok d hd
        · rw [List.mem_singleton.mp hd]; exact h2
      · cases ds with
        | nil => exact absurd rfl h3.some
        | cons y t =>
          simp only [List.cons_append, List.tail_cons, List.mem_append, List.mem_singleton] at hd
          rcases hd with hd | hd
          · exact h3.cont d hd
          · rw [hd]; exact h5

theorem stepA_next {byOne : Bool} {s s' : IxA} {rr : RRset} (ho : s.Ok byOne) (h : stepA byOne s rr = .next s') :
    s'.Ok byOne ∧ s'.text = s.text ++ [rr] := by
  cases s with
  | init =>
    simp only [stepA] at h
    split at h
    · simp only [Nx.next.injEq] at h; subst h
      exact ⟨by assumption, rfl⟩
    · simp at h
  | first F =>
    simp only [stepA] at h
    split at h
    · rename_i ht
      simp only [Nx.next.injEq] at h; subst h
      refine ⟨?_, rfl⟩
      have : Diffs byOne F ([] ++ [⟨rr, [], rr, []⟩]) := diffs_snoc.mpr ⟨ho, ⟨ht, ht, by simp, by simp⟩, .inl rfl⟩
      exact this
    · simp at h
  | del F ds old dels =>
    simp only [stepA] at h
    obtain ⟨h1, h2, h3⟩ := diffs_snoc.mp (show Diffs byOne F (ds ++ [⟨old, dels, old, []⟩]) from ho)
    split at h
    · rename_i ht
      simp only [Nx.next.injEq] at h; subst h
      refine ⟨diffs_snoc.mpr ⟨h1, ⟨h2.1, ht, h2.2.2.1, by simp⟩, h3⟩, ?_⟩
      simp [IxA.text, Diff.text]
    · rename_i ht
      simp only [Nx.next.injEq] at h; subst h
      refine ⟨diffs_snoc.mpr ⟨h1, ⟨h2.1, h2.1, ?_, by simp⟩, h3⟩, by simp [IxA.text]⟩
      intro x hx
      rcases List.mem_append.mp hx with hx | hx
      · exact h2.2.2.1 x hx
      · rw [List.mem_singleton.mp hx]; exact ht
  | add F ds d =>
    simp only [stepA] at h
    have ho' : Diffs byOne F (ds ++ [d]) := ho
    obtain ⟨h1, h2, h3⟩ := diffs_snoc.mp ho'
    split at h
    · simp at h
    · rename_i he
      split at h
      · rename_i ht
        split at h
        · simp at h
        · rename_i hb
          simp only [Nx.next.injEq] at h; subst h
          refine ⟨diffs_snoc.mpr ⟨h1, ⟨ht, ht, by simp, by simp⟩, .inr ⟨ho', by simpa using hb, by simpa using he⟩⟩, ?_⟩
          simp [IxA.text]
      · rename_i ht
        simp only [Nx.next.injEq] at h; subst h
        refine ⟨diffs_snoc.mpr ⟨h1, ⟨h2.1, h2.2.1, h2.2.2.1, ?_⟩, h3⟩, by simp [IxA.text, Diff.text]⟩
        intro x hx
        rcases List.mem_append.mp hx with hx | hx
        · exact h2.2.2.2 x hx
        · rw [List.mem_singleton.mp hx]; exact ht

theorem stepA_pred {byOne : Bool} {s : IxA} (ho : s.Ok byOne) (hn : s ≠ .init) :
    ∃ s0 x, IxA.Ok byOne s0 ∧ s.text = s0.text ++ [x] ∧ stepA byOne s0 x = .next s := by
  cases s with
  | init => exact absurd rfl hn
  | first F => exact ⟨.init, F, trivial, rfl, by simp [stepA, show F.1.type = soa from ho]⟩
  | del F ds old dels =>
    obtain ⟨h1, h2, h3⟩ := diffs_snoc.mp (show Diffs byOne F (ds ++ [⟨old, dels, old, []⟩]) from ho)
    rcases List.eq_nil_or_concat dels with e | ⟨L, b, e⟩
    · subst e
      rcases h3 with e | ⟨h3, h4, h5⟩
      · subst e
        have h6 : old.1.type = soa := h2.1
        exact ⟨.first F, old, h1, rfl, by simp [stepA, h6]⟩
      · rcases List.eq_nil_or_concat ds with e | ⟨D, y, e⟩
        · exact absurd e h3.some
        · rw [List.concat_eq_append] at e
          subst e
          refine ⟨.add F D y, old, h3, by simp [IxA.text], ?_⟩
          have h6 : old.1.type = soa := h2.1
          simp only at h5
          simp [stepA, h5, h6, h4]
    · rw [List.concat_eq_append] at e
      subst e
      have hb : b.1.type ≠ soa := h2.2.2.1 b (by simp)
      refine ⟨.del F ds old L, b, diffs_snoc.mpr ⟨h1, ⟨h2.1, h2.1, fun x hx => h2.2.2.1 x (by simp [hx]), by simp⟩, h3⟩, by simp [IxA.text], ?_⟩
      simp [stepA, hb]
  | add F ds d =>
    obtain ⟨h1, h2, h3⟩ := diffs_snoc.mp (show Diffs byOne F (ds ++ [d]) from ho)
    obtain ⟨old, dels, new, adds⟩ := d
    rcases List.eq_nil_or_concat adds with e | ⟨L, b, e⟩
    · subst e
      refine ⟨.del F ds old dels, new, diffs_snoc.mpr ⟨h1, ⟨h2.1, h2.1, h2.2.2.1, by simp⟩, h3⟩, by simp [IxA.text, Diff.text], ?_⟩
      have : new.1.type = soa := h2.2.1
      simp [stepA, this]
    · rw [List.concat_eq_append] at e
      subst e
      have hb : b.1.type ≠ soa := h2.2.2.2 b (by simp)
      have he : rrEqual b F = false := by
        cases h : rrEqual b F with
        | false => rfl
        | true => exact absurd (rrEqual_soa h h1) hb
      refine ⟨.add F ds ⟨old, dels, new, L⟩, b, diffs_snoc.mpr ⟨h1, ⟨h2.1, h2.2.1, h2.2.2.1, fun x hx => h2.2.2.2 x (by simp [hx])⟩, h3⟩, by simp [IxA.text, Diff.text], ?_⟩
      simp [stepA, hb, he]

theorem stepA_done {byOne : Bool} {s : IxA} {rr : RRset} {ds : List Diff} (ho : s.Ok byOne) :
    stepA byOne s rr = .done ds ↔ ∃ F, s.text = F :: ds.flatMap Diff.text ∧ Diffs byOne F ds ∧ rr.1.type = soa ∧
      (rrEqual rr F = true ∨ byOne = true) ∧ ∃ D d, s = .add F D d ∧ ds = D ++ [d] := by
  constructor
  · intro h
    cases s with
    | init => simp only [stepA] at h; split at h <;> simp at h
    | first F => simp only [stepA] at h; split at h <;> simp at h
    | del F D old dels => simp only [stepA] at h; split at h <;> simp at h
    | add F D d =>
      have ho' : Diffs byOne F (D ++ [d]) := ho
      simp only [stepA] at h
      split at h
      · rename_i he
        simp only [Nx.done.injEq] at h; subst h
        exact ⟨F, rfl, ho', rrEqual_soa he ho'.soa, .inl he, D, d, rfl, rfl⟩
      · split at h
        · rename_i ht
          split at h
          · rename_i hb
            simp only [Nx.done.injEq] at h; subst h
            exact ⟨F, rfl, ho', ht, .inr hb, D, d, rfl, rfl⟩
          · simp at h
        · simp at h
  · rintro ⟨F, _, _, ht, he, D, d, rfl, rfl⟩
    simp only [stepA]
    rcases he with he | he
    · simp [he]
    · simp [he, ht]

theorem ixRun_filter (c : Conf) (byOne : Bool) (s : IxA × Nat) (l : List RRset) :
    ixRun c byOne s l = ixRun c byOne s (l.filter (inZone c)) := by
  induction l generalizing s with
  | nil => rfl
  | cons rr t ih =>
    cases hz : inZone c rr with
    | false =>
      rw [List.filter_cons_of_neg (by simp [hz]), ixRun]
      simp only [hz, if_true]
      exact ih s
    | true =>
      rw [List.filter_cons_of_pos hz]
      simp only [ixRun, hz, Bool.true_eq_false, if_false]
      split
      · rfl
      · split
        · rfl
        · exact ih _
      · rfl

theorem total_append (c : Conf) (a b : List RRset) : total c (a ++ b) = total c a + total c b := by
  simp [total]

theorem ixRun_keeps {c : Conf} {byOne : Bool} {l : List RRset} {s s' : IxA × Nat} (ho : s.1.Ok byOne)
    (hm : s.2 / 2 ≤ c.maxSize) (h : ixRun c byOne s l = .more s') :
    s'.1.Ok byOne ∧ s'.1.text = s.1.text ++ l.filter (inZone c) ∧ s'.2 = s.2 + total c (l.filter (inZone c)) ∧
      s'.2 / 2 ≤ c.maxSize := by
  induction l generalizing s with
  | nil =>
    simp only [ixRun, Out.more.injEq] at h
    subst h
    exact ⟨ho, by simp, by simp [total], hm⟩
  | cons rr t ih =>
    unfold ixRun at h
    cases hz : inZone c rr with
    | false =>
      simp only [hz, if_true] at h
      have := ih ho hm h
      rw [List.filter_cons_of_neg (by simp [hz])]
      exact this
    | true =>
      simp only [hz, Bool.true_eq_false, if_false] at h
      split at h
      · simp at h
      · rename_i a ha
        split at h
        · simp at h
        · rename_i hle
          obtain ⟨o1, o2⟩ := stepA_next ho ha
          obtain ⟨e1, e2, e3, e4⟩ := ih (s := (a, s.2 + c.size rr)) o1 (by simpa using hle) h
          rw [List.filter_cons_of_pos hz]
          refine ⟨e1, by rw [e2, o2]; simp, ?_, e4⟩
          rw [e3]; simp [total]; omega
      · split at h <;> simp at h

theorem ixRun_reads {c : Conf} {byOne : Bool} (n : Nat) : ∀ {s : IxA}, s.text.length = n → s.Ok byOne →
    (∀ rr ∈ s.text, inZone c rr = true) → total c s.text / 2 ≤ c.maxSize →
    ixRun c byOne (.init, 0) s.text = .more (s, total c s.text) := by
  induction n with
  | zero =>
    intro s hl ho hz hm
    cases s with
    | init => rfl
    | first F => simp [IxA.text] at hl
    | del F ds old dels => simp [IxA.text] at hl
    | add F ds d => simp [IxA.text] at hl
  | succ n ih =>
    intro s hl ho hz hm
    have hn : s ≠ .init := by intro e; rw [e] at hl; simp [IxA.text] at hl
    obtain ⟨s0, x, h1, h2, h3⟩ := stepA_pred ho hn
    have hx := hz x (by rw [h2]; simp)
    have hle : total c s0.text / 2 ≤ c.maxSize := by
      rw [h2, total_append] at hm
      exact Nat.le_trans (Nat.div_le_div_right (Nat.le_add_right _ _)) hm
    have hr := ih (s := s0) (by rw [h2] at hl; simp at hl; omega) h1 (fun rr hr => hz rr (by rw [h2]; simp [hr])) hle
    have ht : total c s0.text + c.size x = total c s.text := by rw [h2, total_append]; simp [total]
    rw [h2, ixRun_append, hr, ← h2]
    simp only [Out.bind, ixRun, hx, Bool.true_eq_false, if_false, h3, ht]
    rw [if_neg (by omega)]

theorem ixRun_more {c : Conf} {byOne : Bool} {l : List RRset} {s : IxA} {n : Nat} :
    ixRun c byOne (.init, 0) l = .more (s, n) ↔ s.Ok byOne ∧ s.text = l.filter (inZone c) ∧
      n = total c (l.filter (inZone c)) ∧ n / 2 ≤ c.maxSize := by
  constructor
  · intro h
    obtain ⟨h1, h2, h3, h4⟩ := ixRun_keeps (s := (.init, 0)) trivial (by simp) h
    exact ⟨h1, by simpa [IxA.text] using h2, by simpa using h3, h4⟩
  · rintro ⟨h1, h2, h3, h4⟩
    rw [ixRun_filter, ← h2, ixRun_reads _ rfl h1 (fun rr hr => by rw [h2] at hr; exact (List.mem_filter.mp hr).2) (by rw [h2, ← h3]; exact h4), h2, h3]

theorem ixRun_done {c : Conf} {byOne : Bool} {l : List RRset} {s : IxA × Nat} {ds : List Diff} :
    ixRun c byOne s l = .done ds ↔ ∃ pre e post a n, l = pre ++ e :: post ∧ ixRun c byOne s pre = .more (a, n) ∧
      inZone c e = true ∧ stepA byOne a e = .done ds ∧ (n + c.size e) / 2 ≤ c.maxSize := by
  constructor
  · intro h
    induction l generalizing s with
    | nil => simp [ixRun] at h
    | cons rr t ih =>
      have hx := h
      unfold ixRun at h
      cases hz : inZone c rr with
      | false =>
        simp only [hz, if_true] at h
        obtain ⟨pre, e, post, a, n, h1, h2, h3⟩ := ih h
        refine ⟨rr :: pre, e, post, a, n, by rw [h1]; rfl, ?_, h3⟩
        rw [ixRun]
        simp only [hz, if_true]
        exact h2
      | true =>
        simp only [hz, Bool.true_eq_false, if_false] at h
        split at h
        · simp at h
        · rename_i a ha
          split at h
          · simp at h
          · rename_i hle
            obtain ⟨pre, e, post, a', n, h1, h2, h3⟩ := ih h
            refine ⟨rr :: pre, e, post, a', n, by rw [h1]; rfl, ?_, h3⟩
            rw [ixRun]
            simp only [hz, Bool.true_eq_false, if_false, ha, if_neg hle]
            exact h2
        · rename_i r hr
          split at h
          · simp at h
          · rename_i hle
            simp only [Out.done.injEq] at h
            subst h
            exact ⟨[], rr, t, s.1, s.2, rfl, rfl, hz, hr, by omega⟩
  · rintro ⟨pre, e, post, a, n, rfl, h2, h3, h4, h5⟩
    rw [ixRun_append, h2]
    simp only [Out.bind, ixRun, h3, Bool.true_eq_false, if_false, h4]
    rw [if_neg (by omega)]

theorem got_ixfr {c : Conf} {byOne : Bool} {evs : List Event} {z : Contents} :
    Got (ixRun c byOne) (Applied c) (.init, 0) evs z ↔ IxfrBrings c byOne evs z := by
  rw [got_iff (fun s => rfl) (ixRun_append c byOne)]
  constructor
  · rintro ⟨ms, m, es, s', r, e1, e2, e3, e4, e5, e6, e7⟩
    obtain ⟨p, e, q, a, n, f1, f2, f3, f4, f5⟩ := ixRun_done.mp e6
    have hm : ixRun c byOne (.init, 0) (ms.flatMap (·.answer) ++ p) = .more (a, n) := by
      rw [ixRun_append, e5]; exact f2
    obtain ⟨g1, g2, g3, g4⟩ := ixRun_more.mp hm
    obtain ⟨F, k1, k2, k3, k4, _⟩ := (stepA_done g1).mp f4
    refine ⟨ms, m, es, ms.flatMap (·.answer) ++ p, e, q, F, r, e1, e2, e3, e4, by rw [f1]; simp, by simp, ?_, k2, f3, k3, k4, ?_, e7⟩
    · rw [← g2, k1]
    · rw [← g3]; exact f5
  · rintro ⟨ms, m, es, pre, e, post, F, ds, e1, e2, e3, e4, e5, e6, e7, e8, e9, e10, e11, e12, e13⟩
    obtain ⟨p, hp⟩ : ∃ p, pre = ms.flatMap (·.answer) ++ p := by
      have h1 : ms.flatMap (·.answer) <+: pre ++ e :: post := ⟨m.answer, e5⟩
      have h2 : pre <+: pre ++ e :: post := ⟨_, rfl⟩
      obtain ⟨p, hp⟩ := List.prefix_of_prefix_length_le h1 h2 e6
      exact ⟨p, hp.symm⟩
    have hm : m.answer = p ++ e :: post := by
      rw [hp, List.append_assoc] at e5
      exact List.append_cancel_left e5
    rcases List.eq_nil_or_concat ds with h | ⟨D, d, h⟩
    · exact absurd h e8.some
    · rw [List.concat_eq_append] at h
      have hok : IxA.Ok byOne (.add F D d) := by rw [h] at e8; exact e8
      have htx : (IxA.add F D d).text = pre.filter (inZone c) := by rw [e7, h]; rfl
      have hr : ixRun c byOne (.init, 0) pre = .more (.add F D d, total c (pre.filter (inZone c))) := by
        rw [ixRun_more]
        refine ⟨hok, htx, rfl, Nat.le_trans (Nat.div_le_div_right (Nat.le_add_right _ _)) e12⟩
      rw [hp, ixRun_append] at hr
      cases h1 : ixRun c byOne (.init, 0) (ms.flatMap (·.answer)) with
      | more s' =>
        rw [h1] at hr
        refine ⟨ms, m, es, s', ds, e1, e2, e3, e4, h1, ?_, e13⟩
        rw [ixRun_done]
        refine ⟨p, e, post, .add F D d, _, hm, hr, e9, ?_, by rw [← hp]; exact e12⟩
        rw [stepA_done hok]
        exact ⟨F, by rw [h]; rfl, e8, e10, e11, D, d, rfl, h⟩
      | done r => rw [h1] at hr; simp [Out.bind] at hr
      | fail => rw [h1] at hr; simp [Out.bind] at hr

end Knot.Xfr
