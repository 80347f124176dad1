import Verif.Changeset.Lemmas3
/-!
# Lemmas: updates and replay
-/
namespace Knot.Changeset
open Knot.Dname (Name)
open Knot.Rdataset (Canon canon_ext)

theorem soaKey_ok (apex : Name) : KeyOk (soaKey apex) := by simp [KeyOk, soa]

/-! ## The calls -/

theorem zuRemove_ok {u : Update} {rr : RRset} (h : Removable u.zone rr) :
    zuRemove u rr = .ok { u with zone := zRem u.zone rr, change := addRemoval u.change rr true } := by
  obtain ⟨_, hg, ht, d, hd, hs, _⟩ := h
  rw [zuRemove, if_neg hg.1, if_neg ht, applyRemove_ok hd hs]
  rfl

theorem zuRemove_soa {u : Update} {rr : RRset} (h : rr.1.type = soa) : zuRemove u rr = .ok u := by
  unfold zuRemove
  rw [if_pos h]
  split <;> rfl

theorem solveTtl_ok {f : Update → RRset → Res Update} {u : Update} {rr : RRset}
    (h : rr.1.type ≠ rrsig → rr.1.type ≠ soa → ∀ e, lookup u.zone { rr.1 with nsec3 := false } = some e →
      e.ttl = rr.2.ttl) : solveTtl f u rr = .ok u := by
  unfold solveTtl
  split
  · rfl
  · rename_i hn
    split
    · rfl
    · rename_i e he
      rw [if_pos (h (fun x => hn (.inl x)) (fun x => hn (.inr x)) e he)]

theorem zuAddN_ok {n : Nat} {u : Update} (wu : Wf u.zone) {rr : RRset} (h : Addable u.zone rr) :
    zuAddN (n + 1) u rr =
      .ok { u with zone := zAdd u.zone rr, change := addAddition u.change rr true } := by
  obtain ⟨hk, hg, ht, hs⟩ := h
  rw [zuAddN, if_neg hg.1, if_neg ht, applyAdd_ok (fun d hd => (hs d hd).1), Res.bind_ok,
    solveTtl_ok]
  · rfl
  · intro h1 h2 e he
    simp only [lookup_zAdd wu] at he
    cases hn : rr.1.nsec3 with
    | false =>
      have : ({ rr.1 with nsec3 := false } : Key) = rr.1 := by rw [← hn]
      rw [this, if_pos rfl, Option.some.injEq] at he
      rw [← he]
      rcases nodeAdd_ttl (ty := rr.1.type) (wu.goodO rr.1) rr.2 with e | e
      · exact absurd e h1
      · exact e
    | true =>
      have h50 : rr.1.type = 50 := by
        rcases hk.1 hn with e | e
        · exact e
        · exact absurd e h1
      rw [if_neg (by intro e; have := congrArg Key.nsec3 e; simp [hn] at this)] at he
      exact absurd h50 ((wu.key he).2 rfl)

theorem zuAdd_ok {u : Update} (wu : Wf u.zone) {rr : RRset} (h : Addable u.zone rr) :
    zuAdd u rr = .ok { u with zone := zAdd u.zone rr, change := addAddition u.change rr true } :=
  zuAddN_ok wu h

theorem minus_self (d : RRs) : minus (some d) d = none := by
  have : subtract d.data d.data = [] := by simp [subtract]
  simp [minus, this]

/-- The update after a new SOA. -/
def soaUp (u : Update) (r : RRs) : Update :=
  ⟨u.apex, u.strict, zSoa u.zone (soaKey u.apex, r), { u.change with soaTo := some (soaKey u.apex, r) }⟩

theorem zuAdd_soa {u : Update} (wu : Wf u.zone) {r : RRs} (hg : Good r)
    (h : (lookup u.zone (soaKey u.apex)).isSome) :
    zuAdd u (soaKey u.apex, r) = .ok (soaUp u r) := by
  obtain ⟨s, hs⟩ := Option.isSome_iff_exists.mp h
  have e1 : applyReplaceSoa u.strict u.apex u.zone (soaKey u.apex, r) =
      .ok (zSoa u.zone (soaKey u.apex, r)) := by
    have e0 : zRem u.zone (soaKey u.apex, s) = put u.zone (soaKey u.apex) none := by
      rw [zRem, hs, minus_self]
    have e2 : lookup (put u.zone (soaKey u.apex) none) (soaKey u.apex) = none := by
      rw [lookup_put wu.1, if_pos rfl]
    rw [applyReplaceSoa, if_neg (by simp), hs]
    simp only
    rw [applyRemove_ok (rr := (soaKey u.apex, s)) hs (fun _ h => h), Res.bind_ok, e0, e2]
    simp only [Option.isSome_none, Bool.false_eq_true, if_false]
    rw [applyAdd_ok (by simp [e2])]
    simp [zAdd, zSoa, e2, nodeAdd]
  rw [zuAdd, zuAddN, if_neg hg.1, if_pos rfl, e1, Res.bind_ok, solveTtl_ok (by simp)]
  simp [addAddition, soaUp]

/-! ## Sequences of calls -/

/-- Every call finds what it expects. -/
def Fair (apex : Name) : Contents → List Call → Prop
  | _, [] => True
  | c, .remove rr :: cs =>
    (rr.1.type = soa ∧ Fair apex c cs) ∨ (Removable c rr ∧ Fair apex (zRem c rr) cs)
  | c, .add rr :: cs =>
    (rr.1 = soaKey apex ∧ Good rr.2 ∧ (lookup c (soaKey apex)).isSome ∧ Fair apex (zSoa c rr) cs) ∨
    (Addable c rr ∧ Fair apex (zAdd c rr) cs)

/-- The zone after the calls. -/
def zRun : Contents → List Call → Contents
  | c, [] => c
  | c, .remove rr :: cs => if rr.1.type = soa then zRun c cs else zRun (zRem c rr) cs
  | c, .add rr :: cs => if rr.1.type = soa then zRun (zSoa c rr) cs else zRun (zAdd c rr) cs

theorem leads_soa {apex : Name} {z c : Contents} {ch : Ch} (h : Leads apex z c ch) (wc : Wf c) (r : RRs) :
    Leads apex z (zSoa c (soaKey apex, r)) { ch with soaTo := some (soaKey apex, r) } := by
  refine ⟨fun k hk => ?_, ?_⟩
  · rw [lookup_zSoa wc, if_neg hk]
    exact h.1 k hk
  · rw [lookup_zSoa wc, if_pos rfl]
    exact ⟨rfl, .inr rfl⟩

theorem wf_soa {apex : Name} {ch : Ch} (w : ch.Wf apex) {r : RRs} (hg : Good r) :
    Ch.Wf apex { ch with soaTo := some (soaKey apex, r) } := by
  refine ⟨w.1, w.2.1, w.2.2.1, w.2.2.2.1, ?_, w.2.2.2.2.2⟩
  intro rr hr
  simp only [Option.some.injEq] at hr
  subst hr
  exact ⟨rfl, hg⟩

theorem run_fair {cs : List Call} {u : Update} (wu : Wf u.zone) (w : u.change.Wf u.apex)
    {z : Contents} (hl : Leads u.apex z u.zone u.change) (hf : Fair u.apex u.zone cs) :
    ∃ u', u.run cs = .ok u' ∧ u'.zone = zRun u.zone cs ∧ Wf u'.zone ∧ u'.change.Wf u.apex ∧
      u'.change.soaFrom = u.change.soaFrom ∧
      Leads u.apex z u'.zone u'.change ∧ u'.apex = u.apex ∧ u'.strict = u.strict := by
  induction cs generalizing u with
  | nil => exact ⟨u, rfl, rfl, wu, w, rfl, hl, rfl, rfl⟩
  | cons call cs ih =>
    cases call with
    | remove rr =>
      rcases hf with ⟨ht, hf⟩ | ⟨hr, hf⟩
      · obtain ⟨u', e, e2, e3⟩ := ih wu w hl hf
        refine ⟨u', ?_, ?_, e3⟩
        · simp only [Update.run, Call.exec, zuRemove_soa ht, Res.bind_ok, e]
        · simp only [zRun, if_pos ht, e2]
      · obtain ⟨u', e, e2, e3⟩ := ih (u := { u with zone := zRem u.zone rr, change := addRemoval u.change rr true })
          (wu.zRem rr) (addRemoval_wf w hr.2.2.1 hr.1 hr.2.1) (hl.remove wu w hr) hf
        rw [(addRemoval_soa hr.2.2.1).2] at e3
        refine ⟨u', ?_, ?_, e3⟩
        · simp only [Update.run, Call.exec, zuRemove_ok hr, Res.bind_ok, e]
        · simp only [zRun, if_neg hr.2.2.1, e2]
    | add rr =>
      rcases hf with ⟨hk, hg, hs, hf⟩ | ⟨ha, hf⟩
      · obtain ⟨k, r⟩ := rr
        simp only at hk hg
        subst hk
        obtain ⟨u', e, e2, e3⟩ := ih (u := soaUp u r)
          (wu.zSoa (soaKey_ok _) hg) (wf_soa w hg) (leads_soa hl wu r) hf
        refine ⟨u', ?_, ?_, e3⟩
        · simp only [Update.run, Call.exec, zuAdd_soa wu hg hs, Res.bind_ok, e]
        · simp only [zRun, if_true, e2, soaUp]
      · obtain ⟨u', e, e2, e3⟩ := ih (u := { u with zone := zAdd u.zone rr, change := addAddition u.change rr true })
          (wu.zAdd ha.1 ha.2.1) (addAddition_wf w ha.2.2.1 ha.1 ha.2.1) (hl.add wu w ha) hf
        rw [(addAddition_soa ha.2.2.1).2] at e3
        refine ⟨u', ?_, ?_, e3⟩
        · simp only [Update.run, Call.exec, zuAdd_ok wu ha, Res.bind_ok, e]
        · simp only [zRun, if_neg ha.2.2.1, e2]

/-! ## Replaying a changeset -/

/-- The conditions under which a changeset can be applied to an RRset. -/
structure Fits1 (ty : Nat) (b r a : Option RRs) : Prop where
  sub : ∀ x ∈ recs r, x ∈ recs b
  dis : ∀ x ∈ recs a, x ∈ recs b → x ∈ recs r
  tr : ∀ rr bb, r = some rr → b = some bb → SameTtl ty rr.ttl bb.ttl
  tx : ∀ aa bb, a = some aa → b = some bb → (∃ x ∈ bb.data, x ∉ recs r) → SameTtl ty aa.ttl bb.ttl

def Fits (apex : Name) (z : Contents) (ch : Ch) : Prop :=
  ∀ k, k ≠ soaKey apex → Fits1 k.type (lookup z k) (lookup ch.rem k) (lookup ch.add k)

theorem Leads1.fits {ty : Nat} {b c r a : Option RRs} (h : Leads1 ty b c r a) : Fits1 ty b r a where
  sub := h.sub
  dis := h.dis
  tr := h.tr
  tx aa bb ha hb := by
    rintro ⟨x, hx, hn⟩
    obtain ⟨cc, hc, _⟩ := recs_ne ((h.eq x).mpr (.inl ⟨(mem_of_some hb).mp hx, hn⟩))
    exact (h.ta aa cc ha hc).trans (h.tk bb cc hb hc ⟨x, hx, hn⟩)

theorem Leads.fits {apex : Name} {z c : Contents} {ch : Ch} (h : Leads apex z c ch) : Fits apex z ch :=
  fun k hk => (h.1 k hk).fits

/-- An RRset after removals. -/
def minusO (b r : Option RRs) : Option RRs :=
  match r with
  | some x => minus b x
  | none => b

/-- An RRset after removals and additions. -/
def after (ty : Nat) (b r a : Option RRs) : Option RRs :=
  match a with
  | some x => some (nodeAdd ty (minusO b r) x)
  | none => minusO b r

theorem mem_minusO {b r : Option RRs} {y : Bytes} :
    y ∈ recs (minusO b r) ↔ y ∈ recs b ∧ y ∉ recs r := by
  cases r with
  | none => simp [minusO, recs]
  | some x => exact mem_recs_minus

theorem minusO_ttl {b r : Option RRs} {m : RRs} (h : minusO b r = some m) :
    ∃ bb, b = some bb ∧ m.ttl = bb.ttl := by
  cases r with
  | none => exact ⟨m, h, rfl⟩
  | some x => exact minus_ttl h

theorem GoodO.minusO {b : Option RRs} (h : GoodO b) (r : Option RRs) : GoodO (minusO b r) := by
  cases r with
  | none => exact h
  | some x => exact h.minus x

theorem Fits1.leads {ty : Nat} {b r a : Option RRs} (h : Fits1 ty b r a) (gb : GoodO b) :
    Leads1 ty b (after ty b r a) r a := by
  refine ⟨h.sub, h.dis, ?_, h.tr, ?_, ?_⟩
  · intro y
    cases a with
    | none => simp only [after, mem_minusO, show recs none = [] from rfl]; simp
    | some x =>
      show y ∈ (nodeAdd ty _ x).data ↔ _
      rw [mem_nodeAdd, mem_minusO]
      rfl
  · intro aa cc ha hc
    subst ha
    simp only [after, Option.some.injEq] at hc
    subst hc
    exact (nodeAdd_ttl (gb.minusO r) aa).symm
  · intro bb cc hb hc hex
    cases a with
    | none =>
      obtain ⟨b2, e, e'⟩ := minusO_ttl hc
      rw [hb, Option.some.injEq] at e
      subst e
      exact .inr e'
    | some x =>
      simp only [after, Option.some.injEq] at hc
      subst hc
      exact (nodeAdd_ttl (gb.minusO r) x).trans (h.tx x bb rfl hb hex)

/-! ### Lists of removals and additions -/

theorem lookup_foldRem {l : Contents} {c : Contents} (wc : Wf c) (hn : (l.map (·.1)).Nodup) (k : Key) :
    lookup (l.foldl zRem c) k = minusO (lookup c k) (lookup l k) ∧ Wf (l.foldl zRem c) := by
  induction l generalizing c with
  | nil => exact ⟨rfl, wc⟩
  | cons rr t ih =>
    simp only [List.map_cons, List.nodup_cons] at hn
    obtain ⟨k0, x⟩ := rr
    obtain ⟨e, w⟩ := ih (wc.zRem (k0, x)) hn.2
    refine ⟨?_, w⟩
    rw [List.foldl_cons, e, lookup_zRem wc]
    by_cases h : k = k0
    · subst h
      have : lookup t k = none := by
        rw [lookup_none]
        exact fun r hr => hn.1 (List.mem_map.mpr ⟨_, hr, rfl⟩)
      simp [lookup, this, minusO]
    · simp [lookup, h, Ne.symm h]

theorem lookup_foldAdd {l : Contents} {c : Contents} (wc : Wf c) (wl : Wf l) (k : Key) :
    lookup (l.foldl zAdd c) k = (match lookup l k with
      | some x => some (nodeAdd k.type (lookup c k) x)
      | none => lookup c k) ∧ Wf (l.foldl zAdd c) := by
  induction l generalizing c with
  | nil => exact ⟨rfl, wc⟩
  | cons rr t ih =>
    have hn := wl.1
    simp only [List.map_cons, List.nodup_cons] at hn
    obtain ⟨k0, x⟩ := rr
    have hx := wl.2 (k0, x) (by simp)
    obtain ⟨e, w⟩ := ih (wc.zAdd (rr := (k0, x)) hx.1 hx.2) ⟨hn.2, fun rr hm => wl.2 rr (by simp [hm])⟩
    refine ⟨?_, w⟩
    rw [List.foldl_cons, e, lookup_zAdd wc]
    by_cases h : k = k0
    · subst h
      have : lookup t k = none := by
        rw [lookup_none]
        exact fun r hr => hn.1 (List.mem_map.mpr ⟨_, hr, rfl⟩)
      simp [lookup, this]
    · simp [lookup, h, Ne.symm h]

theorem removable_other {c : Contents} (wc : Wf c) {rr rr' : RRset} (hne : rr.1 ≠ rr'.1)
    (h : Removable c rr) : Removable (zRem c rr') rr := by
  obtain ⟨h1, h2, h3, d, hd, h4⟩ := h
  exact ⟨h1, h2, h3, d, by rw [lookup_zRem wc, if_neg hne]; exact hd, h4⟩

theorem addable_other {c : Contents} (wc : Wf c) {rr rr' : RRset} (hne : rr.1 ≠ rr'.1)
    (h : Addable c rr) : Addable (zAdd c rr') rr := by
  obtain ⟨h1, h2, h3, h4⟩ := h
  exact ⟨h1, h2, h3, by rw [lookup_zAdd wc, if_neg hne]; exact h4⟩

theorem nodup_ne {rr : RRset} {t : Contents} (hn : rr.1 ∉ t.map (·.1)) {x : RRset} (hx : x ∈ t) :
    x.1 ≠ rr.1 := fun e => hn (e ▸ List.mem_map.mpr ⟨x, hx, rfl⟩)

theorem fair_removals {apex : Name} {l : Contents} {c : Contents} {rest : List Call} (wc : Wf c)
    (hn : (l.map (·.1)).Nodup) (hr : ∀ rr ∈ l, Removable c rr)
    (hf : Fair apex (l.foldl zRem c) rest) :
    Fair apex c (l.map .remove ++ rest) ∧
      zRun c (l.map .remove ++ rest) = zRun (l.foldl zRem c) rest := by
  induction l generalizing c with
  | nil => exact ⟨hf, rfl⟩
  | cons rr t ih =>
    simp only [List.map_cons, List.nodup_cons] at hn
    have h0 := hr rr (by simp)
    obtain ⟨e, e'⟩ := ih (wc.zRem rr) hn.2 (fun x hx => removable_other wc (nodup_ne hn.1 hx) (hr x (by simp [hx]))) hf
    exact ⟨.inr ⟨h0, e⟩, by simp only [List.map_cons, List.cons_append, zRun, if_neg h0.2.2.1, e']; rfl⟩

theorem fair_additions {apex : Name} {l : Contents} {c : Contents} {rest : List Call} (wc : Wf c)
    (hn : (l.map (·.1)).Nodup) (hr : ∀ rr ∈ l, Addable c rr)
    (hf : Fair apex (l.foldl zAdd c) rest) :
    Fair apex c (l.map .add ++ rest) ∧
      zRun c (l.map .add ++ rest) = zRun (l.foldl zAdd c) rest := by
  induction l generalizing c with
  | nil => exact ⟨hf, rfl⟩
  | cons rr t ih =>
    simp only [List.map_cons, List.nodup_cons] at hn
    have h0 := hr rr (by simp)
    obtain ⟨e, e'⟩ := ih (wc.zAdd h0.1 h0.2.1) hn.2 (fun x hx => addable_other wc (nodup_ne hn.1 hx) (hr x (by simp [hx]))) hf
    exact ⟨.inr ⟨h0, e⟩, by simp only [List.map_cons, List.cons_append, zRun, if_neg h0.2.2.1, e']; rfl⟩

theorem Fits.removable {apex : Name} {z : Contents} {ch : Ch} (w : ch.Wf apex)
    (h : Fits apex z ch) : ∀ rr ∈ ch.rem, Removable z rr := by
  intro rr hm
  obtain ⟨hk, hg⟩ := w.2.1.2 rr hm
  have ht := w.2.2.2.1 rr hm
  have hl := mem_lookup w.2.1.1 (k := rr.1) (r := rr.2) hm
  have hne : rr.1 ≠ soaKey apex := by intro e; apply ht; rw [e]
  have hf := h rr.1 hne
  obtain ⟨y, hy⟩ := List.exists_mem_of_ne_nil _ hg.1
  obtain ⟨d, hd, _⟩ := recs_ne (hf.sub y (by rw [hl]; exact hy))
  refine ⟨hk, hg, ht, d, hd, fun x hx => ?_, hf.tr _ _ hl hd⟩
  exact (mem_of_some hd).mpr (hf.sub x (by rw [hl]; exact hx))

theorem Fits.addable {apex : Name} {z : Contents} {ch : Ch} (wz : Wf z) (w : ch.Wf apex)
    (h : Fits apex z ch) : ∀ rr ∈ ch.add, Addable (ch.rem.foldl zRem z) rr := by
  intro rr hm
  obtain ⟨hk, hg⟩ := w.1.2 rr hm
  have ht := w.2.2.1 rr hm
  have hl := mem_lookup w.1.1 (k := rr.1) (r := rr.2) hm
  have hne : rr.1 ≠ soaKey apex := by intro e; apply ht; rw [e]
  have hf := h rr.1 hne
  refine ⟨hk, hg, ht, fun d hd => ?_⟩
  rw [(lookup_foldRem wz w.2.1.1 rr.1).1] at hd
  have hmem : ∀ y ∈ d.data, y ∈ recs (lookup z rr.1) ∧ y ∉ recs (lookup ch.rem rr.1) := by
    intro y hy
    exact mem_minusO.mp ((mem_of_some hd).mp hy)
  have httl : ∃ bb, lookup z rr.1 = some bb ∧ d.ttl = bb.ttl := minusO_ttl hd
  have hgd : d.data ≠ [] := by
    have w' := (lookup_foldRem wz w.2.1.1 rr.1).2
    exact (w'.good (by rw [(lookup_foldRem wz w.2.1.1 rr.1).1]; exact hd)).1
  refine ⟨fun x hx hxd => ?_, ?_⟩
  · have := hmem x hxd
    exact this.2 (hf.dis x (by rw [hl]; exact hx) this.1)
  · obtain ⟨bb, hb, e⟩ := httl
    rw [e]
    obtain ⟨y, hy⟩ := List.exists_mem_of_ne_nil _ hgd
    have := hmem y hy
    exact hf.tx _ _ hl hb ⟨y, (mem_of_some hb).mpr this.1, this.2⟩

/-- A changeset that fits can be replayed. -/
theorem replay_fits {apex : Name} {z : Contents} {ch : Ch} (wz : Wf z) (w : ch.Wf apex)
    (hz : (lookup z (soaKey apex)).isSome) (h : Fits apex z ch) :
    Fair apex z ch.walk ∧ Leads apex z (zRun z ch.walk) ch := by
  have w1 := (lookup_foldRem wz w.2.1.1 (soaKey apex)).2
  have l1 := fun k => (lookup_foldRem wz w.2.1.1 k).1
  have w2 := (lookup_foldAdd w1 w.1 (soaKey apex)).2
  have l2 := fun k => (lookup_foldAdd w1 w.1 k).1
  have ns : ∀ c : Contents, (∀ rr ∈ c, rr.1.type ≠ soa) → lookup c (soaKey apex) = none := by
    intro c hc
    rw [lookup_none]
    exact fun r hr => hc _ hr rfl
  have e1 : lookup (ch.rem.foldl zRem z) (soaKey apex) = lookup z (soaKey apex) := by
    rw [l1, ns _ w.2.2.2.1]; rfl
  have e2 : lookup (ch.add.foldl zAdd (ch.rem.foldl zRem z)) (soaKey apex) = lookup z (soaKey apex) := by
    rw [l2, ns _ w.2.2.1, e1]
  have hafter : ∀ k, lookup (ch.add.foldl zAdd (ch.rem.foldl zRem z)) k =
      after k.type (lookup z k) (lookup ch.rem k) (lookup ch.add k) := by
    intro k
    rw [l2, l1]
    rfl
  -- the last part
  have f4 : Fair apex (ch.add.foldl zAdd (ch.rem.foldl zRem z)) (ch.soaTo.toList.map .add) ∧
      Leads apex z (zRun (ch.add.foldl zAdd (ch.rem.foldl zRem z)) (ch.soaTo.toList.map .add)) ch := by
    cases hs : ch.soaTo with
    | none =>
      refine ⟨trivial, fun k hk => ?_, ?_⟩
      · simp only [Option.toList, List.map_nil, zRun]
        rw [hafter]
        exact (h k hk).leads (wz.goodO k)
      · simp only [Option.toList, List.map_nil, zRun, hs]
        rw [e2]
        obtain ⟨s, hs'⟩ := Option.isSome_iff_exists.mp hz
        rw [hs']
        exact ⟨rfl, .inr rfl⟩
    | some rr =>
      obtain ⟨hk, hg⟩ := w.2.2.2.2.1 rr hs
      refine ⟨.inl ⟨hk, hg, by rw [e2]; exact hz, trivial⟩, fun k hk' => ?_, ?_⟩
      · simp only [Option.toList, List.map_cons, List.map_nil, zRun, hk, if_true]
        rw [lookup_zSoa w2, hk, if_neg hk', hafter]
        exact (h k hk').leads (wz.goodO k)
      · simp only [Option.toList, List.map_cons, List.map_nil, zRun, hk, if_true, hs]
        rw [lookup_zSoa w2, hk, if_pos rfl]
        exact ⟨rfl, .inr rfl⟩
  obtain ⟨f3, z3⟩ := fair_additions (apex := apex) w1 w.1.1 (h.addable wz w) f4.1
  have f2 : Fair apex (ch.rem.foldl zRem z)
      (ch.soaFrom.toList.map .remove ++ (ch.add.map .add ++ ch.soaTo.toList.map .add)) ∧
      zRun (ch.rem.foldl zRem z)
        (ch.soaFrom.toList.map .remove ++ (ch.add.map .add ++ ch.soaTo.toList.map .add)) =
      zRun (ch.rem.foldl zRem z) (ch.add.map .add ++ ch.soaTo.toList.map .add) := by
    cases hs : ch.soaFrom with
    | none => exact ⟨f3, rfl⟩
    | some rr =>
      have hk := (w.2.2.2.2.2 rr hs).1
      exact ⟨.inl ⟨by rw [hk], f3⟩, by simp only [Option.toList, List.map_cons, List.map_nil, List.cons_append, List.nil_append, zRun, hk, if_true]⟩
  obtain ⟨f1, z1⟩ := fair_removals (apex := apex) wz w.2.1.1 (h.removable w) f2.1
  have hw : ch.walk = ch.rem.map .remove ++
      (ch.soaFrom.toList.map .remove ++ (ch.add.map .add ++ ch.soaTo.toList.map .add)) := by
    simp [Ch.walk, List.append_assoc]
  rw [hw]
  refine ⟨f1, ?_⟩
  rw [z1, f2.2, z3]
  exact f4.2

end Knot.Changeset
