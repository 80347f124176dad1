import Verif.Changeset.Lemmas
/-!
# Lemmas: one RRset
-/
namespace Knot.Changeset
open Knot.Dname (Name)
open Knot.Rdataset (Canon canon_ext)

def GoodO (o : Option RRs) : Prop := ∀ r, o = some r → Good r

/-- What is left of an RRset. -/
def minus (o : Option RRs) (x : RRs) : Option RRs :=
  match o with
  | none => none
  | some d => if subtract d.data x.data = [] then none else some ⟨d.ttl, subtract d.data x.data⟩

/-- check_redundancy() for one RRset. -/
def ck (ty : Nat) (o : Option RRs) (x : RRs) : Option RRs × RRs :=
  match o with
  | none => (none, x)
  | some d =>
    if x.ttl = d.ttl ∨ ty = rrsig then (minus (some d) x, ⟨x.ttl, subtract x.data d.data⟩)
    else (some d, x)

/-- Adding the rest to the other half of the changeset. -/
def grow (ty : Nat) (o : Option RRs) (x : RRs) : Option RRs :=
  if x.data = [] then o else some (nodeAdd ty o x)

theorem mem_recs_minus {o : Option RRs} {x : RRs} {y : Bytes} :
    y ∈ recs (minus o x) ↔ y ∈ recs o ∧ y ∉ x.data := by
  cases o with
  | none => simp [minus, recs]
  | some d =>
    simp only [minus]
    by_cases h : subtract d.data x.data = []
    · rw [if_pos h]
      have := @mem_subtract y d.data x.data
      rw [h] at this
      simpa [recs] using this
    · rw [if_neg h]
      exact mem_subtract

theorem minus_ttl {o : Option RRs} {x m : RRs} (h : minus o x = some m) :
    ∃ d, o = some d ∧ m.ttl = d.ttl := by
  cases o with
  | none => simp [minus] at h
  | some d =>
    simp only [minus] at h
    split at h
    · simp at h
    · simp only [Option.some.injEq] at h
      exact ⟨d, rfl, by rw [← h]⟩

theorem GoodO.minus {o : Option RRs} (h : GoodO o) (x : RRs) : GoodO (minus o x) := by
  intro m hm
  cases o with
  | none => simp [Changeset.minus] at hm
  | some d =>
    simp only [Changeset.minus] at hm
    split at hm
    · simp at hm
    · rename_i hne
      simp only [Option.some.injEq] at hm
      subst hm
      exact ⟨hne, canon_subtract _ (h d rfl).2⟩

theorem mem_nodeAdd {ty : Nat} {o : Option RRs} {x : RRs} {y : Bytes} :
    y ∈ (nodeAdd ty o x).data ↔ y ∈ recs o ∨ y ∈ x.data := by
  cases o with
  | none => simp [nodeAdd, recs]
  | some d => simp [nodeAdd, recs, mem_merge]

theorem nodeAdd_ttl {ty : Nat} {o : Option RRs} (h : GoodO o) (x : RRs) :
    SameTtl ty (nodeAdd ty o x).ttl x.ttl := by
  cases o with
  | none => exact .inr rfl
  | some d =>
    have := (h d rfl).1
    simp only [nodeAdd, ttlChanged, SameTtl]
    by_cases ht : ty = rrsig
    · exact .inl ht
    · right
      by_cases hd : x.ttl = d.ttl
      · simp [hd]
      · simp [hd, ht, this]

theorem good_nodeAdd {ty : Nat} {o : Option RRs} (h : GoodO o) {x : RRs} (hx : Good x) :
    Good (nodeAdd ty o x) := by
  cases o with
  | none => exact hx
  | some d =>
    refine ⟨fun he => ?_, canon_merge (h d rfl).2⟩
    have hm := @mem_nodeAdd ty (some d) x
    obtain ⟨y, hy⟩ := List.exists_mem_of_ne_nil _ hx.1
    have := (@hm y).mpr (.inr hy)
    rw [he] at this
    simp at this

theorem mem_recs_grow {ty : Nat} {o : Option RRs} {x : RRs} {y : Bytes} :
    y ∈ recs (grow ty o x) ↔ y ∈ recs o ∨ y ∈ x.data := by
  unfold grow
  split
  · rename_i h; simp [h]
  · exact mem_nodeAdd

theorem GoodO.grow {ty : Nat} {o : Option RRs} (h : GoodO o) {x : RRs} (hx : Canon x.data) :
    GoodO (grow ty o x) := by
  unfold Changeset.grow
  split
  · exact h
  · rename_i hne
    intro r hr
    simp only [Option.some.injEq] at hr
    subst hr
    exact good_nodeAdd h ⟨hne, hx⟩

theorem grow_ttl {ty : Nat} {o : Option RRs} (h : GoodO o) {x g : RRs} (hg : grow ty o x = some g) :
    (x.data = [] ∧ o = some g) ∨ (x.data ≠ [] ∧ SameTtl ty g.ttl x.ttl) := by
  unfold grow at hg
  split at hg
  · exact .inl ⟨by assumption, hg⟩
  · simp only [Option.some.injEq] at hg
    subst hg
    exact .inr ⟨by assumption, nodeAdd_ttl h x⟩

theorem recs_ne {o : Option RRs} {y : Bytes} (h : y ∈ recs o) : ∃ r, o = some r ∧ y ∈ r.data := by
  cases o with
  | none => simp [recs] at h
  | some r => exact ⟨r, rfl, h⟩

theorem GoodO.ex {o : Option RRs} (h : GoodO o) {r : RRs} (ho : o = some r) : ∃ y, y ∈ recs o := by
  obtain ⟨y, hy⟩ := List.exists_mem_of_ne_nil _ (h r ho).1
  exact ⟨y, by rw [ho]; exact hy⟩

theorem SameTtl.symm {t a b : Nat} (h : SameTtl t a b) : SameTtl t b a := by
  rcases h with h | h
  · exact .inl h
  · exact .inr h.symm
theorem SameTtl.trans {t a b c : Nat} (h : SameTtl t a b) (h' : SameTtl t b c) : SameTtl t a c := by
  rcases h with h | h
  · exact .inl h
  · rcases h' with h' | h'
    · exact .inl h'
    · exact .inr (h.trans h')
theorem SameTtl.refl (t a : Nat) : SameTtl t a a := .inr rfl

/-- The changeset (`r` removed, `a` added) leads from `b` to `c`. -/
structure Leads1 (ty : Nat) (b c r a : Option RRs) : Prop where
  sub : ∀ x ∈ recs r, x ∈ recs b
  dis : ∀ x ∈ recs a, x ∈ recs b → x ∈ recs r
  eq : ∀ x, x ∈ recs c ↔ (x ∈ recs b ∧ x ∉ recs r) ∨ x ∈ recs a
  tr : ∀ rr bb, r = some rr → b = some bb → SameTtl ty rr.ttl bb.ttl
  ta : ∀ aa cc, a = some aa → c = some cc → SameTtl ty aa.ttl cc.ttl
  tk : ∀ bb cc, b = some bb → c = some cc → (∃ x ∈ bb.data, x ∉ recs r) → SameTtl ty cc.ttl bb.ttl

/-- The opposite changeset leads back. -/
theorem Leads1.swap {ty : Nat} {b c r a : Option RRs} (h : Leads1 ty b c r a) : Leads1 ty c b a r where
  sub x hx := (h.eq x).mpr (.inr hx)
  dis x hr hc := by
    rcases (h.eq x).mp hc with e | e
    · exact absurd hr e.2
    · exact e
  eq x := by
    constructor
    · intro hb
      by_cases hr : x ∈ recs r
      · exact .inr hr
      · exact .inl ⟨(h.eq x).mpr (.inl ⟨hb, hr⟩), fun ha => hr (h.dis x ha hb)⟩
    · rintro (⟨hc, ha⟩ | hr)
      · rcases (h.eq x).mp hc with e | e
        · exact e.1
        · exact absurd e ha
      · exact h.sub x hr
  tr aa cc ha hc := h.ta aa cc ha hc
  ta rr bb hr hb := h.tr rr bb hr hb
  tk cc bb hc hb := by
    rintro ⟨x, hx, hxa⟩
    refine (h.tk bb cc hb hc ?_).symm
    have hx' : x ∈ recs c := by rw [hc]; exact hx
    rcases (h.eq x).mp hx' with e | e
    · refine ⟨x, ?_, e.2⟩
      have := e.1
      rw [hb] at this
      exact this
    · exact absurd e hxa

theorem mem_of_some {o : Option RRs} {r : RRs} (h : o = some r) {x : Bytes} :
    x ∈ r.data ↔ x ∈ recs o := by rw [h]; rfl

theorem Leads1.remove {ty : Nat} {b c r a : Option RRs} (h : Leads1 ty b c r a)
    (gr : GoodO r) {x d : RRs} (hd : c = some d)
    (hs : ∀ y ∈ x.data, y ∈ d.data) (ht : SameTtl ty x.ttl d.ttl) :
    Leads1 ty b (minus c x) (grow ty r (ck ty a x).2) (ck ty a x).1 := by
  -- all of the addition is cancelled
  have hck : (∀ y, y ∈ recs (ck ty a x).1 ↔ y ∈ recs a ∧ y ∉ x.data) ∧
      (∀ y, y ∈ (ck ty a x).2.data ↔ y ∈ x.data ∧ y ∉ recs a) ∧ (ck ty a x).2.ttl = x.ttl ∧
      (∀ m, (ck ty a x).1 = some m → ∃ aa, a = some aa ∧ m.ttl = aa.ttl) := by
    cases ha : a with
    | none => simp [ck, recs]
    | some aa =>
      have e := h.ta aa d ha hd
      have : x.ttl = aa.ttl ∨ ty = rrsig := by
        rcases e.trans ht.symm with e | e
        · exact .inr e
        · exact .inl e.symm
      simp only [ck, if_pos this]
      refine ⟨fun y => mem_recs_minus, fun y => mem_subtract, trivial, fun m hm => minus_ttl hm⟩
  obtain ⟨k1, k2, k3, k4⟩ := hck
  have hc : ∀ y, y ∈ x.data → y ∈ recs c := fun y hy => by rw [hd]; exact hs y hy
  refine ⟨?_, ?_, ?_, ?_, ?_, ?_⟩
  · intro y hy
    rcases mem_recs_grow.mp hy with e | e
    · exact h.sub y e
    · have e := (k2 y).mp e
      rcases (h.eq y).mp (hc y e.1) with e' | e'
      · exact e'.1
      · exact absurd e' e.2
  · intro y hy hb
    have hy := (k1 y).mp hy
    exact mem_recs_grow.mpr (.inl (h.dis y hy.1 hb))
  · intro y
    rw [mem_recs_minus, k1, mem_recs_grow, k2, h.eq y]
    have := h.dis y
    grind
  · intro rr bb hrr hbb
    rcases grow_ttl gr hrr with ⟨_, e⟩ | ⟨e1, e⟩
    · exact h.tr rr bb e hbb
    · rw [k3] at e
      refine e.trans (ht.trans (h.tk bb d hbb hd ?_))
      obtain ⟨y, hy⟩ := List.exists_mem_of_ne_nil _ e1
      have hy := (k2 y).mp hy
      rcases (h.eq y).mp (hc y hy.1) with e' | e'
      · exact ⟨y, (mem_of_some hbb).mpr e'.1, e'.2⟩
      · exact absurd e' hy.2
  · intro m mc hm hmc
    obtain ⟨aa, haa, e⟩ := k4 m hm
    obtain ⟨cc, hcc, e'⟩ := minus_ttl hmc
    rw [e, e']
    exact h.ta aa cc haa hcc
  · intro bb mc hbb hmc hex
    obtain ⟨cc, hcc, e'⟩ := minus_ttl hmc
    obtain ⟨y, hy, hn⟩ := hex
    rw [e']
    exact h.tk bb cc hbb hcc ⟨y, hy, fun hr => hn (mem_recs_grow.mpr (.inl hr))⟩

theorem Leads1.add {ty : Nat} {b c r a : Option RRs} (h : Leads1 ty b c r a)
    (gc : GoodO c) (ga : GoodO a) {x : RRs} (gx : Good x)
    (hs : ∀ d, c = some d → (∀ y ∈ x.data, y ∉ d.data) ∧ SameTtl ty x.ttl d.ttl) :
    Leads1 ty b (some (nodeAdd ty c x)) (ck ty r x).1 (grow ty a (ck ty r x).2) := by
  have hct := nodeAdd_ttl (ty := ty) gc x
  have hdis : ∀ y ∈ x.data, y ∉ recs c := by
    intro y hy hc
    obtain ⟨d, hd, hm⟩ := recs_ne hc
    exact (hs d hd).1 y hy hm
  have hck : ((∀ y, y ∈ recs (ck ty r x).1 ↔ y ∈ recs r ∧ y ∉ x.data) ∧
      (∀ y, y ∈ (ck ty r x).2.data ↔ y ∈ x.data ∧ y ∉ recs r) ∧
      (∀ m, r = some m → SameTtl ty x.ttl m.ttl)) ∨
      ((∀ y, y ∈ recs (ck ty r x).1 ↔ y ∈ recs r) ∧ (∀ y, y ∈ (ck ty r x).2.data ↔ y ∈ x.data)) := by
    cases hr : r with
    | none => left; simp [ck, recs]
    | some rr =>
      by_cases e : x.ttl = rr.ttl ∨ ty = rrsig
      · left
        simp only [ck, if_pos e]
        refine ⟨fun y => mem_recs_minus, fun y => mem_subtract, ?_⟩
        intro m hm
        simp only [Option.some.injEq] at hm
        subst hm
        exact e.symm
      · right
        simp [ck, if_neg e, recs]
  have kt : (ck ty r x).2.ttl = x.ttl := by
    unfold ck
    split
    · rfl
    · split <;> rfl
  have k4 : ∀ m, (ck ty r x).1 = some m → ∃ rr, r = some rr ∧ m.ttl = rr.ttl := by
    intro m hm
    cases hr : r with
    | none => simp [hr, ck] at hm
    | some rr =>
      simp only [hr, ck] at hm
      split at hm
      · exact minus_ttl hm
      · simp only [Option.some.injEq] at hm
        exact ⟨rr, rfl, by rw [hm]⟩
  have hta : ∀ aa cc, grow ty a (ck ty r x).2 = some aa → some (nodeAdd ty c x) = some cc →
      SameTtl ty aa.ttl cc.ttl := by
    intro aa cc haa hcc
    simp only [Option.some.injEq] at hcc
    subst hcc
    rcases grow_ttl ga haa with ⟨_, e⟩ | ⟨_, e⟩
    · obtain ⟨y, hy⟩ := ga.ex e
      obtain ⟨d, hd, _⟩ := recs_ne ((h.eq y).mpr (.inr hy))
      exact (h.ta aa d e hd).trans ((hs d hd).2.symm.trans hct.symm)
    · rw [kt] at e
      exact e.trans hct.symm
  have htk : ∀ bb, b = some bb → (∃ x ∈ bb.data, x ∉ recs r) →
      SameTtl ty (nodeAdd ty c x).ttl bb.ttl := by
    rintro bb hbb ⟨y, hy, hn⟩
    obtain ⟨d, hd, _⟩ := recs_ne ((h.eq y).mpr (.inl ⟨(mem_of_some hbb).mp hy, hn⟩))
    exact hct.trans ((hs d hd).2.trans (h.tk bb d hbb hd ⟨y, hy, hn⟩))
  have htr : ∀ rr bb, (ck ty r x).1 = some rr → b = some bb → SameTtl ty rr.ttl bb.ttl := by
    intro rr bb hrr hbb
    obtain ⟨r0, hr0, e⟩ := k4 rr hrr
    rw [e]
    exact h.tr r0 bb hr0 hbb
  rcases hck with ⟨k1, k2, k3⟩ | ⟨k1, k2⟩
  · refine ⟨?_, ?_, ?_, htr, hta, ?_⟩
    · intro y hy
      exact h.sub y ((k1 y).mp hy).1
    · intro y hy hb
      rw [k1]
      rcases mem_recs_grow.mp hy with e | e
      · refine ⟨h.dis y e hb, fun hx => hdis y hx ((h.eq y).mpr (.inr e))⟩
      · have e := (k2 y).mp e
        exact absurd ((h.eq y).mpr (.inl ⟨hb, e.2⟩)) (hdis y e.1)
    · intro y
      show y ∈ (nodeAdd ty c x).data ↔ _
      rw [mem_nodeAdd, k1, mem_recs_grow, k2, h.eq y]
      have := h.sub y
      grind
    · intro bb cc hbb hcc hex
      simp only [Option.some.injEq] at hcc
      subst hcc
      obtain ⟨y, hy, hn⟩ := hex
      rw [k1] at hn
      by_cases hr : y ∈ recs r
      · obtain ⟨m, hm, _⟩ := recs_ne hr
        exact hct.trans ((k3 m hm).trans (h.tr m bb hm hbb))
      · exact htk bb hbb ⟨y, hy, hr⟩
  · refine ⟨?_, ?_, ?_, htr, hta, ?_⟩
    · intro y hy
      exact h.sub y ((k1 y).mp hy)
    · intro y hy hb
      rw [k1]
      rcases mem_recs_grow.mp hy with e | e
      · exact h.dis y e hb
      · have e := (k2 y).mp e
        by_cases hr : y ∈ recs r
        · exact hr
        · exact absurd ((h.eq y).mpr (.inl ⟨hb, hr⟩)) (hdis y e)
    · intro y
      show y ∈ (nodeAdd ty c x).data ↔ _
      rw [mem_nodeAdd, k1, mem_recs_grow, k2, h.eq y]
      grind
    · intro bb cc hbb hcc hex
      simp only [Option.some.injEq] at hcc
      subst hcc
      obtain ⟨y, hy, hn⟩ := hex
      rw [k1] at hn
      exact htk bb hbb ⟨y, hy, hn⟩

/-- Where a changeset leads is determined. -/
theorem Leads1.det {ty : Nat} {b c c' r a : Option RRs} (h : Leads1 ty b c r a)
    (h' : Leads1 ty b c' r a) (gc : GoodO c) (gc' : GoodO c') : SameRRs ty c c' := by
  have hm : ∀ y, y ∈ recs c ↔ y ∈ recs c' := fun y => (h.eq y).trans (h'.eq y).symm
  cases hc : c with
  | none =>
    cases hc' : c' with
    | none => trivial
    | some d =>
      obtain ⟨y, hy⟩ := gc'.ex hc'
      have := (hm y).mpr hy
      rw [hc] at this
      simp [recs] at this
  | some d =>
    cases hc' : c' with
    | none =>
      obtain ⟨y, hy⟩ := gc.ex hc
      have := (hm y).mp hy
      rw [hc'] at this
      simp [recs] at this
    | some d' =>
      refine ⟨canon_ext (gc d hc).2 (gc' d' hc').2 (fun y => ?_), ?_⟩
      · rw [mem_of_some hc, mem_of_some hc']; exact hm y
      · obtain ⟨y, hy⟩ := gc.ex hc
        rcases (h.eq y).mp hy with e | e
        · obtain ⟨bb, hbb, hyb⟩ := recs_ne e.1
          exact (h.tk bb d hbb hc ⟨y, hyb, e.2⟩).trans (h'.tk bb d' hbb hc' ⟨y, hyb, e.2⟩).symm
        · obtain ⟨aa, haa, _⟩ := recs_ne e
          exact (h.ta aa d haa hc).symm.trans (h'.ta aa d' haa hc')

end Knot.Changeset
