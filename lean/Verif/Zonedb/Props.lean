import Verif.Trie.Props
import Verif.Zonedb.Model
import Verif.Zonedb.Spec
import Verif.Dname.LemmasText
/-! # C29: the zone database finds the deepest enclosing zone -/
namespace Knot.Zonedb
open Knot.Dname (Bytes Name Valid lfBody)
variable {Z : Type}

/-- No label contains a zero byte. -/
def NulFree (n : Name) : Prop := ∀ l ∈ n, (0 : UInt8) ∉ l

theorem append_zero_inj {a b x y : List UInt8} (ha : (0 : UInt8) ∉ a) (hb : (0 : UInt8) ∉ b) (h : a ++ 0 :: x = b ++ 0 :: y) : a = b ∧ x = y := by
  induction a generalizing b with
  | nil =>
    cases b with
    | nil => simp at h; exact ⟨rfl, h⟩
    | cons c b => simp at h; exact absurd h.1 (by intro e; apply hb; simp [e])
  | cons c a ih =>
    cases b with
    | nil => simp at h; exact absurd h.1 (by intro e; apply ha; simp [e])
    | cons d b =>
      simp at h
      obtain ⟨h1, h2⟩ := ih (b := b) (by intro e; apply ha; simp [e]) (by intro e; apply hb; simp [e]) h.2
      exact ⟨by rw [h.1, h1], h2⟩

theorem flat_inj (a b : List (List UInt8)) (ha : ∀ l ∈ a, (0 : UInt8) ∉ l) (hb : ∀ l ∈ b, (0 : UInt8) ∉ l)
    (h : a.flatMap (· ++ [0]) = b.flatMap (· ++ [0])) : a = b := by
  induction a generalizing b with
  | nil => cases b with
    | nil => rfl
    | cons l b => simp at h
  | cons l a ih =>
    cases b with
    | nil => simp at h
    | cons m b =>
      simp only [List.flatMap_cons, List.append_assoc, List.cons_append, List.nil_append] at h
      obtain ⟨h1, h2⟩ := append_zero_inj (ha l (by simp)) (hb m (by simp)) h
      rw [h1, ih b (fun l hl => ha l (by simp [hl])) (fun l hl => hb l (by simp [hl])) h2]

theorem lfBody_inj {a b : Name} (ha : NulFree a) (hb : NulFree b) (h : lfBody a = lfBody b) : a = b := by
  have := flat_inj a.reverse b.reverse (by simpa [NulFree] using ha) (by simpa [NulFree] using hb) h
  simpa using congrArg List.reverse this

theorem keyOf_wire (n : Name) (r : Bytes) (h : Valid n) : keyOf (Dname.wire n ++ r) = .ok (lfBody n) := by
  unfold keyOf
  rw [Dname.lf_wire r h]
  have h1 := Dname.lfBody_length n
  have h2 := h.2
  simp only [Res.bind_ok]
  have h3 : (UInt8.ofNat (lfBody n).length).toNat = (lfBody n).length := by rw [UInt8.toNat_ofNat']; omega
  rw [h3, if_neg (by omega), List.take_length]

/-! ## Maps as sets of entries -/

theorem lookup_iff {m : List (OrdMap.Key × Z)} (h : m.Pairwise (fun a b => Trie.KLt a.1 b.1)) (k : OrdMap.Key) (z : Z) :
    OrdMap.lookup m k = some z ↔ (k, z) ∈ m := by
  constructor
  · intro h'
    unfold OrdMap.lookup at h'
    cases hf : m.find? (fun e => e.1 == k) with
    | none => rw [hf] at h'; cases h'
    | some e =>
      rw [hf] at h'
      simp only [Option.map_some] at h'
      injection h' with h'
      have h1 := List.find?_some hf
      have h2 := List.mem_of_find?_eq_some hf
      obtain ⟨a, b⟩ := e
      simp at h1 h'
      subst h1 h'
      exact h2
  · intro hm
    obtain ⟨l, r, rfl⟩ := List.append_of_mem hm
    have sd := Trie.sorted_sides h
    exact Trie.lookup_present k z l r (fun e he hk => by have := sd.1 e he; rw [hk] at this; exact Trie.KLt_irrefl _ this)

theorem mem_insertWith {m : List (OrdMap.Key × Z)} (h : m.Pairwise (fun a b => Trie.KLt a.1 b.1)) (k : OrdMap.Key) (z : Z) :
    (OrdMap.insertWith k (fun _ => z) m).Perm ((k, z) :: OrdMap.erase k m) := by
  induction m with
  | nil => exact List.Perm.refl _
  | cons e m ih =>
    rw [List.pairwise_cons] at h
    unfold OrdMap.insertWith
    by_cases he : e.1 = k
    · rw [if_pos he]
      have : OrdMap.erase k (e :: m) = m := by
        unfold OrdMap.erase
        rw [List.filter_cons]
        simp only [he, bne_self_eq_false, Bool.false_eq_true, if_false]
        rw [List.filter_eq_self.mpr]
        intro x hx
        have := h.1 x hx
        rw [he] at this
        simp only [bne_iff_ne, ne_eq]
        intro hk
        rw [hk] at this
        exact Trie.KLt_irrefl _ this
      rw [this]
    · rw [if_neg he]
      have hne : (e.1 != k) = true := by simpa using he
      by_cases hk : OrdMap.keyLt k e.1
      · rw [if_pos hk]
        have hk' := (Trie.KLt_iff _ _).mpr hk
        have : OrdMap.erase k (e :: m) = e :: m := by
          refine Trie.erase_absent k _ ?_
          intro x hx
          rcases List.mem_cons.mp hx with rfl | hx
          · exact he
          · intro hxk
            have := h.1 x hx
            rw [hxk] at this
            exact Trie.KLt_asymm hk' this
        rw [this]
      · rw [if_neg hk]
        have : OrdMap.erase k (e :: m) = e :: OrdMap.erase k m := by
          unfold OrdMap.erase; rw [List.filter_cons, if_pos hne]
        rw [this]
        exact ((ih h.2).cons e).trans (List.Perm.swap _ _ _)

/-- The trie stands for the database. -/
structure Rep (t : Trie.Trie Z) (db : List (Name × Z)) : Prop where
  inv : Trie.Inv t
  perm : (Trie.entries t).Perm (db.map (fun e => (lfBody e.1, e.2)))
  nul : ∀ e ∈ db, NulFree e.1
  nodup : db.Pairwise (fun a b => a.1 ≠ b.1)

theorem Rep.find {t : Trie.Trie Z} {db : List (Name × Z)} (h : Rep t db) (n : Name) (hn : NulFree n) :
    OrdMap.lookup (Trie.entries t) (lfBody n) = Zones.find db n := by
  have hs := Trie.entries_sorted h.inv
  cases hf : Zones.find db n with
  | none =>
    refine Trie.lookup_absent _ _ ?_
    intro e he hk
    have := h.perm.mem_iff.mp he
    rw [List.mem_map] at this
    obtain ⟨⟨n', z⟩, h1, h2⟩ := this
    have hnn : n' = n := lfBody_inj (h.nul _ h1) hn (by rw [← hk, ← h2])
    unfold Zones.find at hf
    rw [Option.map_eq_none_iff, List.find?_eq_none] at hf
    exact hf _ h1 (by simp [hnn])
  | some z =>
    rw [lookup_iff hs, h.perm.mem_iff, List.mem_map]
    unfold Zones.find at hf
    cases hf' : db.find? (fun e => e.1 == n) with
    | none => rw [hf'] at hf; cases hf
    | some e =>
      rw [hf'] at hf
      simp only [Option.map_some] at hf
      injection hf with hf
      have h1 := List.find?_some hf'
      simp at h1
      exact ⟨e, List.mem_of_find?_eq_some hf', by rw [h1, hf]⟩

theorem Rep.del {t t' : Trie.Trie Z} {db : List (Name × Z)} (h : Rep t db) (n : Name) (hn : NulFree n) (hi : Trie.Inv t')
    (he : Trie.entries t' = OrdMap.erase (lfBody n) (Trie.entries t)) : Rep t' (Zones.del db n) := by
  have hmap : (db.map (fun e => (lfBody e.1, e.2))).filter (fun e => e.1 != lfBody n) = (Zones.del db n).map (fun e => (lfBody e.1, e.2)) := by
    unfold Zones.del
    rw [List.filter_map]
    congr 1
    apply List.filter_congr
    intro e hed
    simp only [Function.comp]
    rw [Bool.eq_iff_iff]
    simp only [bne_iff_ne, ne_eq]
    constructor
    · intro h1 h2; exact h1 (by rw [h2])
    · intro h1 h2; exact h1 (lfBody_inj (h.nul e hed) hn h2)
  refine ⟨hi, ?_, fun e hed => h.nul e (List.mem_filter.mp hed).1, h.nodup.filter _⟩
  rw [he, ← hmap]
  exact h.perm.filter _

theorem Rep.put {t t' : Trie.Trie Z} {db : List (Name × Z)} (h : Rep t db) (n : Name) (hn : NulFree n) (z : Z) (hi : Trie.Inv t')
    (he : Trie.entries t' = OrdMap.insertWith (lfBody n) (fun _ => z) (Trie.entries t)) : Rep t' (Zones.put db n z) := by
  obtain ⟨t'', -, i1, i2⟩ := Trie.del_spec t h.inv (lfBody n)
  have hd := h.del n hn i1 i2
  refine ⟨hi, ?_, ?_, ?_⟩
  · rw [he]
    refine (mem_insertWith (Trie.entries_sorted h.inv) _ _).trans ?_
    rw [← i2]
    exact hd.perm.cons _
  · intro e hed
    rcases List.mem_cons.mp hed with rfl | hed
    · exact hn
    · exact hd.nul e hed
  · refine List.Pairwise.cons ?_ hd.nodup
    intro e hed
    have := (List.mem_filter.mp hed).2
    simp only [bne_iff_ne, ne_eq] at this
    exact fun h => this h.symm

theorem find_spec {t : Trie.Trie Z} {db : List (Name × Z)} (h : Rep t db) (n : Name) (r : Bytes) (hv : Valid n) (hn : NulFree n) :
    find t (Dname.wire n ++ r) = .ok (Zones.find db n) := by
  unfold find
  rw [keyOf_wire n r hv]
  simp only [Res.bind_ok]
  rw [Trie.getTry_spec h.inv, h.find n hn]

theorem findSuffix_spec {t : Trie.Trie Z} {db : List (Name × Z)} (h : Rep t db) (n : Name) (r : Bytes) (hv : Valid n) (hn : NulFree n) :
    findSuffix t (Dname.wire n ++ r) = .ok (Zones.deepest db n) := by
  induction n with
  | nil =>
    unfold findSuffix
    rw [find_spec h [] r hv hn]
    unfold Zones.deepest
    simp only [Zones.ancestors, List.findSome?_cons, List.findSome?_nil]
    cases Zones.find db [] with
    | some z => rfl
    | none => simp [Dname.wire]
  | cons l n ih =>
    have hl := hv.1 l (by simp)
    have hv' : Valid n := ⟨fun x hx => hv.1 x (by simp [hx]), by have := hv.2; simp only [Dname.nameLen] at this; omega⟩
    have hn' : NulFree n := fun x hx => hn x (by simp [hx])
    have hnext : Dname.nextLabel (Dname.wire (l :: n) ++ r) = .ok (Dname.wire n ++ r) := by
      simp only [Dname.wire, List.cons_append, Dname.nextLabel]
      have h3 : (UInt8.ofNat l.length).toNat = l.length := by rw [UInt8.toNat_ofNat']; omega
      rw [h3, if_neg (by omega)]
      have hip : ¬ Dname.isPtr (UInt8.ofNat l.length) = true := by
        have : ∀ k, k ≤ 63 → ¬ Dname.isPtr (UInt8.ofNat k) = true := by decide
        exact this _ hl.2
      rw [if_neg hip, if_neg (by simp)]
      simp
    unfold findSuffix
    rw [find_spec h (l :: n) r hv hn]
    unfold Zones.deepest
    simp only [Zones.ancestors, List.findSome?_cons]
    cases hz : Zones.find db (l :: n) with
    | some z => rfl
    | none =>
      have hw : Dname.wire (l :: n) ++ r = UInt8.ofNat l.length :: (l ++ Dname.wire n ++ r) := by simp [Dname.wire]
      have h3 : (UInt8.ofNat l.length).toNat = l.length := by rw [UInt8.toNat_ofNat']; omega
      have := ih hv' hn'
      unfold Zones.deepest at this
      rw [hw] at hnext ⊢
      simp only
      rw [h3, if_neg (by omega)]
      split
      · rename_i x hx
        rw [hnext] at hx
        injection hx with hx
        subst hx
        exact this
      · rename_i hx; exact absurd hnext (hx _)

/-- One call with names in wire format, each followed by any bytes. -/
def exec (t : Trie.Trie Z) (tail : Bytes) : Zones.Op Z → Res (Trie.Trie Z × Zones.Out Z)
  | .put n z => do
    let t' ← insert t (Dname.wire n ++ tail) z
    .ok (t', .done)
  | .del n => do
    let r ← del t (Dname.wire n ++ tail)
    .ok (r.1, .flag r.2)
  | .find n => do
    let z ← find t (Dname.wire n ++ tail)
    .ok (t, .zone z)
  | .suffix n => do
    let z ← findSuffix t (Dname.wire n ++ tail)
    .ok (t, .zone z)
  | .size => .ok (t, .number (size t))

/-- A history of calls. -/
def execs (t : Trie.Trie Z) (tail : Bytes) : List (Zones.Op Z) → Res (Trie.Trie Z × List (Zones.Out Z))
  | [] => .ok (t, [])
  | o :: os => do
    let r ← exec t tail o
    let r' ← execs r.1 tail os
    .ok (r'.1, r.2 :: r'.2)

theorem exec_spec {t : Trie.Trie Z} {db : List (Name × Z)} (h : Rep t db) (tail : Bytes) (o : Zones.Op Z) (hv : Valid o.name) (hn : NulFree o.name) :
    ∃ t', exec t tail o = .ok (t', (Zones.step db o).2) ∧ Rep t' (Zones.step db o).1 := by
  cases o with
  | put n z =>
    have hlen := Dname.lfBody_length n
    have hv2 := hv.2
    obtain ⟨t', t1, t2, t3⟩ := Trie.insWith_spec t h.inv (lfBody n) (by simp only [Zones.Op.name] at hv2; omega) (fun _ => z)
    refine ⟨t', ?_, h.put n hn z t2 t3⟩
    simp only [exec, insert, keyOf_wire n tail hv, Res.bind_ok, t1, Zones.step]
  | del n =>
    obtain ⟨t', t1, t2, t3⟩ := Trie.del_spec t h.inv (lfBody n)
    simp only [exec, del, keyOf_wire n tail hv, Res.bind_ok, Zones.step, Trie.getTry_spec h.inv, h.find n hn]
    cases hz : Zones.find db n with
    | some z =>
      simp only [delKey, t1, Res.bind_ok]
      exact ⟨t', rfl, h.del n hn t2 t3⟩
    | none =>
      have hd : Zones.del db n = db := by
        unfold Zones.del
        rw [List.filter_eq_self.mpr]
        intro e he
        unfold Zones.find at hz
        rw [Option.map_eq_none_iff, List.find?_eq_none] at hz
        simpa using hz e he
      rw [hd]
      exact ⟨t, rfl, h⟩
  | find n =>
    simp only [exec, find_spec h n tail hv hn, Res.bind_ok, Zones.step]
    exact ⟨t, rfl, h⟩
  | suffix n =>
    simp only [exec, findSuffix_spec h n tail hv hn, Res.bind_ok, Zones.step]
    exact ⟨t, rfl, h⟩
  | size =>
    refine ⟨t, ?_, h⟩
    simp only [exec, Zones.step, size]
    have hl := h.perm.length_eq
    rw [List.length_map] at hl
    rw [← hl]
    rcases h.inv.cases with ⟨h0, he⟩ | ⟨h0, hw, he, hlen⟩
    · rw [he, h0]; rfl
    · rw [he, hlen]

end Zonedb

open Knot.Dname (Bytes Name Valid)
variable {Z : Type}

/-- C29: after any history of adding and removing zones, the lookup by suffix returns the zone of
the nearest ancestor-or-self of the queried name that has one and nothing if there is none; the exact
lookup, the removal and the size behave as on a set of named zones. Names are valid and have no zero byte in a label. -/
theorem C29_zonedb (ops : List (Zones.Op Z)) (tail : Bytes) (hv : ∀ o ∈ ops, Valid o.name) (hn : ∀ o ∈ ops, Zonedb.NulFree o.name) :
    ∃ t, Zonedb.execs Zonedb.new tail ops = .ok (t, (Zones.run [] ops).2) := by
  have key : ∀ (ops : List (Zones.Op Z)) (t : Trie.Trie Z) db, Zonedb.Rep t db → (∀ o ∈ ops, Valid o.name) → (∀ o ∈ ops, Zonedb.NulFree o.name) →
      ∃ t', Zonedb.execs t tail ops = .ok (t', (Zones.run db ops).2) := by
    intro ops
    induction ops with
    | nil => intro t db _ _ _; exact ⟨t, rfl⟩
    | cons o os ih =>
      intro t db h hv hn
      obtain ⟨t1, e1, e2⟩ := Zonedb.exec_spec h tail o (hv o (by simp)) (hn o (by simp))
      obtain ⟨t2, e3⟩ := ih t1 _ e2 (fun o h => hv o (by simp [h])) (fun o h => hn o (by simp [h]))
      refine ⟨t2, ?_⟩
      simp only [Zonedb.execs, e1, Res.bind_ok, e3, Zones.run]
  exact key ops Zonedb.new [] ⟨.inl rfl, List.Perm.refl _, by simp, List.Pairwise.nil⟩ hv hn

/-- C29: what "nearest" means: the zone found is stored under an ancestor-or-self of the name, and no
zone is stored under a longer one. -/
theorem C29_deepest (db : List (Name × Z)) (n : Name) (z : Z) :
    Zones.deepest db n = some z ↔ ∃ pre suf, n = pre ++ suf ∧ Zones.find db suf = some z ∧
      ∀ pre' suf', n = pre' ++ suf' → suf.length < suf'.length → Zones.find db suf' = none := by
  unfold Zones.deepest
  induction n with
  | nil =>
    simp only [Zones.ancestors, List.findSome?_cons, List.findSome?_nil]
    constructor
    · intro h
      refine ⟨[], [], rfl, ?_, ?_⟩
      · revert h; cases Zones.find db [] <;> simp
      · intro pre' suf' he hl
        have : suf' = [] := by
          have := he.symm; simp at this; exact this.2
        subst this; simp at hl
    · rintro ⟨pre, suf, he, hf, -⟩
      have : suf = [] := by
        have := he.symm; simp at this; exact this.2
      subst this
      rw [hf]
  | cons l n ih =>
    simp only [Zones.ancestors, List.findSome?_cons]
    cases hz : Zones.find db (l :: n) with
    | some z' =>
      constructor
      · intro h
        injection h with h
        subst h
        refine ⟨[], l :: n, rfl, hz, ?_⟩
        intro pre' suf' he hl
        have := congrArg List.length he
        simp at this hl
        omega
      · rintro ⟨pre, suf, he, hf, hno⟩
        cases pre with
        | nil => simp only [List.nil_append] at he; subst he; rw [← hz, hf]
        | cons x pre =>
          have := hno [] (l :: n) rfl (by have := congrArg List.length he; simp at this ⊢; omega)
          rw [hz] at this
          cases this
    | none =>
      simp only
      rw [ih]
      constructor
      · rintro ⟨pre, suf, he, hf, hno⟩
        refine ⟨l :: pre, suf, by rw [he]; rfl, hf, ?_⟩
        intro pre' suf' he' hl
        cases pre' with
        | nil => simp only [List.nil_append] at he'; rw [← he', hz]
        | cons x pre' => simp at he'; exact hno pre' suf' he'.2 hl
      · rintro ⟨pre, suf, he, hf, hno⟩
        cases pre with
        | nil => simp only [List.nil_append] at he; rw [← he, hz] at hf; cases hf
        | cons x pre =>
          simp at he
          exact ⟨pre, suf, he.2, hf, fun pre' suf' he' hl => hno (l :: pre') suf' (by rw [he']; rfl) hl⟩

/-- Zones "a.", "b.a." and "c.": the name "x.b.a." is found in "b.a.", after its removal in "a.". -/
example : (Zones.run ([] : List (Name × Nat)) [.put [[97]] 1, .put [[98], [97]] 2, .put [[99]] 3, .suffix [[120], [98], [97]], .del [[98], [97]],
    .suffix [[120], [98], [97]], .suffix [[120]]]).2.map (fun | .zone z => z | _ => none) = [none, none, none, some 2, none, some 1, none] := by
  decide +kernel

/-- C29 (finding): without the restriction on zero bytes the claim fails: the lookup format does not
separate the label `a\000b` from the two labels of `b.a`, so with only the zone "b.a." configured,
the unrelated name `a\000b.` is answered from it. -/
theorem C29_nul_collision : Valid [[98], [97]] ∧ Valid [[97, 0, 98]] ∧
    ∃ t, Zonedb.insert Zonedb.new (Dname.wire [[98], [97]]) (7 : Nat) = .ok t ∧
      Zonedb.findSuffix t (Dname.wire [[97, 0, 98]]) = .ok (some 7) ∧
      Zones.deepest [([[98], [97]], (7 : Nat))] [[97, 0, 98]] = none := by
  refine ⟨⟨by decide, by decide⟩, ⟨by decide, by decide⟩, ⟨.leaf [97, 0, 98, 0] 7, 1⟩, by with_unfolding_all rfl, by with_unfolding_all rfl, by decide +kernel⟩

end Knot
