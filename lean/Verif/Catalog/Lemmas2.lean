import Verif.Catalog.Lemmas
/-!
# The effect of one operation on the entry of its member
-/
namespace Knot.Catalog
open Dname

/-- The effect of catalog_update_add() on the entry of the member. -/
def upd1 (m o c : Name) (type : UType) (g : List UInt8) (check : Option Db) : Option Val → Res (Option Val)
  | some val =>
    if type = .rem then
      if val.type = .rem then .ok (some val)
      else if ¬ valEqual val c o then .ok (some val)
      else if val.type = .add then .ok none
      else .ok (some { val with type := .rem })
    else if type = .prop then .ok (some (setProp val (some (o, c)) g))
    else if val.type ≠ .rem then .ok (some val)
    else match val.rem with
      | none => .ub
      | some (ro, rc) => do
        let same ← sameUniq ro rc o c
        .ok (some { val with add := some (o, c), type := if same then .minor else .uniq })
  | none =>
    if (type = .rem ∨ type = .prop) ∧ check.any (fun db => !containsExact db m o c) then .ok none
    else if type = .add ∧ check.any (fun db => hasMember db m) then .ok none
    else
      let val := valNew m o c type
      .ok (some (if g.length > 0 then setProp val none g else val))

theorem setProp_member (v : Val) (ck : Option (Name × Name)) (g : List UInt8) :
    (setProp v ck g).member = v.member := by
  unfold setProp
  cases ck with
  | none => rfl
  | some p => simp only; split <;> rfl

theorem updateAdd_eff {u : Upd} (hw : WF u) {m o c : Name} (hm : Nf m) (hc : c <:+ o) {type : UType}
    (ht : type = .rem ∨ type = .prop ∨ type = .add) (g : List UInt8) (check : Option Db) {w : Option Val}
    (h : upd1 m o c type g check (u.lookup (key m)) = .ok w) :
    ∃ u', updateAdd u m o c type g check = .ok u' ∧ WF u' ∧ u'.lookup (key m) = w ∧
      ∀ k, k ≠ key m → u'.lookup k = u.lookup k := by
  unfold updateAdd
  rw [if_neg (by rcases ht with rfl | rfl | rfl <;> simp), if_neg (by simpa using hc)]
  cases hl : u.lookup (key m) with
  | none =>
    rw [hl] at h
    simp only [upd1] at h
    simp only [updateNew]
    split at h
    · rename_i h1
      rw [if_pos h1]
      injection h with h
      exact ⟨u, rfl, hw, by rw [hl, h], fun _ _ => rfl⟩
    · rename_i h1
      rw [if_neg h1]
      split at h
      · rename_i h2
        rw [if_pos h2]
        injection h with h
        exact ⟨u, rfl, hw, by rw [hl, h], fun _ _ => rfl⟩
      · rename_i h2
        rw [if_neg h2]
        injection h with h
        have hmem : (if g.length > 0 then setProp (valNew m o c type) none g
            else valNew m o c type).member = m := by
          have : (valNew m o c type).member = m := by unfold valNew; split <;> rfl
          split
          · rw [setProp_member, this]
          · exact this
        refine ⟨_, rfl, wf_cons hw hm hmem hl, ?_, ?_⟩
        · rw [List.lookup_cons]; simp [h]
        · intro k hk
          rw [List.lookup_cons]
          have : (k == key m) = false := by simpa using hk
          rw [this]
  | some val =>
    rw [hl] at h
    have hvm := wf_member hw hm hl
    simp only [upd1] at h
    simp only [updateFound]
    rw [if_neg (by simpa using hvm)]
    have put_ok : ∀ v : Val, v.member = m → w = some v →
        ∃ u', Res.ok (u.put (key m) v) = .ok u' ∧ WF u' ∧ u'.lookup (key m) = w ∧
          ∀ k, k ≠ key m → u'.lookup k = u.lookup k := by
      intro v hv e
      refine ⟨_, rfl, wf_put hw hm hv, by rw [lookup_put, hl, e]; simp, ?_⟩
      intro k hk
      rw [lookup_put, if_neg hk]
    have same_ok : w = some val → ∃ u', Res.ok u = .ok u' ∧ WF u' ∧ u'.lookup (key m) = w ∧
          ∀ k, k ≠ key m → u'.lookup k = u.lookup k :=
      fun e => ⟨u, rfl, hw, by rw [hl, e], fun _ _ => rfl⟩
    by_cases h1 : type = .rem
    · rw [if_pos h1] at h ⊢
      split at h
      · rename_i h2; rw [if_pos h2]; injection h with h; exact same_ok h.symm
      · rename_i h2; rw [if_neg h2]
        split at h
        · rename_i h3; rw [if_pos h3]; injection h with h; exact same_ok h.symm
        · rename_i h3; rw [if_neg h3]
          split at h
          · rename_i h4; rw [if_pos h4]; injection h with h
            refine ⟨_, rfl, wf_del hw _, ?_, ?_⟩
            · unfold Upd.del; rw [lookup_filter, if_pos rfl, h]
            · intro k hk; unfold Upd.del; rw [lookup_filter, if_neg hk]
          · rename_i h4; rw [if_neg h4]; injection h with h
            exact put_ok _ hvm h.symm
    · rw [if_neg h1] at h ⊢
      by_cases h2 : type = .prop
      · rw [if_pos h2] at h ⊢
        injection h with h
        exact put_ok _ (by rw [setProp_member, hvm]) h.symm
      · rw [if_neg h2] at h ⊢
        split at h
        · rename_i h3; rw [if_pos h3]; injection h with h; exact same_ok h.symm
        · rename_i h3; rw [if_neg h3]
          cases hr : val.rem with
          | none => rw [hr] at h; cases h
          | some p =>
            obtain ⟨ro, rc⟩ := p
            rw [hr] at h
            simp only at h ⊢
            cases hs : sameUniq ro rc o c with
            | ok s =>
              rw [hs] at h
              simp only [Res.bind_ok, Res.ok.injEq] at h
              simp only [Res.bind_ok]
              exact put_ok _ hvm h.symm
            | err => rw [hs] at h; cases h
            | ub => rw [hs] at h; cases h

/-- The entry of a member, the record in the database and the current state of the member. -/
inductive Rel (m : Name) (s0 : Option Rec) (added t1 t2 frozen : Prop) : Option Val → Option Rec → Prop
  | none : (s0 ≠ none → ¬ added) → Rel m s0 added t1 t2 frozen none s0
  | add {o c : Name} {gr : Option (List UInt8)} : s0 = none → added → c <:+ o →
      Rel m s0 added t1 t2 frozen (some ⟨m, .add, none, some (o, c), gr⟩) (some ⟨o, c, gr.getD []⟩)
  | rem {o c : Name} {g : List UInt8} {r a : Option (Name × Name)} {gr : Option (List UInt8)} :
      s0 = some ⟨o, c, g⟩ → ((r = some (o, c) ∧ gr = none ∧ ∃ u z, o = [u, z] ++ c) ∨ t2) →
      Rel m s0 added t1 t2 frozen (some ⟨m, .rem, r, a, gr⟩) none
  | prop {o c : Name} {g : List UInt8} {gr : Option (List UInt8)} : s0 = some ⟨o, c, g⟩ → ¬ added → t1 →
      c <:+ o →
      Rel m s0 added t1 t2 frozen (some ⟨m, .prop, none, some (o, c), gr⟩) (some ⟨o, c, gr.getD []⟩)
  | re {ty : UType} {ro rc o c : Name} {g : List UInt8} {gr : Option (List UInt8)} :
      (ty = .minor ∨ ty = .uniq) → s0 = some ⟨ro, rc, g⟩ → added → (gr = none ∨ t1) →
      (∃ u z, ro = [u, z] ++ rc) → c <:+ o →
      Rel m s0 added t1 t2 frozen (some ⟨m, ty, some (ro, rc), some (o, c), gr⟩) (some ⟨o, c, gr.getD []⟩)
  | conflict {o c : Name} {e : Rec} : s0 = some e → ¬ added → frozen →
      Rel m s0 added t1 t2 frozen (some ⟨m, .add, none, some (o, c), none⟩) (some e)

theorem Rel.mono {m : Name} {s0 : Option Rec} {added t1 t2 frozen added' t1' t2' frozen' : Prop}
    {v : Option Val} {cur : Option Rec} (h : Rel m s0 added t1 t2 frozen v cur)
    (ha : added ↔ added') (h1 : t1 → t1') (h2 : t2 → t2') (hf : frozen → frozen') :
    Rel m s0 added' t1' t2' frozen' v cur := by
  cases h with
  | none a => exact .none (by rwa [← ha])
  | add a b c => exact .add a (ha.mp b) c
  | rem a b => exact .rem a (b.imp_right h2)
  | prop a b c d => exact .prop a (by rwa [← ha]) (h1 c) d
  | re a b c d e f => exact .re a b (ha.mp c) (d.imp_right h1) e f
  | conflict a b c => exact .conflict a (by rwa [← ha]) (hf c)

end Knot.Catalog
