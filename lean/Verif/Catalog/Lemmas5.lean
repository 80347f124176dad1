import Verif.Catalog.Lemmas4
/-!
# Finalization and commit
-/
namespace Knot.Catalog
open Dname

theorem lookup_map {α : Type} [BEq α] {β γ : Type} (l : List (α × β)) (f : β → γ) (k : α) :
    (l.map (fun p => (p.1, f p.2))).lookup k = (l.lookup k).map f := by
  induction l with
  | nil => rfl
  | cons p l ih =>
    obtain ⟨a, b⟩ := p
    simp only [List.map_cons, List.lookup_cons]
    split <;> simp_all

/-- The entry after the check. -/
def fin1 (conf : Name → Bool) (db : Db) (v : Val) : Val :=
  match checkMember v conf db with
  | .ok false => { v with type := if v.type = .add then .invalid else .rem }
  | _ => v

theorem checkAll_eq {conf : Name → Bool} {db : Db} (u : Upd)
    (h : ∀ p ∈ u, ∃ b, checkMember p.2 conf db = .ok b) :
    checkAll conf db u = .ok (u.map (fun p => (p.1, fin1 conf db p.2))) := by
  induction u with
  | nil => rfl
  | cons p u ih =>
    obtain ⟨k, v⟩ := p
    obtain ⟨b, hb⟩ := h (k, v) (by simp)
    simp only [checkAll]
    simp only at hb
    rw [hb, ih (fun q hq => h q (by simp [hq]))]
    simp only [Res.bind_ok, List.map_cons, fin1, hb]
    cases b <;> simp

theorem fin1_member (conf : Name → Bool) (db : Db) (v : Val) : (fin1 conf db v).member = v.member := by
  unfold fin1; split <;> rfl

theorem wf_map {u : Upd} (h : WF u) (f : Val → Val) (hf : ∀ v, (f v).member = v.member) :
    WF (u.map (fun p => (p.1, f p.2))) := by
  constructor
  · rw [List.map_map]; exact h.nodup
  · intro p hp
    obtain ⟨q, hq, rfl⟩ := List.mem_map.mp hp
    simp only [hf]
    exact h.keys q hq

theorem remConf_eq {conf : Name → Bool} (db : Db) (hd : db.Ok) {u : Upd} (hw : WF u)
    (hp : ∀ m r, (m, r) ∈ db → conf m = true → ∀ v, u.lookup (key m) = some v →
      v.type = .rem ∨ (v.type ≠ .add ∧ v.add = some (r.owner, r.catz))) :
    ∃ u', remConf conf u db = .ok u' ∧ WF u' ∧
      (∀ m r, (m, r) ∈ db → conf m = true → ∃ v, u'.lookup (key m) = some v ∧ v.type = .rem) ∧
      (∀ m, Nf m → (conf m = true → ∀ r, (m, r) ∉ db) → u'.lookup (key m) = u.lookup (key m)) := by
  induction db generalizing u with
  | nil => exact ⟨u, rfl, hw, by simp, fun _ _ _ => rfl⟩
  | cons p db ih =>
    obtain ⟨m, r⟩ := p
    have hn := hd.1
    simp only [List.map_cons, List.nodup_cons] at hn
    have hd' : Db.Ok db := ⟨hn.2, fun q hq => hd.2 q (by simp [hq])⟩
    have hm : Nf m := (hd.2 (m, r) (by simp)).1
    have hcz : r.catz <:+ r.owner := (hd.2 (m, r) (by simp)).2
    simp only [remConf]
    by_cases hc : conf m = true
    · rw [if_pos hc]
      have : ∃ v, upd1 m r.owner r.catz .rem [] none (u.lookup (key m)) = .ok (some v) ∧ v.type = .rem := by
        cases hl : u.lookup (key m) with
        | none => exact ⟨valNew m r.owner r.catz .rem, by simp [upd1], by simp [valNew]⟩
        | some v =>
          rcases hp m r (by simp) hc v hl with h1 | ⟨h1, h2⟩
          · exact ⟨v, by simp [upd1, h1], h1⟩
          · by_cases h3 : v.type = .rem
            · exact ⟨v, by simp [upd1, h3], h3⟩
            · refine ⟨{ v with type := .rem }, ?_, rfl⟩
              simp only [upd1, valEqual, h2]
              simp [h1, h3]
      obtain ⟨v, h1, h2⟩ := this
      obtain ⟨u1, h3, h4, h5, h6⟩ := updateAdd_eff hw hm hcz (.inl rfl) [] none h1
      rw [h3]
      simp only [Res.bind_ok]
      have hk : ∀ m' r', (m', r') ∈ db → key m' ≠ key m := by
        intro m' r' hmem hk
        have := key_inj (hd'.2 _ hmem).1 hm hk
        subst this
        exact hn.1 (List.mem_map.mpr ⟨_, hmem, rfl⟩)
      obtain ⟨u2, h7, h8, h9, h10⟩ := ih hd' h4 (by
        intro m' r' hmem hc' v' hv'
        rw [h6 _ (hk m' r' hmem)] at hv'
        exact hp m' r' (by simp [hmem]) hc' v' hv')
      refine ⟨u2, h7, h8, ?_, ?_⟩
      · intro m' r' hmem hc'
        rcases List.mem_cons.mp hmem with e | hmem
        · injection e with e1 e2
          subst e1 e2
          refine ⟨v, ?_, h2⟩
          rw [h10 m' hm (fun _ r2 h2 => hn.1 (List.mem_map.mpr ⟨_, h2, rfl⟩)), h5]
        · exact h9 m' r' hmem hc'
      · intro m' hm' hnot
        rw [h10 m' hm' (fun hc' r' hmem => hnot hc' r' (by simp [hmem]))]
        by_cases e : key m' = key m
        · have := key_inj hm' hm e
          subst this
          exact absurd (by simp) (hnot hc r)
        · exact h6 _ e
    · rw [if_neg hc]
      obtain ⟨u2, h7, h8, h9, h10⟩ := ih hd' hw
        (fun m' r' hmem hc' => hp m' r' (by simp [hmem]) hc')
      refine ⟨u2, h7, h8, ?_, ?_⟩
      · intro m' r' hmem hc'
        rcases List.mem_cons.mp hmem with e | hmem
        · injection e with e1 e2
          subst e1
          exact absurd hc' hc
        · exact h9 m' r' hmem hc'
      · intro m' hm' hnot
        exact h10 m' hm' (fun hc' r' hmem => hnot hc' r' (by simp [hmem]))

/-- The record after the entry has been committed. -/
def eff (old : Option Rec) (v : Val) : Option Rec :=
  match v.type with
  | .add | .minor | .uniq | .prop =>
    match v.add with
    | none => old
    | some (o, c) => some ⟨o, c, v.newGroup.getD []⟩
  | .rem => none
  | .invalid => old

/-- The entry can be committed. -/
def Good (v : Val) : Prop :=
  v.type = .rem ∨ v.type = .invalid ∨ ∃ o c, v.add = some (o, c) ∧ c <:+ o

theorem commitOne_eq (db : Db) (v : Val) (h : Good v) :
    ∃ db', commitOne db v = .ok db' ∧ db'.lookup v.member = eff (db.lookup v.member) v ∧
      (∀ m, m ≠ v.member → db'.lookup m = db.lookup m) := by
  have del : (dbDel db v.member).lookup v.member = none ∧
      ∀ m, m ≠ v.member → (dbDel db v.member).lookup m = db.lookup m := by
    unfold dbDel
    constructor
    · rw [lookup_filter]; simp
    · intro m hm; rw [lookup_filter, if_neg hm]
  have add : ∀ r, (dbAdd db v.member r).lookup v.member = some r ∧
      ∀ m, m ≠ v.member → (dbAdd db v.member r).lookup m = db.lookup m := by
    intro r
    unfold dbAdd
    constructor
    · rw [List.lookup_cons]; simp
    · intro m hm
      rw [List.lookup_cons]
      have : (m == v.member) = false := by simpa using hm
      rw [this]; exact del.2 m hm
  have addcase : ∀ o c, v.add = some (o, c) → c <:+ o →
      commitOne db v = .ok (dbAdd db v.member ⟨o, c, v.newGroup.getD []⟩) ∧
      eff (db.lookup v.member) v = some ⟨o, c, v.newGroup.getD []⟩ ∨ v.type = .rem ∨ v.type = .invalid := by
    intro o c h1 h2
    unfold commitOne eff
    cases hty : v.type <;> simp [h1, h2]
  rcases h with h | h | ⟨o, c, h1, h2⟩
  · refine ⟨dbDel db v.member, by simp [commitOne, h], by simp [eff, h, del.1], del.2⟩
  · refine ⟨db, by simp [commitOne, h], by simp [eff, h], fun _ _ => rfl⟩
  · rcases addcase o c h1 h2 with ⟨h3, h4⟩ | h | h
    · exact ⟨_, h3, by rw [h4, (add _).1], (add _).2⟩
    · refine ⟨dbDel db v.member, by simp [commitOne, h], by simp [eff, h, del.1], del.2⟩
    · refine ⟨db, by simp [commitOne, h], by simp [eff, h], fun _ _ => rfl⟩

theorem commit_eq (db : Db) (u : Upd) (hn : (u.map (fun p => p.2.member)).Nodup)
    (hg : ∀ p ∈ u, Good p.2) :
    ∃ db', commit db u = .ok db' ∧
      (∀ p ∈ u, db'.lookup p.2.member = eff (db.lookup p.2.member) p.2) ∧
      (∀ m, (∀ p ∈ u, p.2.member ≠ m) → db'.lookup m = db.lookup m) := by
  induction u generalizing db with
  | nil => exact ⟨db, rfl, by simp, fun _ _ => rfl⟩
  | cons p u ih =>
    obtain ⟨k, v⟩ := p
    obtain ⟨db1, h1, h2, h3⟩ := commitOne_eq db v (hg (k, v) (by simp))
    simp only [List.map_cons, List.nodup_cons] at hn
    obtain ⟨db2, h4, h5, h6⟩ := ih db1 hn.2 (fun q hq => hg q (by simp [hq]))
    have hne : ∀ q ∈ u, q.2.member ≠ v.member := by
      intro q hq e
      exact hn.1 (List.mem_map.mpr ⟨q, hq, e⟩)
    refine ⟨db2, by simp only [commit]; rw [h1]; exact h4, ?_, ?_⟩
    · intro q hq
      rcases List.mem_cons.mp hq with rfl | hq
      · rw [h6 _ hne, h2]
      · rw [h5 q hq, h3 _ (hne q hq)]
    · intro m hm
      rw [h6 m (fun q hq => hm q (by simp [hq])), h3 m (fun e => hm (k, v) (by simp) e.symm)]

theorem wf_members {u : Upd} (h : WF u) : (u.map (fun p => p.2.member)).Nodup := by
  have hn := h.nodup
  have hk := h.keys
  clear h
  induction u with
  | nil => simp
  | cons p u ih =>
    simp only [List.map_cons, List.nodup_cons] at hn ⊢
    refine ⟨?_, ih hn.2 (fun q hq => hk q (by simp [hq]))⟩
    intro hm
    obtain ⟨q, hq, e⟩ := List.mem_map.mp hm
    apply hn.1
    refine List.mem_map.mpr ⟨q, hq, ?_⟩
    rw [(hk q (by simp [hq])).1, (hk p (by simp)).1, e]

end Knot.Catalog
