import Verif.Triecow.Lemmas10
import Verif.Triecow.Spec
/-!
# C44: a transaction on the trie does not disturb the readers of the old one

The specification is `Verif/Triecow/Spec.lean`: two ordered maps.
-/
namespace Knot
open OrdMap (Key Cmd Db)
variable {V : Type}

namespace Cow

/-- The trie and its memory: without a transaction, or with one. -/
inductive World (V : Type) where
  | idle (m : Mem V) (tbl : Trie V)
  | opened (s : St V)

/-- A command; one out of place does nothing (the caller has no `trie_cow_t`, or has one already). -/
def World.step : World V → Cmd V → Res (World V × Option V)
  | .idle m tbl, .begin => do
    let s ← cow m tbl
    .ok (.opened s, none)
  | .opened s, .put k w => do
    let s' ← getCow s k w
    .ok (.opened s', none)
  | .opened s, .del k => do
    let r ← delCow s k
    .ok (.opened r.1, r.2)
  | .opened s, .commit => do
    let r ← commit s
    .ok (.idle r.1 r.2, none)
  | .opened s, .rollback => do
    let r ← rollback s
    .ok (.idle r.1 r.2, none)
  | w, _ => .ok (w, none)

/-- A history and its answers. -/
def World.run (w : World V) : List (Cmd V) → Res (World V × List (Option V))
  | [] => .ok (w, [])
  | c :: cs => do
    let r ← w.step c
    let r' ← r.1.run cs
    .ok (r'.1, r.2 :: r'.2)

/-- A new trie in empty memory. -/
def World.init : World V := .idle ⟨fun _ => none, 0, []⟩ create

/-- The worlds that histories lead to. -/
def World.Reached (w : World V) : Prop :=
  ∃ (cs : List (Cmd V)) (os : List (Option V)), (∀ c ∈ cs, c.small) ∧ World.init.run cs = .ok (w, os)

/-- What a reader of a trie sees: all the entries, each key's value, the number of entries. -/
def Shows (m : Mem V) (tbl : Trie V) (e : List (Key × V)) : Prop :=
  contents m tbl = .ok e ∧ (∀ k, getTry m tbl k = .ok (OrdMap.lookup e k)) ∧ tbl.weight = e.length

/-- The readers see the maps. -/
def World.Is : World V → Db V → Prop
  | .idle m tbl, .idle e => Shows m tbl e
  | .opened s, .opened o n => Shows s.mem s.old o ∧ Shows s.mem s.new n
  | _, _ => False

/-- The addresses of objects reached from a node. -/
inductive Reach (m : Mem V) : Node V → Nat → Prop
  | key (k : Nat) (v : V) : Reach m (.leaf k v) k
  | twigs (i bmp a : Nat) : Reach m (.branch i bmp a) a
  | under {i bmp a : Nat} {l : List (Node V)} {n : Node V} {x : Nat} : m.twigs a = .ok l → n ∈ l → Reach m n x →
      Reach m (.branch i bmp a) x

/-- The objects of a trie; the root of an empty trie is not looked at. -/
def InTrie (m : Mem V) (tbl : Trie V) (x : Nat) : Prop := tbl.weight ≠ 0 ∧ Reach m tbl.root x

theorem Rep.reach {m : Mem V} {t : AT V} (h : Rep m t) (y : Nat) : Reach m t.node y ↔ y ∈ addrs t := by
  induction t using AT.ind with
  | h t ih =>
    have hr := (rep_iff _ _).1 h
    cases t with
    | leaf k lkey v =>
      simp only [AT.node, addrs, List.mem_singleton]
      constructor
      · intro h; cases h; rfl
      · rintro rfl; exact .key _ _
    | branch a i bmp tw =>
      have hb := hr.1
      simp only [AT.top, AT.body] at hb
      rw [addrs_kids]
      simp only [AT.node, AT.top, AT.kids, List.mem_cons, List.mem_flatMap]
      constructor
      · intro h
        cases h with
        | twigs => exact .inl rfl
        | under h1 h2 h3 =>
          rw [twigs_of hb] at h1
          injection h1 with h1
          subst h1
          obtain ⟨c, hc, rfl⟩ := List.mem_map.1 h2
          exact .inr ⟨c, hc, (ih c hc (hr.2 c hc)).1 h3⟩
      · rintro (rfl | ⟨c, hc, hy⟩)
        · exact .twigs _ _ _
        · exact .under (twigs_of hb) (List.mem_map_of_mem hc) ((ih c hc (hr.2 c hc)).2 hy)

theorem Holds.reach {m : Mem V} {tb : Trie V} {T : Option (AT V)} (h : Holds m tb T) (y : Nat) :
    InTrie m tb y ↔ y ∈ addrsO T := by
  unfold InTrie
  cases T with
  | none =>
    have h0 : tb.weight = 0 := h
    simp [h0, addrsO]
  | some T =>
    have := h.inv.2.1
    rw [h.1, h.2.2.2.reach]
    simp [this, addrsO]

theorem Holds.shows {m : Mem V} {tb : Trie V} {T : Option (AT V)} (h : Holds m tb T)
    (hf : (addrsO T).length ≤ m.next) : Shows m tb (entriesO T) := ⟨h.contents hf, h.getTry hf, h.weight⟩

theorem Inv.fuels {s : St V} {To Tn : Option (AT V)} (h : Inv s To Tn) :
    (addrsO To).length ≤ s.mem.next ∧ (addrsO Tn).length ≤ s.mem.next :=
  ⟨nodup_le h.nodupOld fun y hy => h.fresh y ((h.dom y).2 (Inv.ownedOld hy)),
    nodup_le h.nodupNew fun y hy => h.fresh y ((h.dom y).2 (h.ownedNew hy))⟩

/-- The representation behind a world. -/
def World.Good : World V → Db V → Prop
  | .idle m tbl, .idle e => ∃ T, Idle m tbl T ∧ e = entriesO T
  | .opened s, .opened o n => ∃ To Tn, Inv s To Tn ∧ o = entriesO To ∧ n = entriesO Tn
  | _, _ => False

theorem World.Good.is {w : World V} {d : Db V} (h : w.Good d) : w.Is d := by
  cases w <;> cases d
  · obtain ⟨T, h1, rfl⟩ := h
    exact h1.holds.shows h1.fuel
  · exact h
  · exact h
  · obtain ⟨To, Tn, h1, rfl, rfl⟩ := h
    exact ⟨h1.old.shows h1.fuels.1, h1.new.shows h1.fuels.2⟩

theorem World.Good.step {w : World V} {d : Db V} (h : w.Good d) (c : Cmd V) (hc : c.small) :
    ∃ w', w.step c = .ok (w', (d.step c).2) ∧ w'.Good (d.step c).1 := by
  cases w <;> cases d
  · rename_i m tbl e
    cases c
    case begin =>
      obtain ⟨T, h1, rfl⟩ := h
      obtain ⟨s, e1, _, _, i1⟩ := cow_ok h1
      refine ⟨.opened s, ?_, T, T, i1, rfl, rfl⟩
      simp only [World.step]
      rw [e1]
      rfl
    all_goals exact ⟨_, rfl, h⟩
  · exact h.elim
  · exact h.elim
  · rename_i s o n
    cases c
    case begin => exact ⟨_, rfl, h⟩
    all_goals obtain ⟨To, Tn, h1, rfl, rfl⟩ := h
    case put k w =>
      obtain ⟨s', Tn', e1, _, i1, e2⟩ := getCow_ok h1 k hc w
      refine ⟨.opened s', ?_, To, Tn', i1, rfl, e2.symm⟩
      simp only [World.step]
      rw [e1]
      rfl
    case del k =>
      obtain ⟨s', Tn', e1, _, i1, e2⟩ := delCow_ok h1 k
      refine ⟨.opened s', ?_, To, Tn', i1, rfl, e2.symm⟩
      simp only [World.step]
      rw [e1]
      rfl
    case commit =>
      obtain ⟨m, e1, i1, _⟩ := commit_ok h1
      refine ⟨.idle m s.new, ?_, Tn, i1, rfl⟩
      simp only [World.step]
      rw [e1]
      rfl
    case rollback =>
      obtain ⟨m, e1, i1, _⟩ := rollback_ok h1
      refine ⟨.idle m s.old, ?_, To, i1, rfl⟩
      simp only [World.step]
      rw [e1]
      rfl

theorem World.Good.run {w : World V} {d : Db V} (h : w.Good d) (cs : List (Cmd V)) (hc : ∀ c ∈ cs, c.small) :
    ∃ w', w.run cs = .ok (w', (d.run cs).2) ∧ w'.Good (d.run cs).1 := by
  induction cs generalizing w d with
  | nil => exact ⟨w, rfl, h⟩
  | cons c cs ih =>
    obtain ⟨w1, e1, g1⟩ := h.step c (hc c (by simp))
    obtain ⟨w2, e2, g2⟩ := ih g1 fun c' hc' => hc c' (by simp [hc'])
    refine ⟨w2, ?_, g2⟩
    simp only [World.run]
    rw [e1]
    simp only [Res.bind_ok]
    rw [e2]
    rfl

theorem World.Good.init : (World.init : World V).Good (.idle []) :=
  ⟨none, ⟨rfl, by simp [addrsO], fun _ => rfl, by simp [addrsO], fun y h => absurd rfl h⟩, rfl⟩

theorem World.Reached.good {w : World V} (h : w.Reached) : ∃ d, w.Good d := by
  obtain ⟨cs, os, hc, hr⟩ := h
  obtain ⟨w', e1, g1⟩ := World.Good.init.run cs hc
  rw [e1] at hr
  injection hr with hr
  simp only [Prod.mk.injEq] at hr
  exact ⟨_, hr.1 ▸ g1⟩

theorem Rep.same {m m' : Mem V} {t : AT V} (h : Rep m t) (h' : Rep m' t) : ∀ y ∈ addrs t, m'.body y = m.body y := by
  induction t using AT.ind with
  | h t ih =>
    have h1 := (rep_iff _ _).1 h
    have h2 := (rep_iff _ _).1 h'
    intro y hy
    rw [addrs_kids] at hy
    rcases List.mem_cons.1 hy with rfl | hy
    · rw [h1.1, h2.1]
    · obtain ⟨c, hc, hy⟩ := List.mem_flatMap.1 hy
      exact ih c hc (h1.2 c hc) (h2.2 c hc) y hy

theorem Holds.same {m m' : Mem V} {tb tb' : Trie V} {T : Option (AT V)} (h : Holds m tb T) (h' : Holds m' tb' T) :
    ∀ y ∈ addrsO T, m'.body y = m.body y := by
  cases T with
  | none => intro y hy; simp [addrsO] at hy
  | some T => exact h.2.2.2.same h'.2.2.2

theorem Inv.updates {s : St V} {To Tn : Option (AT V)} (h : Inv s To Tn) (cs : List (Cmd V))
    (hc : ∀ c ∈ cs, c.small ∧ c ≠ .commit ∧ c ≠ .rollback) :
    ∃ s' Tn' vs, (World.opened s).run cs = .ok (.opened s', vs) ∧ s'.old = s.old ∧ Inv s' To Tn' := by
  induction cs generalizing s Tn with
  | nil => exact ⟨s, Tn, [], rfl, rfl, h⟩
  | cons c cs ih =>
    obtain ⟨s1, Tn1, v, e1, o1, i1⟩ : ∃ s' Tn' v, (World.opened s).step c = .ok (.opened s', v) ∧ s'.old = s.old ∧ Inv s' To Tn' := by
      cases c with
      | begin => exact ⟨s, Tn, none, rfl, rfl, h⟩
      | put k w =>
        obtain ⟨s', Tn', e1, o1, i1, _⟩ := getCow_ok h k (hc (.put k w) (by simp)).1 w
        refine ⟨s', Tn', none, ?_, o1, i1⟩
        simp only [World.step]
        rw [e1]
        rfl
      | del k =>
        obtain ⟨s', Tn', e1, o1, i1, _⟩ := delCow_ok h k
        refine ⟨s', Tn', OrdMap.lookup (entriesO Tn) k, ?_, o1, i1⟩
        simp only [World.step]
        rw [e1]
        rfl
      | commit => exact absurd rfl (hc _ (by simp)).2.1
      | rollback => exact absurd rfl (hc _ (by simp)).2.2
    obtain ⟨s2, Tn2, vs, e2, o2, i2⟩ := ih i1 fun c' hc' => hc c' (by simp [hc'])
    refine ⟨s2, Tn2, v :: vs, ?_, by rw [o2, o1], i2⟩
    simp only [World.run]
    rw [e1]
    simp only [Res.bind_ok]
    rw [e2]
    rfl

theorem World.Reached.inv {s : St V} (h : (World.opened s).Reached) : ∃ To Tn, Inv s To Tn := by
  obtain ⟨d, hd⟩ := h.good
  cases d with
  | idle => exact hd.elim
  | opened o n =>
    obtain ⟨To, Tn, h1, _⟩ := hd
    exact ⟨To, Tn, h1⟩

theorem World.Reached.isIdle {m : Mem V} {tbl : Trie V} (h : (World.idle m tbl).Reached) : ∃ T, Idle m tbl T := by
  obtain ⟨d, hd⟩ := h.good
  cases d with
  | idle =>
    obtain ⟨T, h1, _⟩ := hd
    exact ⟨T, h1⟩
  | opened o n => exact hd.elim

end Cow

open Cow

/-- **C44.** Any history of transactions runs without touching memory it must not touch and answers as the
maps do. At every point the readers of the old and of the new trie see exactly the old and the new map. -/
theorem C44_history (cs : List (Cmd V)) (hc : ∀ c ∈ cs, c.small) :
    ∃ w : World V, World.init.run cs = .ok (w, ((Db.idle []).run cs).2) ∧ w.Is ((Db.idle []).run cs).1 := by
  obtain ⟨w, e1, g1⟩ := World.Good.init.run cs hc
  exact ⟨w, e1, g1.is⟩

/-- The readers of the old trie need no lock. Whatever is done within the transaction, the old trie has the same
objects with the same contents as before, and none of them was written (except for its mark) or freed since the
transaction began. -/
theorem C44_readers {s : St V} (hw : (World.opened s).Reached) (cs : List (Cmd V))
    (hc : ∀ c ∈ cs, c.small ∧ c ≠ .commit ∧ c ≠ .rollback) :
    ∃ s' vs, (World.opened s).run cs = .ok (.opened s', vs) ∧ s'.old = s.old ∧
      ∀ x, (InTrie s'.mem s'.old x ↔ InTrie s.mem s.old x) ∧
        (InTrie s.mem s.old x → x ∉ s'.mem.log ∧ s'.mem.body x = s.mem.body x) := by
  obtain ⟨To, Tn, h⟩ := hw.inv
  obtain ⟨s', Tn', vs, e1, o1, i1⟩ := h.updates cs hc
  refine ⟨s', vs, e1, o1, fun x => ?_⟩
  rw [i1.old.reach, h.old.reach]
  exact ⟨Iff.rfl, fun hx => ⟨fun hl => i1.log x hl hx, h.old.same i1.old x hx⟩⟩

/-- Opening a transaction: both tries are the one there was, with the same objects; none was written or freed. -/
theorem C44_begin {m : Mem V} {tbl : Trie V} (hw : (World.idle m tbl).Reached) :
    ∃ s, cow m tbl = .ok s ∧ s.old = tbl ∧ s.new = tbl ∧
      ∀ x, (InTrie s.mem s.old x ↔ InTrie m tbl x) ∧
        (InTrie m tbl x → x ∉ s.mem.log ∧ s.mem.body x = m.body x) := by
  obtain ⟨T, h⟩ := hw.isIdle
  obtain ⟨s, e1, o1, n1, i1⟩ := cow_ok h
  refine ⟨s, e1, o1, n1, fun x => ?_⟩
  rw [i1.old.reach, h.holds.reach]
  exact ⟨Iff.rfl, fun hx => ⟨fun hl => i1.log x hl hx, h.holds.same i1.old x hx⟩⟩

/-- A rollback leaves the old trie, with the same objects; none was written or freed since the transaction began. -/
theorem C44_rollback {s : St V} (hw : (World.opened s).Reached) :
    ∃ m, rollback s = .ok (m, s.old) ∧
      ∀ x, (InTrie m s.old x ↔ InTrie s.mem s.old x) ∧
        (InTrie s.mem s.old x → x ∉ m.log ∧ m.body x = s.mem.body x) := by
  obtain ⟨To, Tn, h⟩ := hw.inv
  obtain ⟨m, e1, i1, l1⟩ := rollback_ok h
  refine ⟨m, e1, fun x => ?_⟩
  rw [i1.holds.reach, h.old.reach]
  exact ⟨Iff.rfl, fun hx => ⟨fun hl => l1 x hl hx, h.old.same i1.holds x hx⟩⟩

/-- A commit leaves the new trie, with the same objects; it writes and frees none of them. -/
theorem C44_commit {s : St V} (hw : (World.opened s).Reached) :
    ∃ m, commit s = .ok (m, s.new) ∧
      ∀ x, (InTrie m s.new x ↔ InTrie s.mem s.new x) ∧
        (InTrie s.mem s.new x → (x ∈ m.log → x ∈ s.mem.log) ∧ m.body x = s.mem.body x) := by
  obtain ⟨To, Tn, h⟩ := hw.inv
  obtain ⟨m, e1, i1, l1⟩ := commit_ok h
  refine ⟨m, e1, fun x => ?_⟩
  rw [i1.holds.reach, h.new.reach]
  refine ⟨Iff.rfl, fun hx => ⟨fun hl => ?_, h.new.same i1.holds x hx⟩⟩
  rcases l1 x hl with h | h
  · exact h
  · exact absurd hx h

/-- Nothing leaks. Within a transaction, what is allocated is in the old trie or in the new one. Outside, it is in
the trie, no mark is left, and freeing the trie frees everything. -/
theorem C44_no_leak :
    (∀ s : St V, (World.opened s).Reached → ∀ x, s.mem.obj x ≠ none ↔ InTrie s.mem s.old x ∨ InTrie s.mem s.new x) ∧
    ∀ (m : Mem V) (tbl : Trie V), (World.idle m tbl).Reached →
      (∀ x, m.obj x ≠ none ↔ InTrie m tbl x) ∧ (∀ x, m.flag x = false) ∧
      ∃ m', free m tbl = .ok m' ∧ ∀ x, m'.obj x = none := by
  refine ⟨fun s hw x => ?_, fun m tbl hw => ?_⟩
  · obtain ⟨To, Tn, h⟩ := hw.inv
    rw [h.dom, h.old.reach, h.new.reach]
    constructor
    · intro hx
      rw [h.permOld.mem_iff] at hx
      rcases List.mem_append.1 hx with hx | hx
      · exact .inr ((addrsO_split s.mem.flag Tn).mem_iff.2 (by simp [hx]))
      · exact .inl hx
    · rintro (hx | hx)
      · exact Inv.ownedOld hx
      · exact h.ownedNew hx
  · obtain ⟨T, h⟩ := hw.isIdle
    exact ⟨fun x => by rw [h.dom, h.holds.reach], h.clean, free_all h⟩

/-! A history with a committed and an open transaction: the old trie has three keys, the new one another value, a
new key and one key less. -/

namespace Cow

/-- Some commands. -/
def demo : List (Cmd Nat) :=
  [.begin, .put [1] (fun _ => 10), .put [1, 2] (fun _ => 20), .put [7] (fun _ => 30), .commit,
   .begin, .put [1, 2] (fun _ => 21), .del [7], .put [5, 5] (fun _ => 40)]

theorem demo_small : ∀ c ∈ demo, c.small := by
  intro c hc
  simp only [demo, List.mem_cons, List.not_mem_nil, or_false] at hc
  rcases hc with rfl | rfl | rfl | rfl | rfl | rfl | rfl | rfl | rfl <;> simp [Cmd.small]

/-- It leads to an open transaction, as the theorems need. -/
example : ∃ s : St Nat, (World.opened s).Reached ∧ Shows s.mem s.old [([1], 10), ([1, 2], 20), ([7], 30)] ∧
    Shows s.mem s.new [([1], 10), ([1, 2], 21), ([5, 5], 40)] := by
  obtain ⟨w, e, h⟩ := C44_history demo demo_small
  cases w with
  | idle => exact h.elim
  | opened s => exact ⟨s, ⟨demo, _, demo_small, e⟩, h.1, h.2⟩

example : ((Db.idle []).run demo).1 =
    .opened [([1], 10), ([1, 2], 20), ([7], 30)] [([1], 10), ([1, 2], 21), ([5, 5], 40)] ∧
    ((Db.idle []).run demo).2 = [none, none, none, none, none, none, none, some 30, none] := by
  constructor <;> rfl

/-- What the two tries contain after the commands. -/
def demoView : Option (List (Key × Nat) × List (Key × Nat)) :=
  match World.init.run demo with
  | .ok (.opened s, _) =>
    match contents s.mem s.old, contents s.mem s.new with
    | .ok a, .ok b => some (a, b)
    | _, _ => none
  | _ => none

example : demoView = some ([([1], 10), ([1, 2], 20), ([7], 30)], [([1], 10), ([1, 2], 21), ([5, 5], 40)]) := by
  decide +kernel

end Cow
end Knot
