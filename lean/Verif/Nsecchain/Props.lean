import Verif.Nsecchain.Lemmas7
/-!
# C19: the NSEC chain
-/
namespace Knot.Nsecchain
open Dname (Name lowerName canonCmp)

/-! ## A zone for examples -/

namespace demo
def e : Name := [[101]]
def a : Name := [[97], [101]]
def b : Name := [[98], [101]]
def s : Name := [[115], [101]]
def xs : Name := [[120], [115], [101]]
def z : Name := [[122], [101]]
def names : List Name := [e, a, b, s, xs, z]

/-- The apex, two hosts, a delegation with glue below it, a name without records. -/
def raw : Heap := fun n =>
  if n = e then { types := [6, 2, 48], sigs := [6, 2, 48] }
  else if n = a then { types := [1], sigs := [1] }
  else if n = s then { types := [2, 43], sigs := [43] }
  else if n = xs then { types := [1] }
  else if n = z then { types := [16], sigs := [16] }
  else {}

def flagged : Heap := adjust e names raw

def built : Heap := match create 300 names flagged with
  | .ok (h, _) => h
  | _ => raw

/-- `a` is removed, `b` is added, the delegation gets another type. -/
def upd : Heap := fun n =>
  if n = a then { built a with types := [], sigs := [] }
  else if n = b then { types := [28], sigs := [28] }
  else built n
end demo
open demo

theorem demo_tree : Tree names flagged := by
  refine ⟨by decide +kernel, by decide +kernel, by decide +kernel, e, _, rfl, ?_⟩
  decide +kernel
theorem demo_noBare : NoBare names flagged := by unfold NoBare; decide +kernel

/-- The chain over any history: it is built, then the zone is updated and the chain fixed, and between
anything may be signed. -/
inductive History (ttl : Nat) (names : List Name) : Heap → Prop
  | create {h h' : Heap} {b : Bool} : Tree names h → NoBare names h → create ttl names h = .ok (h', b) →
      History ttl names h'
  | sign {h h' : Heap} : History ttl names h →
      (∀ x, h' x = { h x with sigs := (h' x).sigs } ∧ ((h x).types = [] → (h' x).sigs = (h x).sigs)) →
      History ttl names h'
  | update {h new h' : Heap} {ptrs : List Name} : History ttl names h → Tree names new → ptrs.Nodup →
      Upd names ptrs h new → fix ttl names ptrs h new = .ok h' → History ttl names h'

theorem tree_congr {names : List Name} {h h' : Heap} (tr : Tree names h) (hs : ∀ x, SameData (h x) (h' x)) :
    Tree names h' := by
  refine ⟨tr.sorted, tr.lower, ?_, ?_⟩
  · intro x hx
    rw [(hs x).1]; exact tr.types x hx
  · obtain ⟨a, l, h1, h2⟩ := tr.apex
    exact ⟨a, l, h1, (auth_congr (hs a)).mpr h2⟩

theorem create_facts {ttl : Nat} {names : List Name} {h : Heap} (tr : Tree names h) (hb : NoBare names h) :
    ∃ h', create ttl names h = .ok (h', false) ∧ Chain ttl names h' ∧ (∀ x, SameData (h x) (h' x)) ∧
      NoBare names h' ∧ (∀ x, 47 ∈ (h' x).sigs → h' x = h x ∨ (h x).nsec = []) ∧
      (Chain ttl names h → h' = h) := by
  obtain ⟨h', a, l, hn, ha, e1, e2, e3, e4⟩ := create_spec (ttl := ttl) tr hb
  have hnd := sorted_nodup tr.sorted
  have hm : members h names = a :: members h l := by rw [hn]; simp [members, ha]
  have hsame : ∀ x, SameData (h x) (h' x) := by
    intro x
    by_cases hx : x ∈ names
    · by_cases hax : Auth (h x)
      · rw [e4 x hx hax]; exact setNext_same _ _ _
      · rw [e3 x hx hax]; exact clean_same _
    · rw [e2 x hx]; exact SameData.refl _
  have hmem : members h' names = members h names := by
    apply List.filter_congr
    intro x _
    rw [decide_eq_decide]
    exact auth_congr (hsame x)
  refine ⟨h', e1, ?_, hsame, ?_, ?_, ?_⟩
  · refine chain_of hnd (hmem.trans hm) ?_ ?_
    · intro x hx hax
      rw [auth_congr (hsame x)] at hax
      rw [e3 x hx hax]; exact clean_nsec _
    · intro x hx hax
      rw [auth_congr (hsame x)] at hax
      rw [hmem, e4 x hx hax]
      refine setNext_points (tr.types x hx) (tr.lower _ ?_)
      have hxm : x ∈ a :: members h l := by rw [← hm]; exact List.mem_filter.mpr ⟨hx, by simpa using hax⟩
      obtain ⟨A, B, e⟩ := List.append_of_mem hxm
      have hndm : (a :: members h l).Nodup := by rw [← hm]; exact hnd.filter _
      have hxA : x ∉ A := by
        rw [e] at hndm
        exact fun q => (List.nodup_append.mp hndm).2.2 x q x (by simp) rfl
      rw [hm, e, after_split hxA]
      have hsub : ∀ y ∈ a :: members h l, y ∈ names := fun y hy => by
        rw [← hm] at hy; exact (List.mem_filter.mp hy).1
      cases B with
      | nil => exact hsub a (by simp)
      | cons y B => exact hsub y (by rw [e]; simp)
  · intro x hx h1 h2 t ht
    have hna : ¬ Auth (h' x) := fun q => q.2 h2
    rw [auth_congr (hsame x)] at hna
    rw [(hsame x).1] at h2
    rw [(hsame x).2.1] at h1
    have hall := hb x hx h1 h2
    rw [e3 x hx hna] at ht
    exfalso
    unfold clean at ht
    split at ht
    · next hq => exact (hall t ht).2 hq
    · simp only [removeNsec] at ht
      split at ht
      · obtain ⟨q1, q2⟩ := List.mem_filter.mp ht
        simp [(hall t q1).1] at q2
      · next h47 =>
        have := (List.mem_filter.mp ht).1
        exact h47 ((hall t this).1 ▸ this)
  · intro x hm47
    by_cases hx : x ∈ names
    · by_cases hax : Auth (h x)
      · rw [e4 x hx hax] at hm47 ⊢
        exact setNext_sigs hm47
      · rw [e3 x hx hax] at hm47 ⊢
        unfold clean at hm47 ⊢
        split at hm47
        · next q => exact .inr q
        · exfalso
          simp only [removeNsec] at hm47
          split at hm47
          · simp [List.mem_filter] at hm47
          · next h47 => exact h47 (List.mem_filter.mp hm47).1
    · left; exact e2 x hx
  · intro hc
    funext x
    by_cases hx : x ∈ names
    · by_cases hax : Auth (h x)
      · rw [e4 x hx hax]
        exact setNext_id (tr.types x hx) (chain_points hnd hm hc x hx hax)
      · rw [e3 x hx hax]
        simp [clean, hc.others x hx hax]
    · exact e2 x hx

theorem history_facts {ttl : Nat} {names : List Name} {h : Heap} (hh : History ttl names h) :
    Chain ttl names h ∧ Tree names h ∧ NoBare names h := by
  induction hh with
  | create tr hb he =>
    obtain ⟨h', e1, e2, e3, e4, _⟩ := create_facts tr hb
    rw [e1] at he
    simp only [Res.ok.injEq, Prod.mk.injEq] at he
    rw [← he.1]
    exact ⟨e2, tree_congr tr e3, e4⟩
  | @sign h h' _ hs ih =>
    obtain ⟨c, tr, nb⟩ := ih
    have f1 : ∀ x, (h' x).types = (h x).types := fun x => by rw [(hs x).1]
    have f2 : ∀ x, (h' x).nonauth = (h x).nonauth := fun x => by rw [(hs x).1]
    have f3 : ∀ x, (h' x).deleg = (h x).deleg := fun x => by rw [(hs x).1]
    have f4 : ∀ x, (h' x).nsec = (h x).nsec := fun x => by rw [(hs x).1]
    have f5 : ∀ x, (h' x).ttl = (h x).ttl := fun x => by rw [(hs x).1]
    have fa : ∀ x, Auth (h' x) ↔ Auth (h x) := fun x => by unfold Auth; rw [f1, f2]
    refine ⟨⟨?_, ?_⟩, ⟨tr.sorted, tr.lower, ?_, ?_⟩, ?_⟩
    · intro x hx ha
      rw [f4]; exact c.others x hx (fun q => ha ((fa x).mpr q))
    · intro l hl i x y hx hy
      have := c.links l (by rw [hl]; apply List.filter_congr; intro z _; rw [decide_eq_decide]; exact fa z) i x y hx hy
      rw [f4, f5, listed_congr (f1 x) (f3 x)]
      exact this
    · intro x hx; rw [f1]; exact tr.types x hx
    · obtain ⟨a, l, h1, h2⟩ := tr.apex
      exact ⟨a, l, h1, (fa a).mpr h2⟩
    · intro x hx h1 h2
      rw [f1] at h2
      rw [f2] at h1
      rw [(hs x).2 h2, f4]
      exact nb x hx h1 h2
  | update _ tn hnd hu he ih =>
    obtain ⟨c, tr, nb⟩ := ih
    obtain ⟨h', e1, e2, e3, e4⟩ := fix_spec tr tn nb c hnd hu
    rw [e1] at he
    simp only [Res.ok.injEq] at he
    rw [← he]
    exact ⟨e2, tree_congr tn e3, e4⟩

theorem to_iff (n : Node) (x : Name) : To n x ↔ n.nsec.map (fun r => lowerName r.1) = [x] := by
  unfold To
  match n.nsec with
  | [] => simp
  | [r] => simp
  | r :: r' :: l => simp

/-- A node with its own NSEC. -/
def full (n : Node) (next : Name) : Node :=
  { n with nsec := [(next, Bitmap.encode (present { n with nsec := [([], [])] }))] }

theorem full_ok (n : Node) (next : Name) (hn : n.nonauth = false) : BitOk (full n next) := by
  have : present (full n next) = present { n with nsec := [([], [])] } := by
    funext t; simp [present, full]
  refine ⟨fun _ => ⟨next, ?_⟩, fun q => absurd ⟨hn, .inr (.inr (by simp [full]))⟩ q⟩
  rw [this]; rfl

theorem valid_of_chain {ttl : Nat} {names : List Name} {h : Heap} (c : Chain ttl names h) (nb : NoBare names h)
    (hs : ∀ x ∈ names, Auth (h x) → 47 ∈ (h x).sigs) : Valid names h := by
  have hia : ∀ x ∈ names, (Included (h x) ↔ Auth (h x)) := by
    intro x hx
    constructor
    · rintro ⟨h1, h2⟩
      refine ⟨h1, fun ht => ?_⟩
      have hn := c.others x hx (by simp [Auth, ht])
      have := nb.at hx h1 ht hn
      simp [ht, hn, this] at h2
    · rintro ⟨h1, h2⟩; exact ⟨h1, .inl h2⟩
  refine ⟨fun x hx hi => c.others x hx (fun q => hi ((hia x hx).mpr q)), ?_⟩
  intro l hl i x y hx hy
  have hl' : l = names.filter (fun x => decide (Auth (h x))) := by
    rw [hl]; apply List.filter_congr; intro z hz; rw [decide_eq_decide]; exact hia z hz
  obtain ⟨t, t1, t2, _⟩ := c.links l hl' i x y hx hy
  have hxm : x ∈ l := List.mem_of_getElem? hx
  rw [hl'] at hxm
  obtain ⟨q1, q2⟩ := List.mem_filter.mp hxm
  have h47 := hs x q1 (by simpa using q2)
  refine ⟨t, ?_, t2⟩
  have : listed (h x) = present (h x) := by
    funext u
    simp only [listed, present]
    rw [decide_eq_decide]
    have hn : (h x).nsec ≠ [] := by rw [t1]; simp
    have hsg : (h x).sigs ≠ [] := by intro q; rw [q] at h47; simp at h47
    simp only [hn, hsg, h47, ne_eq, not_false_eq_true, and_true, true_and, or_true, implies_true]
    grind
  rw [← this]; exact t1

end Knot.Nsecchain

namespace Knot
open Nsecchain
open Dname (Name lowerName canonCmp)
open Nsecchain.demo (e a b s xs z)

/-- C19. Which names are authoritative, which are delegations: for every zone, whatever the flags were before,
a node is marked as not authoritative iff some name above it, but strictly below the apex, owns NS records,
and as a delegation iff it owns NS, is not the apex and is not below another one. Nothing else changes. -/
theorem C19_flags (apex : Name) (names : List Name) (h : Heap) (cl : Closed apex names) :
    (∀ x ∈ names, ((adjust apex names h x).nonauth = true ↔ UnderCut apex h x) ∧
      ((adjust apex names h x).deleg = true ↔ x ≠ apex ∧ 2 ∈ (h x).types ∧ ¬ UnderCut apex h x)) ∧
    (∀ x, adjust apex names h x =
      { h x with nonauth := (adjust apex names h x).nonauth, deleg := (adjust apex names h x).deleg }) := by
  obtain ⟨h1, h2⟩ := adjust_spec (h := h) cl names [] h rfl (by simp) (by simp)
  refine ⟨fun x hx => (h1 x hx).2, fun x => ?_⟩
  by_cases hx : x ∈ names
  · exact (h1 x hx).1
  · rw [h2 x hx]

example : Closed e demo.names := by
  refine ⟨by decide +kernel, by decide +kernel, by decide +kernel⟩
example : (adjust e demo.names demo.raw xs).nonauth = true ∧ (adjust e demo.names demo.raw s).deleg = true ∧
    (adjust e demo.names demo.raw e).deleg = false := by decide +kernel

/-- C19. Building the chain over any zone succeeds and gives the chain: each authoritative name with records and
each delegation, and no other, has one NSEC, with exactly its types, pointing to the next one in canonical
order, the last one to the apex. Nothing but NSEC and its signatures changes, and a signature of NSEC stays
only where the NSEC stays or there was none. -/
theorem C19_create (ttl : Nat) (names : List Name) (h : Heap) (tr : Tree names h) (hb : NoBare names h) :
    ∃ h', create ttl names h = .ok (h', false) ∧ Chain ttl names h' ∧ (∀ x, SameData (h x) (h' x)) ∧
      NoBare names h' ∧ (∀ x, 47 ∈ (h' x).sigs → h' x = h x ∨ (h x).nsec = []) := by
  obtain ⟨h', e1, e2, e3, e4, e5, _⟩ := create_facts (ttl := ttl) tr hb
  exact ⟨h', e1, e2, e3, e4, e5⟩

example : Tree demo.names demo.flagged ∧ NoBare demo.names demo.flagged := ⟨demo_tree, demo_noBare⟩
example : (demo.built e).nsec.map Prod.fst = [a] ∧ (demo.built a).nsec.map Prod.fst = [s] ∧ (demo.built b).nsec = [] ∧
    (demo.built s).nsec.map Prod.fst = [z] ∧ (demo.built xs).nsec = [] ∧ (demo.built z).nsec.map Prod.fst = [e] := by
  decide +kernel

/-- C19. A zone that has the chain already is left as it is. -/
theorem C19_idempotent (ttl : Nat) (names : List Name) (h : Heap) (tr : Tree names h) (hb : NoBare names h)
    (hc : Chain ttl names h) : create ttl names h = .ok (h, false) := by
  obtain ⟨h', e1, _, _, _, _, e6⟩ := create_facts (ttl := ttl) tr hb
  rw [e1, e6 hc]

theorem demo_history : History 300 demo.names demo.built := by
  obtain ⟨h', e1, _⟩ := C19_create 300 demo.names demo.flagged demo_tree demo_noBare
  have : demo.built = h' := by unfold demo.built; rw [e1]
  rw [this]
  exact History.create demo_tree demo_noBare e1

/-- C19. Fixing the chain after any update, if the zone had one: the result has the chain again. The nodes
visited are only the changed ones, in their order, whichever of them were added, removed, covered or
uncovered by a delegation, or just changed. -/
theorem C19_fix (ttl : Nat) (names ptrs : List Name) (old new : Heap) (to : Tree names old) (tn : Tree names new)
    (hb : NoBare names old) (hc : Chain ttl names old) (hnd : ptrs.Nodup) (hu : Upd names ptrs old new) :
    ∃ h', fix ttl names ptrs old new = .ok h' ∧ Chain ttl names h' ∧ (∀ x, SameData (new x) (h' x)) ∧
      NoBare names h' :=
  fix_spec to tn hb hc hnd hu

/-- C19. So it is after any history of updates and signing, and no fix in it fails. -/
theorem C19_history (ttl : Nat) (names : List Name) (h : Heap) (hh : History ttl names h) :
    Chain ttl names h ∧ ∀ (ptrs : List Name) (new : Heap), Tree names new → ptrs.Nodup → Upd names ptrs h new →
      ∃ h', fix ttl names ptrs h new = .ok h' ∧ History ttl names h' := by
  obtain ⟨c, tr, nb⟩ := history_facts hh
  refine ⟨c, fun ptrs new tn hnd hu => ?_⟩
  obtain ⟨h', e1, _⟩ := fix_spec tr tn nb c hnd hu
  exact ⟨h', e1, History.update hh tn hnd hu e1⟩

theorem demo_upd : Tree demo.names demo.upd ∧ Upd demo.names [a, b] demo.built demo.upd := by
  refine ⟨⟨by decide +kernel, by decide +kernel, by decide +kernel, e, _, rfl, by decide +kernel⟩, ?_, ?_, ?_⟩
  · intro x hx
    simp only [List.mem_cons, List.not_mem_nil, or_false, not_or] at hx
    unfold demo.upd
    rw [if_neg hx.1, if_neg hx.2]
  · intro x
    unfold demo.upd
    split
    · next h => rw [h]
    · split
      · next h => rw [h]; decide +kernel
      · rfl
  · decide +kernel

example : ∃ h', fix 300 demo.names [a, b] demo.built demo.upd = .ok h' ∧ History 300 demo.names h' :=
  (C19_history 300 demo.names demo.built demo_history).2 [a, b] demo.upd demo_upd.1 (by decide +kernel) demo_upd.2

/-- C19. The check of a whole zone accepts exactly the valid chains; it never ends otherwise than by accepting
or by an error. -/
theorem C19_check (names : List Name) (h : Heap) (tr : Names names h) :
    (check names h = .ok false ∧ Valid names h) ∨ (∃ e, check names h = .err e) ∧ ¬ Valid names h :=
  check_spec tr

/-- C19. A chain that is built, once its records are signed, passes the check. -/
theorem C19_signed_valid (ttl : Nat) (names : List Name) (h : Heap) (hh : History ttl names h)
    (hs : ∀ x ∈ names, (h x).nonauth = false → (h x).types ≠ [] → 47 ∈ (h x).sigs) : check names h = .ok false := by
  obtain ⟨c, tr, nb⟩ := history_facts hh
  have tr' : Names names h := by
    refine ⟨tr.sorted, tr.lower, tr.types, ?_⟩
    obtain ⟨a, l, h1, h2⟩ := tr.apex
    exact ⟨a, l, h1, h2.1, .inl h2.2⟩
  rcases check_spec tr' with ⟨q, _⟩ | ⟨_, q⟩
  · exact q
  · exact absurd (valid_of_chain c nb fun x hx ha => hs x hx ha.1 ha.2) q

/-- The zone built, signed. -/
def demo.signed : Heap := fun n => if (demo.built n).nsec = [] then demo.built n else
  { demo.built n with sigs := 47 :: (demo.built n).sigs }

theorem demo_signed : History 300 demo.names demo.signed ∧
    ∀ x ∈ demo.names, (demo.signed x).nonauth = false → (demo.signed x).types ≠ [] → 47 ∈ (demo.signed x).sigs := by
  refine ⟨History.sign demo_history ?_, by decide +kernel⟩
  have key : ∀ x ∈ demo.names, (demo.built x).types = [] → (demo.signed x).sigs = (demo.built x).sigs := by decide +kernel
  have hout : ∀ x, x ∉ demo.names → demo.built x = {} := by
    intro x hx
    obtain ⟨h', _, _, _, _, e1, e2, _⟩ := create_spec (ttl := 300) demo_tree demo_noBare
    have : demo.built = h' := by unfold demo.built; rw [e1]
    rw [this, e2 x hx]
    obtain ⟨_, q⟩ := adjust_spec (h := demo.raw) (apex := e) (names := demo.names)
      ⟨by decide +kernel, by decide +kernel, by decide +kernel⟩ demo.names [] demo.raw rfl (by simp) (by simp)
    unfold demo.flagged
    rw [q x hx]
    simp only [demo.names, List.mem_cons, List.not_mem_nil, or_false, not_or] at hx
    simp [demo.raw, hx]
  intro x
  constructor
  · unfold demo.signed
    split <;> rfl
  · by_cases hx : x ∈ demo.names
    · exact key x hx
    · intro _
      unfold demo.signed
      rw [hout x hx]; rfl

example : check demo.names demo.signed = .ok false := C19_signed_valid 300 _ _ demo_signed.1 demo_signed.2

/-- C19. The check of an update: if the zone had a valid chain and only the nodes `ptrs` differ, it accepts exactly
the valid chains, as long as the update makes no node leave the chain and no changed NSEC points to a name of
the tree that is outside the chain. Missing: the other updates; for those it is false, see below. -/
theorem C19_check_fix_partial (names ptrs : List Name) (old new : Heap) (to : Names names old) (tn : Names names new)
    (hv : Valid names old) (hin : ∀ x ∈ ptrs, x ∈ names) (hun : ∀ x, x ∉ ptrs → new x = old x)
    (hd : ∀ x ∈ names, Included (new x) → (new x).types ≠ [])
    (hk : ∀ x ∈ names, Included (old x) → Included (new x))
    (ht : ∀ x ∈ ptrs, Included (new x) → ∀ r, (new x).nsec = [r] → lowerName r.1 ∈ names →
      Included (new (lowerName r.1))) :
    (checkFix names ptrs new = .ok () ∧ Valid names new) ∨ (∃ e, checkFix names ptrs new = .err e) ∧ ¬ Valid names new :=
  checkFix_spec to tn hv hin hun hd hk ht

/-- The records of the example after an update that adds `b` after `a`. -/
def demo.added : Heap := fun n =>
  if n = a then full (demo.signed a) b
  else if n = b then full { types := [28], sigs := [28, 47] } s
  else demo.signed n

theorem demo_names (h : Heap) (ht : ∀ x ∈ demo.names, ∀ t ∈ (h x).types, t < 65536) (ha : Included (h e)) :
    Names demo.names h :=
  ⟨by decide +kernel, by decide +kernel, ht, e, _, rfl, ha⟩

theorem demo_valid : Valid demo.names demo.signed := by
  obtain ⟨c, tr, nb⟩ := history_facts demo_signed.1
  exact valid_of_chain c nb fun x hx ha => demo_signed.2 x hx ha.1 ha.2

example : Names demo.names demo.signed ∧ Names demo.names demo.added ∧ Valid demo.names demo.signed ∧
    (∀ x, x ∉ [a, b] → demo.added x = demo.signed x) ∧
    (∀ x ∈ demo.names, Included (demo.added x) → (demo.added x).types ≠ []) ∧
    (∀ x ∈ demo.names, Included (demo.signed x) → Included (demo.added x)) ∧
    (∀ x ∈ [a, b], Included (demo.added x) → ∀ r ∈ (demo.added x).nsec, Included (demo.added (lowerName r.1))) ∧
    Valid demo.names demo.added := by
  refine ⟨demo_names _ (by decide +kernel) (by decide +kernel), demo_names _ (by decide +kernel) (by decide +kernel),
    demo_valid, ?_, by decide +kernel, by decide +kernel, by decide +kernel, ?_⟩
  · intro x hx
    simp only [List.mem_cons, List.not_mem_nil, or_false, not_or] at hx
    unfold demo.added
    rw [if_neg hx.1, if_neg hx.2]
  · have hv := (valid_iff (names := demo.names) (h := demo.signed) (a := e) (l := [a, s, z]) (by decide +kernel)
      (by decide +kernel)).mp demo_valid
    refine (valid_iff (names := demo.names) (a := e) (l := [a, b, s, z]) (by decide +kernel) (by decide +kernel)).mpr
      ⟨?_, by simp only [to_iff]; decide +kernel⟩
    intro x hx
    unfold demo.added
    split
    · exact full_ok _ _ (by decide +kernel)
    · split
      · exact full_ok _ _ (by decide +kernel)
      · exact hv.1 x hx

/-- C19, finding. A name that owns nothing but RRSIG is linked by one run, dropped by the next one and linked again
by the third one. -/
theorem C19_bare_rrsig : ∃ h h1 h2 h3 : Heap, Tree [e, a] h ∧ (h a).types = [] ∧ (h a).sigs = [1] ∧
    create 1 [e, a] h = .ok (h1, false) ∧ (h1 a).nsec ≠ [] ∧
    create 1 [e, a] h1 = .ok (h2, false) ∧ (h2 a).nsec = [] ∧
    create 1 [e, a] h2 = .ok (h3, false) ∧ (h3 a).nsec ≠ [] := by
  let h : Heap := fun n => if n = e then { types := [6] } else if n = a then { sigs := [1] } else {}
  let run (g : Heap) : Heap × Bool := connect 1 (createLoop 1 g e e false [a]).1
    (if (createLoop 1 g e e false [a]).2.2.2 then (createLoop 1 g e e false [a]).2.1
      else (createLoop 1 g e e false [a]).2.2.1) e
  have hrun : ∀ g, (run g).2 = false → create 1 [e, a] g = .ok ((run g).1, false) := by
    intro g hg
    rw [← hg]; rfl
  refine ⟨h, (run h).1, (run (run h).1).1, (run (run (run h).1).1).1, ⟨by decide +kernel, by decide +kernel,
    by decide +kernel, e, _, rfl, by decide +kernel⟩, by decide +kernel, by decide +kernel,
    hrun _ (by decide +kernel), by decide +kernel, hrun _ (by decide +kernel), by decide +kernel,
    hrun _ (by decide +kernel), by decide +kernel⟩

/-- C19, finding. The check of an update accepts a zone from which a name of the chain is removed while the NSEC
before it still points to it. -/
theorem C19_removed_accepted : ∃ (names ptrs : List Name) (old new : Heap), Names names old ∧ Names names new ∧
    Valid names old ∧ (∀ x, x ∉ ptrs → new x = old x) ∧ checkFix names ptrs new = .ok () ∧ ¬ Valid names new := by
  refine ⟨demo.names, [a], demo.signed, fun n => if n = a then {} else demo.signed n,
    demo_names _ (by decide +kernel) (by decide +kernel), demo_names _ (by decide +kernel) (by decide +kernel),
    demo_valid, ?_, by decide +kernel, ?_⟩
  · intro x hx
    simp only [List.mem_cons, List.not_mem_nil, or_false] at hx
    exact if_neg hx
  · intro v
    obtain ⟨t, t1, t2⟩ := v.links _ rfl 0 e s (by decide +kernel) (by decide +kernel)
    have := congrArg (List.map (fun r => lowerName r.1)) t1
    rw [List.map_cons, List.map_nil, t2] at this
    exact absurd this (by decide +kernel)

/-- C19, finding. It accepts a changed NSEC that points to a name below a delegation, if no name of the chain is
between. -/
theorem C19_glue_accepted : ∃ (names ptrs : List Name) (old new : Heap), Names names old ∧ Names names new ∧
    Valid names old ∧ (∀ x, x ∉ ptrs → new x = old x) ∧ (∀ x, SameData (old x) (new x)) ∧
    checkFix names ptrs new = .ok () ∧ ¬ Valid names new := by
  refine ⟨demo.names, [s], demo.signed, fun n => if n = s then full (demo.signed s) xs else demo.signed n,
    demo_names _ (by decide +kernel) (by decide +kernel), demo_names _ (by decide +kernel) (by decide +kernel),
    demo_valid, ?_, ?_, ?_, ?_⟩
  · intro x hx
    simp only [List.mem_cons, List.not_mem_nil, or_false] at hx
    exact if_neg hx
  · intro x
    show SameData _ (if x = s then _ else _)
    split
    · next q => rw [q]; exact ⟨rfl, rfl, rfl, fun _ h => h, fun _ h _ _ => h⟩
    · exact SameData.refl _
  · unfold checkFix
    rcases checkBitmaps_spec (h := fun n => if n = s then full (demo.signed s) xs else demo.signed n) [s]
      (by decide +kernel) with ⟨q, _⟩ | ⟨_, q⟩
    · rw [q, Res.bind_ok]
      decide +kernel
    · refine absurd (fun x hx => ?_) q
      simp only [List.mem_cons, List.not_mem_nil, or_false] at hx
      rw [hx]
      exact full_ok _ _ (by decide +kernel)
  · intro v
    obtain ⟨t, t1, t2⟩ := v.links _ rfl 2 s z (by decide +kernel) (by decide +kernel)
    have := congrArg (List.map (fun r => lowerName r.1)) t1
    rw [List.map_cons, List.map_nil, t2] at this
    exact absurd this (by decide +kernel)

/-- C19, finding. A zone with a name that owns only NSEC and RRSIG has a valid chain for the check of the whole
zone, but in the check of an update that changes the next name an assertion fails. -/
theorem C19_assert :
    ∃ h : Heap, Names [e, a, b] h ∧ check [e, a, b] h = .ok false ∧ (h a).types = [] ∧ checkFix [e, a, b] [b] h = .ub := by
  let h : Heap := fun n => if n = e then full { types := [6], sigs := [6, 47] } a
    else if n = a then full { sigs := [47] } b
    else if n = b then full { types := [1], sigs := [1, 47] } e else {}
  have hn : Names [e, a, b] h := ⟨by decide +kernel, by decide +kernel, by decide +kernel, e, _, rfl, by decide +kernel⟩
  have hbit : ∀ x ∈ [e, a, b], BitOk (h x) := by
    intro x hx
    simp only [List.mem_cons, List.not_mem_nil, or_false] at hx
    rcases hx with q | q | q <;> rw [q] <;> exact full_ok _ _ (by decide +kernel)
  refine ⟨h, hn, ?_, by decide +kernel, ?_⟩
  · rcases check_spec hn with ⟨q, _⟩ | ⟨_, q⟩
    · exact q
    · exact absurd ((valid_iff (names := [e, a, b]) (a := e) (l := [a, b]) (by decide +kernel) (by decide +kernel)).mpr
        ⟨hbit, by simp only [to_iff]; decide +kernel⟩) q
  · unfold checkFix
    rcases checkBitmaps_spec (h := h) [b] (by decide +kernel) with ⟨q, _⟩ | ⟨_, q⟩
    · rw [q, Res.bind_ok]
      decide +kernel
    · refine absurd (fun x hx => hbit x ?_) q
      simp only [List.mem_cons, List.not_mem_nil, or_false] at hx ⊢
      exact .inr (.inr hx)

end Knot
