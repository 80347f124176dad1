import Verif.Catint.Lemmas
/-!
# C60: catalog zones are interpreted as they are written
-/
namespace Knot
open Catint
open Catalog (Upd Db UType)

/-- **C60, verification.** A zone is accepted as a catalog zone exactly if it has the version record and no record set of members
with more than one; the errors tell these apart. -/
theorem C60_verify {z : Zone} {apex : Dname.Name} (ht : Tree z apex) : ∃ e, verify z apex = .ok e ∧
    (e = none ↔ Versioned z apex ∧ Single z apex) ∧
    (e = some .ezoneInval ↔ ¬ Versioned z apex) ∧ (e = some .eisrecord ↔ Versioned z apex ∧ ¬ Single z apex) :=
  verify_ok ht

/-- **C60, calls.** The members added or removed, and the groups set or cleared, are exactly those that the zone, or the half of a
changeset, says. The only error is for a text of a group in more strings, when adding. -/
theorem C60_calls {tree whole : Zone} {apex : Dname.Name} (ht : Tree tree apex) (hw : Tree whole apex) (hs : Single tree apex)
    (hS : Single whole apex) (remove : Bool) : ∃ cs e, fromZone tree whole apex remove = .ok (cs, e) ∧
    (e = none ∨ e = some .emalf) ∧ (e = some .emalf ↔ remove = false ∧ Multi tree whole apex) ∧
    (e = none → ∀ c, c ∈ cs ↔ Says tree whole apex remove c) :=
  from_zone ht hw hs hS remove

/-- **C60, order.** If the node of a member comes before the node of its group, as in the order of a zone, the member is added
before its group is set. -/
theorem C60_order {tree whole : Zone} {apex : Dname.Name} (ht : Tree tree apex) (hw : Tree whole apex) (hs : Single tree apex)
    (hS : Single whole apex) {cs : List Call} (h : fromZone tree whole apex false = .ok (cs, none)) {j k : Node}
    (hjk : List.Sublist [j, k] tree) {u : Bytes} (hj : j.owner = memberOwner apex u) (hk : k.owner = label "group" :: memberOwner apex u)
    {m : Dname.Name} (hm : m ∈ j.ptr) {r : Bytes} (hr : k.txt.head? = some r) :
    List.Sublist [⟨m, memberOwner apex u, .add, []⟩, ⟨m, memberOwner apex u, .prop, r.tail⟩] cs :=
  order ht hw hs hS h hjk hj hk hm hr

/-- **C60, update.** A zone that is not a valid catalog zone changes nothing. For a valid new zone all members of the catalog are
removed and then those of the zone are added; for a changeset what it removes is removed, as far as it is in
the database, and then what it adds is added. What the operations mean is the specification of C33. Missing:
zones with a text of a group in more strings, see `C60_multistring`, and the mode without a changeset. -/
theorem C60_update_partial {u : Upd} {db : Db} {apex : Dname.Name} {new : Zone} (hn : Tree new apex) :
    ((¬ Versioned new apex ∨ ¬ Single new apex) → ∀ ch, ∃ e, updateCatalog u db apex new ch = .ok (u, some e)) ∧
    (Versioned new apex → Single new apex → ¬ Multi new new apex → ∃ cs, (∀ c, c ∈ cs ↔ Says new new apex false c) ∧
      updateCatalog u db apex new .full = (Catalog.delAll u apex db).bind fun v => (Catalog.calls db v (ops apex false cs)).bind fun w => .ok (w, none)) ∧
    (Versioned new apex → Single new apex → ∀ rem add, Tree rem apex → Tree add apex → Single rem apex → Single add apex →
      ¬ Multi add new apex → ∃ cs ds, (∀ c, c ∈ cs ↔ Says rem new apex true c) ∧ (∀ c, c ∈ ds ↔ Says add new apex false c) ∧
      updateCatalog u db apex new (.incremental rem add) =
        (Catalog.calls db u (ops apex true cs)).bind fun v => (Catalog.calls db v (ops apex false ds)).bind fun w => .ok (w, none)) :=
  update_ok hn

namespace Catint.Witness

/-- The catalog zone `c.` and its members `m.` and `n.`. -/
def cz : Dname.Name := [[99]]
def m : Dname.Name := [[109]]
def n : Dname.Name := [[110]]
def zoneOf (txt : Bytes) : Zone :=
  [⟨cz, [], []⟩, ⟨label "zones" :: cz, [], []⟩, ⟨memberOwner cz [97], [m], []⟩, ⟨memberOwner cz [98], [n], []⟩,
    ⟨label "group" :: memberOwner cz [98], [], [txt]⟩, ⟨label "version" :: cz, [], [[1, 50]]⟩]
/-- `TXT "g"`, and `TXT "g" "h"`. -/
def one : Zone := zoneOf [1, 103]
def two : Zone := zoneOf [1, 103, 1, 104]
/-- `m.` is a member already. -/
def db : Db := [(m, ⟨memberOwner cz [97], cz, []⟩)]
def conf (x : Dname.Name) : Bool := x = cz

theorem tree_of {txt : Bytes} (h : txt ≠ []) : Tree (zoneOf txt) cz where
  unique := by
    have : (zoneOf txt).map (·.owner) = (zoneOf []).map (·.owner) := rfl
    rw [this]; decide +kernel
  parents := by
    intro k hk p hp hc
    have key : ∀ o ∈ (zoneOf []).map (·.owner), ∀ i < 6, cz <:+ o.drop i → o.drop i ∈ (zoneOf []).map (·.owner) := by decide +kernel
    have h1 : k.owner ∈ (zoneOf []).map (·.owner) := by
      have : (zoneOf []).map (·.owner) = (zoneOf txt).map (·.owner) := rfl
      rw [this]; exact List.mem_map_of_mem hk
    have hl : ∀ o ∈ (zoneOf []).map (·.owner), o.length < 6 := by decide +kernel
    have hd := List.suffix_iff_eq_drop.1 hp
    have h2 := key _ h1 (k.owner.length - p.length) (by have := hl _ h1; omega) (hd ▸ hc)
    rw [← hd] at h2
    have h3 : p ∈ (zoneOf txt).map (·.owner) := h2
    obtain ⟨a, ha, hb⟩ := List.mem_map.1 h3
    exact ⟨a, ha, hb⟩
  sets := by
    intro k hk
    simp only [zoneOf, List.mem_cons, List.not_mem_nil, or_false] at hk
    rcases hk with rfl | rfl | rfl | rfl | rfl | rfl <;> simp
  text := by
    intro k hk
    simp only [zoneOf, List.mem_cons, List.not_mem_nil, or_false] at hk
    rcases hk with rfl | rfl | rfl | rfl | rfl | rfl <;> simp [h.symm]

theorem tree_one : Tree one cz := tree_of (by decide)
theorem tree_two : Tree two cz := tree_of (by decide)

theorem valid_one : Versioned one cz ∧ Single one cz := by
  obtain ⟨e, h1, h2, -⟩ := C60_verify tree_one
  have : verify one cz = .ok none := by decide +kernel
  rw [this] at h1; cases h1
  exact h2.1 rfl

theorem valid_two : Versioned two cz ∧ Single two cz := by
  obtain ⟨e, h1, h2, -⟩ := C60_verify tree_two
  have : verify two cz = .ok none := by decide +kernel
  rw [this] at h1; cases h1
  exact h2.1 rfl

/-- The calls for the zone: both members, and the group of the second. -/
example : fromZone one one cz false = .ok ([⟨m, memberOwner cz [97], .add, []⟩, ⟨n, memberOwner cz [98], .add, []⟩,
    ⟨n, memberOwner cz [98], .prop, [103]⟩], none) := by decide +kernel

theorem not_multi : ¬ Multi one one cz := by
  obtain ⟨cs, e, h1, -, h2, -⟩ := C60_calls tree_one tree_one valid_one.2 valid_one.2 false
  have : ∃ ds, fromZone one one cz false = .ok (ds, none) := ⟨_, rfl⟩
  obtain ⟨ds, hd⟩ := this
  rw [hd] at h1; cases h1
  intro hm
  exact absurd (h2.2 ⟨rfl, hm⟩) (by simp)

/-- The hypotheses of `C60_order` hold for the second member. -/
example : ∃ cs, fromZone one one cz false = .ok (cs, none) ∧
    List.Sublist [⟨n, memberOwner cz [98], .add, []⟩, ⟨n, memberOwner cz [98], .prop, [103]⟩] cs :=
  ⟨_, rfl, C60_order (j := ⟨memberOwner cz [98], [n], []⟩) (k := ⟨label "group" :: memberOwner cz [98], [], [[1, 103]]⟩) (r := [1, 103])
    tree_one tree_one valid_one.2 valid_one.2 rfl (by decide +kernel) rfl rfl (by simp) rfl⟩

/-- The hypotheses of `C60_update_partial` hold. -/
example : Tree one cz ∧ Versioned one cz ∧ Single one cz ∧ ¬ Multi one one cz := ⟨tree_one, valid_one.1, valid_one.2, not_multi⟩
example : updateCatalog [] db cz one .full ≠ .ub := by decide +kernel

end Catint.Witness
open Catint.Witness in
/-- C60. Finding: a group given by a TXT record of two strings is no reason to reject the catalog zone when it is verified, but it
is an error when it is interpreted. The new version of the zone is then rejected, and the update left for the next time that zones are reloaded
has been changed: it removes the member `m.`, which is in the old version and in the new one, and adds `n.`, which is only in the
rejected one. -/
theorem C60_multistring : Tree two cz ∧ Versioned two cz ∧ Single two cz ∧ HasPtr two (memberOwner cz [97]) m ∧
    ∃ u, updateCatalog [] db cz two .full = .ok (u, some .emalf) ∧
      ∃ u', Catalog.finalize u db conf = .ok u' ∧ Catalog.commit db u' = .ok [(n, ⟨memberOwner cz [98], cz, []⟩)] := by
  refine ⟨tree_two, valid_two.1, valid_two.2, ⟨⟨memberOwner cz [97], [m], []⟩, by decide +kernel, rfl, by simp⟩, ?_⟩
  have : ∃ u, updateCatalog [] db cz two .full = .ok (u, some .emalf) ∧
      (Catalog.finalize u db conf).bind (Catalog.commit db) = .ok [(n, ⟨memberOwner cz [98], cz, []⟩)] := ⟨_, rfl, by decide +kernel⟩
  obtain ⟨u, h1, h2⟩ := this
  refine ⟨u, h1, ?_⟩
  cases hf : Catalog.finalize u db conf with
  | ok u' => rw [hf] at h2; exact ⟨u', rfl, h2⟩
  | err e => rw [hf] at h2; cases h2
  | ub => rw [hf] at h2; cases h2

end Knot
