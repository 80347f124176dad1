import Verif.Nsecchain.Lemmas4
/-!
# Lemmas: the flags, and exactly what creating does
-/
namespace Knot.Nsecchain
open Dname (Name lowerName canonCmp)

theorem create_spec {ttl : Nat} {names : List Name} {h : Heap} (tr : Tree names h) (hb : NoBare names h) :
    ∃ h' a l, names = a :: l ∧ Auth (h a) ∧ create ttl names h = .ok (h', false) ∧
      (∀ x, x ∉ names → h' x = h x) ∧ (∀ x ∈ names, ¬ Auth (h x) → h' x = clean (h x)) ∧
      (∀ x ∈ names, Auth (h x) → h' x = setNext ttl (h x) (after a (members h names) x)) := by
  obtain ⟨a, l, hn, ha⟩ := tr.apex
  have hnd := sorted_nodup tr.sorted
  rw [hn] at hnd
  obtain ⟨h1, last, cur', skip', e1, e2, e3, e4, e5, e6, e7⟩ := createLoop_spec ttl l h a a false hnd
    (fun x hx => hb.at (by rw [hn]; simp [hx])) (fun _ => rfl)
  have hm : members h names = a :: members h l := by rw [hn]; simp [members, ha]
  have hndm : (a :: members h l).Nodup := by
    have := hnd.filter (fun x => decide (Auth (h x)))
    rw [← hm, hn]; exact this
  have hlastm : last ∈ a :: members h l := List.mem_of_getLast? e3
  have hlastA : last ∈ names ∧ Auth (h last) := by
    rw [← hm] at hlastm
    obtain ⟨q1, q2⟩ := List.mem_filter.mp hlastm
    exact ⟨q1, by simpa using q2⟩
  have hA : ∀ x, x ∈ names → Auth (h x) → x ∈ a :: members h l := fun x q1 q2 => by
    rw [← hm]; exact List.mem_filter.mpr ⟨q1, by simpa using q2⟩
  -- the state of the apex after the loop
  have ha1 : Auth (h1 a) := by
    cases hml : members h l with
    | nil =>
      rw [hml] at e3
      have : a = last := by simpa using e3
      rw [this, e7]; exact hlastA.2
    | cons y B =>
      rw [e6 [] a y B (by rw [hml]; rfl)]
      rw [auth_congr (setNext_same ttl (h a) y)]
      exact ha
  have hprev : (if skip' then last else cur') = last := by
    cases skip' with
    | true => rfl
    | false => exact e2 rfl
  refine ⟨put h1 last (setNext ttl (h1 last) a), a, l, hn, ha, ?_, ?_, ?_, ?_⟩
  · rw [hn]
    simp only [create, e1, hprev]
    rw [connect_spec ttl h1 last a (fun _ q => absurd q ha1.2), if_pos ha1]
  · intro x hx
    rw [put_other (fun (e : x = last) => hx (e ▸ hlastA.1)), e4 x (by rw [← hn]; exact hx)]
  · intro x hx hna
    rw [put_other (fun (e : x = last) => hna (e ▸ hlastA.2))]
    refine e5 x ?_ hna
    rw [hn] at hx
    rcases List.mem_cons.mp hx with q | q
    · rw [q] at hna; exact absurd ha hna
    · exact q
  · intro x hx hax
    obtain ⟨A, B, e⟩ := List.append_of_mem (hA x hx hax)
    have hxA : x ∉ A := by
      rw [e] at hndm
      exact fun q => (List.nodup_append.mp hndm).2.2 x q x (by simp) rfl
    rw [hm, e, after_split hxA]
    cases B with
    | nil =>
      rw [e] at e3
      have : x = last := by simpa using e3
      rw [this, put_same, e7]; rfl
    | cons y B =>
      have hne : x ≠ last := by
        intro q
        rw [e] at e3 hndm
        rw [List.getLast?_append, List.getLast?_cons_cons] at e3
        have : last ∈ y :: B := by
          cases hg : (y :: B).getLast? with
          | none => simp at hg
          | some z =>
            rw [hg] at e3
            have : z = last := by simpa using e3
            rw [← this]; exact List.mem_of_getLast? hg
        have h2 := (List.nodup_cons.mp (List.nodup_append.mp hndm).2.1).1
        exact h2 (q ▸ this)
      rw [put_other hne, e6 A x y B e]; rfl

/-! ## The flags -/

theorem adjustOne_other {apex : Name} {h : Heap} {x y : Name} (hne : y ≠ x) : adjustOne apex h x y = h y := by
  unfold adjustOne
  split
  · exact put_other hne
  · split <;> exact put_other hne

theorem suffix_tail {apex x : Name} (h : apex <:+ x) (hne : x ≠ apex) : apex <:+ x.tail ∧ x = x.head?.toList ++ x.tail ∧
    x.length = x.tail.length + 1 := by
  obtain ⟨t, rfl⟩ := h
  cases t with
  | nil => exact absurd rfl hne
  | cons b t => exact ⟨⟨t, rfl⟩, rfl, by simp⟩

/-- The recurrence the flags follow. -/
theorem undercut_step {apex x : Name} {h : Heap} (hs : apex <:+ x) (hne : x ≠ apex) :
    UnderCut apex h x ↔ UnderCut apex h x.tail ∨ (x.tail ≠ apex ∧ 2 ∈ (h x.tail).types) := by
  obtain ⟨h1, _, h3⟩ := suffix_tail hs hne
  have hlen : x.tail ≠ apex ↔ apex.length < x.tail.length := by
    constructor
    · intro q
      have := h1.length_le
      refine Nat.lt_of_le_of_ne this fun e => q (h1.eq_of_length e).symm
    · intro q e
      rw [e] at q; omega
  constructor
  · rintro ⟨k, k1, k2, k3⟩
    by_cases hk : k = 1
    · right
      rw [hk] at k3 k2
      rw [List.drop_one] at k3
      exact ⟨hlen.mpr (by omega), k3⟩
    · left
      refine ⟨k - 1, by omega, by omega, ?_⟩
      rw [← List.drop_one, List.drop_drop]
      have : 1 + (k - 1) = k := by omega
      rw [this]; exact k3
  · rintro (⟨k, k1, k2, k3⟩ | ⟨k1, k2⟩)
    · refine ⟨1 + k, by omega, by omega, ?_⟩
      rw [← List.drop_drop, List.drop_one]; exact k3
    · refine ⟨1, by omega, ?_, by rw [List.drop_one]; exact k2⟩
      have := hlen.mp k1
      omega

theorem undercut_apex {apex : Name} {h : Heap} : ¬ UnderCut apex h apex := by
  rintro ⟨k, k1, k2, _⟩
  omega

/-- The flags are right. -/
def Right (apex : Name) (h : Heap) (x : Name) (n : Node) : Prop :=
  n = { h x with nonauth := n.nonauth, deleg := n.deleg } ∧ (n.nonauth = true ↔ UnderCut apex h x) ∧
  (n.deleg = true ↔ x ≠ apex ∧ 2 ∈ (h x).types ∧ ¬ UnderCut apex h x)

theorem parent_first {apex x : Name} (hs : apex <:+ x) (hne : x ≠ apex) : canonCmp x.tail x = .lt := by
  obtain ⟨_, h2, h3⟩ := suffix_tail hs hne
  cases x with
  | nil => simp at h3
  | cons b t => exact C04_parent_first t [b] (by simp)

theorem adjust_spec {apex : Name} {names : List Name} {h : Heap} (cl : Closed apex names) :
    ∀ (post pre : List Name) (g : Heap), names = pre ++ post → (∀ x ∈ pre, Right apex h x (g x)) →
      (∀ x, x ∉ pre → g x = h x) →
      (∀ x ∈ names, Right apex h x (adjust apex post g x)) ∧ (∀ x, x ∉ names → adjust apex post g x = h x) := by
  intro post
  induction post with
  | nil =>
    intro pre g hn h1 h2
    rw [List.append_nil] at hn
    rw [hn]
    exact ⟨h1, h2⟩
  | cons c post ih =>
    intro pre g hn h1 h2
    have hnd := sorted_nodup cl.sorted
    have hcN : c ∈ names := by rw [hn]; simp
    have hcpre : c ∉ pre := by
      rw [hn] at hnd
      exact fun q => (List.nodup_append.mp hnd).2.2 c q c (by simp) rfl
    have hstep : Right apex h c (adjustOne apex g c c) := by
      have hg : g c = h c := h2 c hcpre
      unfold adjustOne
      simp only [hg]
      by_cases hap : c = apex
      · have hu : ¬ UnderCut apex h c := by rw [hap]; exact undercut_apex
        rw [if_neg (by simp [hap]), if_neg (by simp [hap]), put_same]
        exact ⟨rfl, by simp [hu], by simp [hap]⟩
      · have hpar : c.tail ∈ pre := by
          have q := cl.parents c hcN hap
          have hlt := parent_first (cl.under c hcN) hap
          rw [hn] at q
          rcases List.mem_append.mp q with q | q
          · exact q
          · exfalso
            rcases List.mem_cons.mp q with q | q
            · rw [q] at hlt; exact canon_irrefl c hlt
            · have hs := (sorted_split cl.sorted hn).2 _ q
              exact canon_asymm hlt hs
        obtain ⟨p1, p2, p3⟩ := h1 c.tail hpar
        have hrec := undercut_step (h := h) (cl.under c hcN) hap
        have hiff : ((g c.tail).deleg = true ∨ (g c.tail).nonauth = true) ↔ UnderCut apex h c := by
          rw [p2, p3, hrec]
          by_cases q : UnderCut apex h c.tail <;> simp [q]
        by_cases hu : UnderCut apex h c
        · rw [if_pos ⟨hap, hiff.mpr hu⟩, put_same]
          exact ⟨rfl, by simp [hu], by simp [hu]⟩
        · rw [if_neg (fun q => hu (hiff.mp q.2))]
          by_cases h2 : 2 ∈ (h c).types
          · rw [if_pos ⟨h2, hap⟩, put_same]
            exact ⟨rfl, by simp [hu], by simp [hu, h2, hap]⟩
          · rw [if_neg (fun q => h2 q.1), put_same]
            exact ⟨rfl, by simp [hu], by simp [h2]⟩
    have := ih (pre ++ [c]) (adjustOne apex g c) (by rw [hn]; simp) ?_ ?_
    · exact this
    · intro x hx
      by_cases hxc : x = c
      · rw [hxc]; exact hstep
      · rw [adjustOne_other hxc]
        refine h1 x ?_
        rcases List.mem_append.mp hx with q | q
        · exact q
        · exact absurd (by simpa using q) hxc
    · intro x hx
      simp only [List.mem_append, not_or] at hx
      rw [adjustOne_other (by simpa using hx.2)]
      exact h2 x hx.1

end Knot.Nsecchain
