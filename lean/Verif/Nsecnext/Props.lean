import Verif.Nsecnext.Lemmas
import Verif.Dname.LemmasText
/-!
# C40: the successor used in minimally covering NSEC records
-/
namespace Knot.Nsecnext
open Dname

theorem lex_prefix {α} {c : α → α → Ordering} (hc : ∀ a, c a a = .eq) (w a b : List α) :
    lexCmp c (w ++ a) (w ++ b) = lexCmp c a b := by
  induction w with
  | nil => rfl
  | cons x w ih => simp [lexCmp, hc, ih]

theorem lex_lt_cases {α} {c : α → α → Ordering} (hc : ∀ a b, c a b = .eq ↔ a = b) (u v : List α)
    (h : lexCmp c u v = .lt) :
    (∃ t0 t, v = u ++ t0 :: t) ∨
      (∃ w a b u' v', u = w ++ a :: u' ∧ v = w ++ b :: v' ∧ c a b = .lt) := by
  induction u generalizing v with
  | nil => cases v with
    | nil => simp [lexCmp] at h
    | cons b t => exact .inl ⟨b, t, rfl⟩
  | cons a u ih => cases v with
    | nil => simp [lexCmp] at h
    | cons b v =>
      simp only [lexCmp] at h
      cases hab : c a b with
      | lt => exact .inr ⟨[], a, b, u, v, rfl, rfl, hab⟩
      | gt => rw [hab] at h; simp at h
      | eq =>
        rw [hab] at h
        have := (hc a b).mp hab
        subst this
        rcases ih v h with ⟨t0, t, rfl⟩ | ⟨w, x, y, u', v', rfl, rfl, hxy⟩
        · exact .inl ⟨t0, t, rfl⟩
        · exact .inr ⟨a :: w, x, y, u', v', rfl, rfl, hxy⟩

theorem lex_at {α} {c : α → α → Ordering} (hc : ∀ a, c a a = .eq) {w : List α} {a b : α}
    {s t : List α} (h : c a b = .lt) : lexCmp c (w ++ a :: s) (w ++ b :: t) = .lt := by
  rw [lex_prefix hc]; simp [lexCmp, h]

theorem labCmp_eq (a b : Label) : lexCmp byteCmp a b = .eq ↔ a = b :=
  lexCmp_eq (fun _ _ => byteCmp_eq) a b

theorem labCmp_self (a : Label) : lexCmp byteCmp a a = .eq := (labCmp_eq a a).mpr rfl

theorem canon_at {l l' : Label} (h : lexCmp byteCmp l l' = .lt) (p p' q : Name) :
    canonCmp (p ++ l :: q) (p' ++ l' :: q) = .lt := by
  unfold canonCmp
  simp only [List.reverse_append, List.reverse_cons, List.append_assoc]
  exact lex_at labCmp_self h

theorem canon_suffix (p p' q : Name) : canonCmp (p ++ q) (p' ++ q) = canonCmp p p' := by
  unfold canonCmp
  simp only [List.reverse_append]
  exact lex_prefix labCmp_self _ _ _

theorem canon_below (p : Name) (q : Name) (hp : p ≠ []) : canonCmp q (p ++ q) = .lt := by
  have := canon_suffix [] p q
  rw [List.nil_append] at this
  rw [this]; unfold canonCmp
  cases h : p.reverse with
  | nil => simp at h; exact absurd h hp
  | cons => simp [lexCmp]

theorem canon_lt_cases (a x : Name) (h : canonCmp a x = .lt) :
    (∃ t0 t, x = t ++ t0 :: a) ∨
      (∃ w l l' p p', a = p ++ l :: w ∧ x = p' ++ l' :: w ∧ lexCmp byteCmp l l' = .lt) := by
  rcases lex_lt_cases labCmp_eq _ _ h with ⟨t0, t, hx⟩ | ⟨w, l, l', u, v, ha, hx, hlt⟩
  · refine .inl ⟨t0, t.reverse, ?_⟩
    have := congrArg List.reverse hx
    simpa using this
  · refine .inr ⟨w.reverse, l, l', u.reverse, v.reverse, ?_, ?_, hlt⟩
    · have := congrArg List.reverse ha; simpa using this
    · have := congrArg List.reverse hx; simpa using this

theorem all_bytes {p : UInt8 → Prop} (h : ∀ n : Fin 256, p (UInt8.ofNat n)) (c : UInt8) : p c := by
  have := h ⟨c.toNat, c.toNat_lt⟩
  simpa using this

theorem nextOctet_gt (c : UInt8) : c ≠ 0xff → byteCmp c (nextOctet c) = .lt := by
  refine all_bytes (p := fun c => c ≠ 0xff → byteCmp c (nextOctet c) = .lt) ?_ c
  decide +kernel

theorem nextOctet_lower (c : UInt8) :
    ¬ (65 ≤ c.toNat ∧ c.toNat ≤ 90) → ¬ (65 ≤ (nextOctet c).toNat ∧ (nextOctet c).toNat ≤ 90) := by
  refine all_bytes (p := fun c => ¬ (65 ≤ c.toNat ∧ c.toNat ≤ 90) →
    ¬ (65 ≤ (nextOctet c).toNat ∧ (nextOctet c).toNat ≤ 90)) ?_ c
  decide +kernel

theorem bump_lt (a s t : Label) (c : UInt8) (hc : c ≠ 0xff) :
    lexCmp byteCmp (a ++ c :: s) (a ++ nextOctet c :: t) = .lt :=
  lex_at byteCmp_self (nextOctet_gt c hc)

theorem append_lt (a y : Label) (hy : y ≠ []) : lexCmp byteCmp a (a ++ y) = .lt := by
  have := lex_prefix byteCmp_self a [] y
  rw [List.append_nil] at this
  rw [this]
  cases y with
  | nil => exact absurd rfl hy
  | cons => rfl

theorem increased_lower {apex d n : Name} (h : Increased apex d n) (hl : Lower d) : Lower n := by
  induction h with
  | apex => exact hl
  | octet hq hc =>
    intro l hm x hx
    rcases List.mem_cons.mp hm with rfl | hm
    · simp only [List.mem_append, List.mem_cons, List.mem_replicate] at hx
      rcases hx with hx | rfl | ⟨_, rfl⟩
      · exact hl _ (List.mem_cons_self) x (by simp [hx])
      · exact nextOctet_lower _ (hl _ (List.mem_cons_self) _ (by simp))
      · decide
    · exact hl l (List.mem_cons_of_mem _ hm) x hx
  | append hq hk hn =>
    intro l hm x hx
    rcases List.mem_cons.mp hm with rfl | hm
    · simp only [List.mem_append, List.mem_replicate, List.mem_singleton] at hx
      rcases hx with ⟨_, rfl⟩ | rfl <;> decide
    · exact hl l (List.mem_cons_of_mem _ hm) x hx
  | strip _ _ _ ih => exact ih fun l hm => hl l (List.mem_cons_of_mem _ hm)

theorem increased_after {apex d n : Name} (h : Increased apex d n) :
    InZone apex n ∧ (n = apex ∨ ∀ p, After (p ++ d) n) := by
  induction h with
  | apex => exact ⟨⟨[], rfl⟩, .inl rfl⟩
  | @octet a c k q p hq hc =>
    refine ⟨⟨_ :: p, by rw [hq]; rfl⟩, .inr fun r => ?_⟩
    exact canon_at (bump_lt _ _ _ _ hc) r [] q
  | @append k q p hq hk hn =>
    refine ⟨⟨_ :: p, by rw [hq]; rfl⟩, .inr fun r => ?_⟩
    exact canon_at (append_lt _ _ (by simp)) r [] q
  | @strip k _ _ _ _ _ _ ih =>
    refine ⟨ih.1, ih.2.imp id fun h r => ?_⟩
    have := h (r ++ [List.replicate k 0xff])
    simpa using this

theorem ff_max (k : Nat) (m : Label) (h : lexCmp byteCmp (List.replicate k 0xff) m = .lt) :
    k < m.length := by
  rcases lex_lt_cases (fun _ _ => byteCmp_eq) _ _ h with ⟨t0, t, rfl⟩ | ⟨w, a, b, u, v, hu, hv, hab⟩
  · simp
  · have : a = 0xff := by
      have : a ∈ List.replicate k (0xff : UInt8) := by rw [hu]; simp
      exact (List.mem_replicate.mp this).2
    subst this
    revert hab
    refine all_bytes (p := fun b => byteCmp 255 b = .lt → k < m.length) ?_ b
    intro n hn
    exfalso; revert n; decide +kernel

theorem increased_apex_last {apex d n : Name} (h : Increased apex d n) (hn : n = apex)
    (hv : LabelsOk d) :
    ∀ (r : Name) (x : Name), Valid x → InZone apex x → After (r ++ d) x →
      (∀ t, x ≠ t ++ d) → False := by
  induction h with
  | apex => rintro r x _ ⟨p, hp⟩ _ hx; exact hx p hp
  | octet hq hc =>
    intro _ _ _ _ _ _
    have := congrArg List.length hn
    rw [hq] at this; simp at this; omega
  | append hq _ _ =>
    intro _ _ _ _ _ _
    have := congrArg List.length hn
    rw [hq] at this; simp at this; omega
  | @strip k q p n hq hk _ ih =>
    intro r x hvx hz hlt hx
    refine ih hn hv.tail (r ++ [List.replicate k 0xff]) x hvx hz (by simpa using hlt) ?_
    rintro t rfl
    rcases List.eq_nil_or_concat t with rfl | ⟨t', m, rfl⟩
    · have h1 := canon_below (r ++ [List.replicate k 0xff]) q (by simp)
      rw [List.append_assoc] at h1
      unfold After at hlt
      simp only [List.singleton_append, List.nil_append] at h1 hlt
      rw [canonCmp_swap, h1] at hlt
      cases hlt
    · simp only [List.concat_eq_append, List.append_assoc, List.singleton_append] at *
      cases hm : lexCmp byteCmp (List.replicate k 0xff) m with
      | lt =>
        have h1 := ff_max _ _ hm
        have h2 := (hvx.1 m (by simp)).2
        have h3 := hvx.2
        have h4 := nameLen_append t' (m :: q)
        have h5 := nameLen_pos t'
        simp only [nameLen, List.length_replicate] at h4 hk
        omega
      | eq =>
        have := (labCmp_eq _ _).mp hm
        exact hx t' (by rw [this])
      | gt =>
        have : lexCmp byteCmp m (List.replicate k 0xff) = .lt := by
          rw [lexCmp_swap byteCmp_swap, hm]; rfl
        have h1 := canon_at this t' r q
        unfold After at hlt
        rw [canonCmp_swap, h1] at hlt
        cases hlt

/-- What the increase of a name does when its first labels cannot be increased. -/
theorem increased_strip {apex : Name} {p : Name} {l : Label} {q n z : Name} (hz : q = z ++ apex)
    (hl : l ≠ List.replicate l.length 0xff)
    (hp : ∀ (i : Nat) (h : i < p.length), p[i] = List.replicate p[i].length 0xff ∧
      (p[i].length = 63 ∨ nameLen (p.drop i ++ l :: q) = 255))
    (h : Increased apex (p ++ l :: q) n) :
    ∃ a c k, l = a ++ c :: List.replicate k 0xff ∧ c ≠ 0xff ∧
      n = (a ++ nextOctet c :: List.replicate k 0) :: q := by
  induction p with
  | nil =>
    simp only [List.nil_append] at h
    generalize hd : l :: q = d at h
    cases h with
    | apex =>
      have := congrArg List.length hd; rw [hz] at this; simp at this; omega
    | @octet a c k q' _ _ hc =>
      simp only [List.cons.injEq] at hd
      exact ⟨a, c, k, hd.1, hc, by rw [hd.2]⟩
    | append _ _ _ =>
      simp only [List.cons.injEq] at hd
      exact absurd (by rw [hd.1]; simp) hl
    | strip _ _ _ =>
      simp only [List.cons.injEq] at hd
      exact absurd (by rw [hd.1]; simp) hl
  | cons m p ih =>
    have h0 := hp 0 (by simp)
    simp only [List.getElem_cons_zero, List.drop_zero, List.cons_append] at h0
    simp only [List.cons_append] at h
    generalize hd : m :: (p ++ l :: q) = d at h
    cases h with
    | apex =>
      have := congrArg List.length hd; rw [hz] at this; simp at this; omega
    | @octet a c k q' _ _ hc =>
      simp only [List.cons.injEq] at hd
      rw [hd.1] at h0
      have h1 : c ∈ List.replicate (a ++ c :: List.replicate k (0xff : UInt8)).length (0xff : UInt8) := by
        rw [← h0.1]; simp
      exact absurd (List.mem_replicate.mp h1).2 hc
    | @append k q' _ _ hk hlen =>
      simp only [List.cons.injEq] at hd
      obtain ⟨rfl, rfl⟩ := hd
      simp only [List.length_replicate] at h0
      omega
    | strip _ _ h =>
      simp only [List.cons.injEq] at hd
      obtain ⟨rfl, rfl⟩ := hd
      exact ih (fun i hi => hp (i + 1) (by simp; omega)) h

end Knot.Nsecnext

namespace Knot
open Dname Nsecnext

/-- C40. For every lower-case name of the zone the result is a legal lower-case name of the
zone that comes after it, or the apex; nothing is read or written outside the buffers. -/
theorem C40_successor (d apex : Name) (r s : List UInt8) (hv : Valid d) (hl : Lower d)
    (hz : InZone apex d) :
    ∃ n, next (wire d ++ r) (wire apex ++ s) = .ok (wire n) ∧ Valid n ∧ Lower n ∧ InZone apex n ∧
      (n = apex ∨ After d n) := by
  by_cases hs : nameLen d ≤ 253
  · refine ⟨[0] :: d, next_short _ r hv hs, ?_, ?_, ?_, .inr (canon_below [[0]] d (by simp))⟩
    · refine ⟨?_, by simp [nameLen]; omega⟩
      intro x hx
      rcases List.mem_cons.mp hx with rfl | hx
      · simp
      · exact hv.1 x hx
    · intro l hm x hx
      rcases List.mem_cons.mp hm with rfl | hm
      · rw [List.mem_singleton.mp hx]; decide
      · exact hl l hm x hx
    · obtain ⟨p, rfl⟩ := hz; exact ⟨[0] :: p, rfl⟩
  · obtain ⟨n, h1, h2, h3⟩ := next_long r s hv hz (by omega)
    refine ⟨n, h1, h3, increased_lower h2 hl, (increased_after h2).1, ?_⟩
    exact (increased_after h2).2.imp id fun h => h []

/-- C40. Unless the name is within one octet of the length limit, the result is the name with
the label `\000` in front, and it is the immediate successor: every legal name after the given
one is the result or comes after the result. So the NSEC record covers no name at all. -/
theorem C40_immediate (d : Name) (apex r : List UInt8) (hv : Valid d) (hs : nameLen d ≤ 253) :
    next (wire d ++ r) apex = .ok (wire ([0] :: d)) ∧
    ∀ x, Valid x → After d x → x = [0] :: d ∨ After ([0] :: d) x := by
  refine ⟨next_short _ r hv hs, fun x hx hlt => ?_⟩
  rcases canon_lt_cases d x hlt with ⟨t0, t, rfl⟩ | ⟨w, l, l', p, p', rfl, rfl, hll⟩
  · have h1 := (hx.1 t0 (by simp)).1
    cases t0 with
    | nil => simp at h1
    | cons b t0 =>
      by_cases hb : b :: t0 = [0]
      · rw [hb]
        cases t with
        | nil => exact .inl rfl
        | cons y t => exact .inr (canon_below (y :: t) ([0] :: d) (by simp))
      · right
        refine canon_at (p := []) (p' := t) ?_ d
        simp only [lexCmp]
        have : byteCmp 0 b = .lt ∨ b = 0 := by
          refine all_bytes (p := fun b => byteCmp 0 b = .lt ∨ b = 0) ?_ b
          decide +kernel
        rcases this with h | rfl
        · rw [h]
        · rw [byteCmp_self]
          cases t0 with
          | nil => simp at hb
          | cons => rfl
  · exact .inr (canon_at hll ([0] :: p) p' w)

/-- C40. When the apex is returned for another name, no legal name of the zone comes after the
given one, so the apex closes the chain. -/
theorem C40_last (d apex : Name) (r s : List UInt8) (hv : Valid d) (hz : InZone apex d)
    (h : next (wire d ++ r) (wire apex ++ s) = .ok (wire apex)) :
    ∀ x, Valid x → InZone apex x → ¬ After d x := by
  intro x hx hxz hlt
  by_cases hs : nameLen d ≤ 253
  · rw [next_short _ r hv hs] at h
    simp only [Res.ok.injEq] at h
    have h1 := congrArg List.length h
    rw [wire_length, wire_length] at h1
    obtain ⟨p, rfl⟩ := hz
    have := nameLen_suffix p apex
    simp only [nameLen] at h1
    omega
  · obtain ⟨n, h1, h2, h3⟩ := next_long r s hv hz (by omega)
    rw [h] at h1
    simp only [Res.ok.injEq] at h1
    have hok : LabelsOk apex := by
      obtain ⟨p, rfl⟩ := hz; exact fun y hy => hv.1 y (by simp [hy])
    have : n = apex := by
      refine wire_inj (r := []) (s := []) h3.1 hok ?_
      rw [h1]
    subst this
    refine increased_apex_last h2 rfl hv.1 [] x hx hxz hlt ?_
    rintro t rfl
    have h4 := nameLen_append t d
    have h5 := hx.2
    cases t with
    | nil =>
      unfold After at hlt
      rw [List.nil_append, (canonCmp_eq d d).mpr rfl] at hlt; cases hlt
    | cons y t =>
      have h6 := (hx.1 y (by simp)).1
      have h7 := nameLen_pos t
      simp only [nameLen] at h4
      omega

/-- C40. Exactly what is returned for names of 254 or 255 octets. -/
theorem C40_long (d apex : Name) (r s : List UInt8) (hv : Valid d) (hz : InZone apex d)
    (hs : 254 ≤ nameLen d) :
    ∃ n, next (wire d ++ r) (wire apex ++ s) = .ok (wire n) ∧ Increased apex d n :=
  let ⟨n, h1, h2, _⟩ := next_long r s hv hz hs
  ⟨n, h1, h2⟩

/-- C40 (finding). For names of 254 or 255 octets whose first labels cannot be increased the
claim fails: if `l.q` is the first part that can, all the names whose label at that place
starts by `l` and goes on are between the name and its "successor", whether they exist in the
zone or not. -/
theorem C40_gap (p : Name) (l : Label) (q apex : Name) (r s : List UInt8)
    (hv : Valid (p ++ l :: q)) (hz : InZone apex q) (hs : 254 ≤ nameLen (p ++ l :: q))
    (hl : l ≠ List.replicate l.length 0xff)
    (hp : ∀ (i : Nat) (h : i < p.length), p[i] = List.replicate p[i].length 0xff ∧
      (p[i].length = 63 ∨ nameLen (p.drop i ++ l :: q) = 255)) :
    ∃ n, next (wire (p ++ l :: q) ++ r) (wire apex ++ s) = .ok (wire n) ∧
      ∀ y : Label, y ≠ [] → ∀ t : Name, Between (p ++ l :: q) (t ++ (l ++ y) :: q) n := by
  obtain ⟨z, hz⟩ := hz
  obtain ⟨n, h1, h2, _⟩ := next_long r s hv ⟨p ++ l :: z, by rw [hz, List.append_assoc, List.cons_append]⟩ hs
  refine ⟨n, h1, fun y hy t => ?_⟩
  obtain ⟨a, c, k, rfl, hc, rfl⟩ := increased_strip hz hl hp h2
  refine ⟨canon_at (append_lt _ _ hy) p t q, ?_⟩
  refine canon_at (p := t) (p' := []) ?_ q
  rw [List.append_assoc, List.cons_append]
  exact bump_lt _ _ _ _ hc

/-- The hypotheses of `C40_successor` and `C40_immediate` for `www.example.`. -/
example : Valid [[119, 119, 119], [101, 120]] ∧ Lower [[119, 119, 119], [101, 120]] ∧
    InZone [[101, 120]] [[119, 119, 119], [101, 120]] ∧ nameLen [[119, 119, 119], [101, 120]] ≤ 253 :=
  ⟨⟨by decide, by decide⟩, by simp [Lower], ⟨[[119, 119, 119]], rfl⟩, by decide⟩

/-- `C40_gap` at work: a query for four labels of 0xff octets below `aa.ex.` in the zone `ex.`
yields an NSEC record that denies `aab.ex.`. -/
example : ∃ n, next (wire ((List.replicate 55 0xff :: List.replicate 3 (List.replicate 63 0xff)) ++
      [97, 97] :: [[101, 120]]) ++ []) (wire [[101, 120]] ++ []) = .ok (wire n) ∧
    Between ((List.replicate 55 0xff :: List.replicate 3 (List.replicate 63 0xff)) ++
      [97, 97] :: [[101, 120]]) [[97, 97, 98], [101, 120]] n := by
  have ⟨n, h1, h2⟩ := C40_gap (List.replicate 55 0xff :: List.replicate 3 (List.replicate 63 0xff))
    [97, 97] [[101, 120]] [[101, 120]] [] [] ⟨by decide +kernel, by decide +kernel⟩ ⟨[], rfl⟩
    (by decide +kernel) (by decide +kernel) (by decide +kernel)
  exact ⟨n, h1, h2 [98] (by simp) []⟩

/-- The hypotheses of `C40_last`: the greatest name of the root zone. -/
example : ∃ d, Valid d ∧ nameLen d = 255 ∧ InZone [] d ∧ next (wire d) (wire []) = .ok (wire []) := by
  refine ⟨List.replicate 61 0xff :: List.replicate 3 (List.replicate 63 0xff), ?_, by decide +kernel,
    ⟨_, (List.append_nil _).symm⟩, by decide +kernel⟩
  constructor <;> decide +kernel

end Knot
