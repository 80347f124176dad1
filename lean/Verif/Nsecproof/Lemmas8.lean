import Verif.Nsecproof.Lemmas7
/-!
# NSEC proofs: the records are those of the zone
-/
namespace Knot.Nsecproof
open Dname (Name canonCmp lowerName)
open Nsecchain (Included present lastIn noNsec)
open Answer

/-- NSEC records of the zone, each once. -/
def Own (z : Zone) (l : List Name) : Prop := l.Nodup ∧ ∀ x ∈ l, x ∈ z.names ∧ (z.node x).nsec ≠ []

theorem own_nil (z : Zone) : Own z [] := ⟨by simp, by simp⟩

theorem own_put {z : Zone} {ans : List Rec} {acc : List Name} {x : Name} (h : Own z acc) (hx : x ∈ z.names) :
    Own z (putNsec z ans acc x) := by
  unfold putNsec
  split
  · exact h
  · split
    · exact h
    · next h1 h2 =>
      simp only [Bool.or_eq_true, List.contains_iff_mem, not_or] at h2
      refine ⟨?_, fun y hy => ?_⟩
      · rw [List.nodup_append]
        refine ⟨h.1, by simp, fun a ha b hb => ?_⟩
        simp only [List.mem_singleton] at hb
        rintro rfl
        exact h2.2 (hb ▸ ha)
      · rcases List.mem_append.mp hy with k | k
        · exact h.2 y k
        · simp only [List.mem_singleton] at k
          rw [k]; exact ⟨hx, h1⟩

theorem lastIn_mem {h : Nsecchain.Heap} {l : List Name} {p : Name} (hp : lastIn h l = some p) : p ∈ l := by
  have := List.mem_of_find?_eq_some hp
  simpa using this

theorem nodePrev_mem {z : Zone} {x p : Name} (h : nodePrev z x = some p) : p ∈ z.names := by
  unfold nodePrev at h
  cases e : lastIn z.node (z.names.filter (fun y => canonCmp y x == .lt)) with
  | some y =>
    rw [e] at h
    simp only [Option.some_or, Option.some.injEq] at h
    rw [← h]
    exact (List.mem_filter.mp (lastIn_mem e)).1
  | none =>
    rw [e] at h
    exact lastIn_mem h

theorem nsecPrevious_mem {z : Zone} : ∀ (fuel : Nat) (x p : Name), x ∈ z.names → nsecPrevious z fuel x = .ok p → p ∈ z.names
  | 0, _, _, _, h => by simp [nsecPrevious] at h
  | fuel + 1, x, p, hx, h => by
    unfold nsecPrevious at h
    split at h
    · simp only [Res.ok.injEq] at h
      exact h ▸ hx
    · split at h
      · simp at h
      · next y hy => exact nsecPrevious_mem fuel y p (nodePrev_mem hy) h

theorem covering_mem {z : Zone} {n p : Name} (h : covering z n = .ok p) : p ∈ z.names := by
  unfold covering findPrev at h
  split at h
  · simp at h
  · next y hy =>
    refine nsecPrevious_mem _ y p ?_ h
    split at hy
    · exact nodePrev_mem hy
    · cases e : (z.names.filter (fun x => canonCmp x n == .lt)).getLast? with
      | some a =>
        rw [e] at hy
        simp only [Option.some_or, Option.some.injEq] at hy
        rw [← hy]
        exact (List.mem_filter.mp (List.mem_of_getLast? e)).1
      | none =>
        rw [e] at hy
        cases k : z.names.head? with
        | none => rw [k] at hy; simp at hy
        | some a => rw [k] at hy; exact nodePrev_mem hy

theorem own_covering {z : Zone} (wf : Wf z) {ans : List Rec} {acc : List Name} {w : Name} {l : List Name} (h : Own z acc)
    (hl : putCovering z ans acc w = .ok l) : Own z l := by
  unfold putCovering at hl
  rcases find_spec wf w with ⟨h1, h2⟩ | ⟨h1, h2, h3⟩ | ⟨h1, h2, c, h3, h4⟩
  · rw [h2] at hl; simp at hl
  · rw [h3] at hl
    simp only [Res.bind_ok, Res.ok.injEq] at hl
    rw [← hl]; exact own_put h h2
  · rw [h4] at hl
    simp only [Res.bind_ok] at hl
    cases e : covering z w with
    | ok p =>
      rw [e] at hl
      simp only [Res.bind_ok, Res.ok.injEq] at hl
      rw [← hl]; exact own_put h (covering_mem e)
    | err _ => rw [e] at hl; simp at hl
    | ub => rw [e] at hl; simp at hl

theorem own_nxdomain {z : Zone} (wf : Wf z) {ans : List Rec} {n : Name} {l : List Name}
    (hl : nxdomain z ans n = .ok l) : Own z l := by
  unfold nxdomain at hl
  rcases find_spec wf n with ⟨h1, h2⟩ | ⟨h1, h2, h3⟩ | ⟨h1, h2, c, h3, h4⟩
  · rw [h2] at hl; simp at hl
  · rw [h3] at hl; simp at hl
  · rw [h4] at hl
    simp only [Res.bind_ok] at hl
    cases e : covering z n with
    | ok p =>
      rw [e] at hl
      simp only [Res.bind_ok] at hl
      split at hl
      · simp at hl
      · exact own_covering wf (own_put (own_nil z) (covering_mem e)) hl
    | err _ => rw [e] at hl; simp at hl
    | ub => rw [e] at hl; simp at hl

theorem own_nodata {z : Zone} {ans : List Rec} {n x : Name} {l : List Name} (hx : x ∈ z.names)
    (hl : nodata z ans n x = .ok l) : Own z l := by
  unfold nodata at hl
  split at hl
  · cases e : covering z n with
    | ok p =>
      rw [e] at hl
      simp only [Res.bind_ok, Res.ok.injEq] at hl
      rw [← hl]; exact own_put (own_nil z) (covering_mem e)
    | err _ => rw [e] at hl; simp at hl
    | ub => rw [e] at hl; simp at hl
  · simp only [Res.ok.injEq] at hl
    rw [← hl]; exact own_put (own_nil z) hx

theorem own_wildcards {z : Zone} {ans : List Rec} : ∀ (l : List (Name × Name)) (acc l' : List Name), Own z acc →
    wildcards z ans l acc = .ok l' → Own z l'
  | [], acc, l', h, hl => by
    simp only [wildcards, Res.ok.injEq] at hl
    exact hl ▸ h
  | (w, n) :: l, acc, l', h, hl => by
    unfold wildcards at hl
    split at hl
    · cases e : covering z n with
      | ok p =>
        rw [e] at hl
        simp only [Res.bind_ok] at hl
        exact own_wildcards l _ l' (own_put h (covering_mem e)) hl
      | err _ => rw [e] at hl; simp at hl
      | ub => rw [e] at hl; simp at hl
    · exact own_wildcards l acc l' h hl

theorem prove_own {z : Zone} (wf : Wf z) {q : Req} {ls : List Link} {m : Name} {st : St} {σ : State}
    {n : Name} (f : Fin z q n ls m st σ) (hnf : σ ≠ .follow) {p : Denial} (hp : prove z (st, σ) = .ok p) :
    Own z p.nsec ∧ ∀ d, p.ds = some d → 43 ∈ (z.node d).types ∧ ∃ n, Cut z d n := by
  rcases f.spec with ⟨a, _⟩ | ⟨a, b⟩ | ⟨a, b⟩ | ⟨a, b⟩ | ⟨a, x, d, b1, b2, b3⟩
  · exact absurd a hnf
  · subst a
    simp only [prove, Res.ok.injEq] at hp
    rw [← hp]; exact ⟨own_nil z, by simp⟩
  · subst a
    simp only [prove] at hp
    cases e : nxdomain z st.answer st.name with
    | ok l =>
      rw [e] at hp
      simp only [Res.bind_ok, Res.ok.injEq] at hp
      rw [← hp]; exact ⟨own_nxdomain wf e, by simp⟩
    | err _ => rw [e] at hp; simp at hp
    | ub => rw [e] at hp; simp at hp
  · subst a
    obtain ⟨s, e1, e2⟩ := f.node rfl
    simp only [prove, e1] at hp
    cases e : nodata z st.answer st.name s with
    | ok l =>
      rw [e] at hp
      simp only [Res.bind_ok, Res.ok.injEq] at hp
      rw [← hp]; exact ⟨own_nodata e2.1 e, by simp⟩
    | err _ => rw [e] at hp; simp at hp
    | ub => rw [e] at hp; simp at hp
  · subst a
    obtain ⟨d', e', hl⟩ := (ends_cases b3).2.2.2 rfl
    cases e'
    obtain ⟨n0, hc⟩ := referral_deleg hl
    simp only [prove, b1, b2, Res.bind_ok, dpSecurity] at hp
    split at hp
    · next h43 =>
      simp only [Res.ok.injEq] at hp
      rw [← hp]
      refine ⟨own_nil z, fun d' h => ?_⟩
      cases h
      exact ⟨h43, n0, hc⟩
    · cases e : nodata z st.answer st.name d with
      | ok l =>
        rw [e] at hp
        simp only [Res.bind_ok, Res.ok.injEq] at hp
        rw [← hp]; exact ⟨own_nodata hc.1.1 e, by simp⟩
      | err _ => rw [e] at hp; simp at hp
      | ub => rw [e] at hp; simp at hp

theorem denial_own {z : Zone} (wf : Wf z) {q : Req} (hu : Unlimited q) {n : Name} (hn : z.apex <:+ n)
    (hreg : Regular z q.type n) {p : Denial} (hp : denial z q n = .ok p) :
    Own z p.nsec ∧ ∀ d, p.ds = some d → 43 ∈ (z.node d).types ∧ ∃ n, Cut z d n := by
  obtain ⟨ls, m, st, σ, r, _, h1, h2, h3, h4, h5, h6, h7, h8, h9, h10⟩ :=
    solve_fin wf hu hn (fun ls m h => (hreg ls m h).2) (fun ls m h => (hreg ls m h).1)
  have hnf : σ ≠ .follow := h8 ▸ (ends_cases h9).1
  rw [h1] at hp
  cases e : prove z (st, σ) with
  | ok d =>
    rw [e] at hp
    simp only [Res.bind_ok] at hp
    cases e2 : wildcards z st.answer st.wild d.nsec with
    | ok l =>
      rw [e2] at hp
      simp only [Res.bind_ok, Res.ok.injEq] at hp
      obtain ⟨k1, k2⟩ := prove_own wf h6 hnf e
      rw [← hp]
      exact ⟨own_wildcards _ _ _ k1 e2, k2⟩
    | err _ => rw [e2] at hp; simp at hp
    | ub => rw [e2] at hp; simp at hp
  | err _ => rw [e] at hp; simp at hp
  | ub => rw [e] at hp; simp at hp

/-! ## The answer section -/

theorem extend_mem {acc : List Rec} {l : Link} (ht : l.type = 5 ∨ l.type = 39) {o s : Name} {u : Nat}
    (h : .rr o s u ∈ extend acc l) : .rr o s u ∈ acc ∨ s = l.source ∧ u = l.type := by
  unfold extend at h
  split at h
  · next h39 =>
    split at h
    · rcases List.mem_append.mp h with h | h
      · exact .inl h
      · simp at h
    · rcases List.mem_append.mp h with h | h
      · rcases List.mem_append.mp h with h | h
        · exact .inl h
        · simp only [List.mem_singleton, Rec.rr.injEq] at h
          exact .inr ⟨h.2.1, by rw [h.2.2, h39]⟩
      · simp at h
  · rcases List.mem_append.mp h with h | h
    · exact .inl h
    · simp only [List.mem_singleton, Rec.rr.injEq] at h
      exact .inr ⟨h.2.1, by omega⟩

theorem foldl_mem {z : Zone} {t : Nat} {o s : Name} {u : Nat} : ∀ (ls : List Link) (acc : List Rec),
    (∀ l ∈ ls, Step z t l) → .rr o s u ∈ ls.foldl extend acc → .rr o s u ∈ acc ∨ ∃ l ∈ ls, s = l.source ∧ u = l.type
  | [], acc, _, h => .inl h
  | l :: ls, acc, hs, h => by
    have ht : l.type = 5 ∨ l.type = 39 := by
      have := hs l (by simp)
      cases this <;> simp
    rcases foldl_mem ls _ (fun l hl => hs l (by simp [hl])) h with h | ⟨l', h1, h2⟩
    · rcases extend_mem ht h with h | h
      · exact .inl h
      · exact .inr ⟨l, by simp, h⟩
    · exact .inr ⟨l', by simp [h1], h2⟩

theorem step_own {z : Zone} (hs : Signed z) {t : Nat} {l : Link} (h : Step z t l) :
    l.source ∈ z.names ∧ Owns z l.source l.type ∧ Auth z l.type l.source := by
  cases h with
  | cname h =>
    cases h with
    | alias h1 h2 h3 h4 =>
      refine ⟨h1.1, h3, fun d hd hds => ?_⟩
      exfalso
      obtain ⟨e, _⟩ := h2 d hd hds
      have h5 : 5 ∈ (z.node d).types := by
        rw [e]
        rcases h3 with h | h | h
        · exact h
        · omega
        · omega
      have := hs.cname d hd.1 (fun d' b1 b2 => ⟨(h2 d' b1 (e ▸ b2)).1.trans e.symm, rfl⟩) h5 2 hd.2.2
      omega
  | dname h =>
    cases h with
    | dname h1 h2 h3 h4 =>
      refine ⟨h3.1, h4, fun d hd hds => ?_⟩
      obtain ⟨x, hx⟩ := cut_exists _ ⟨d, hd, hds.trans h3.2.1⟩
      exact absurd hx (h2 x)

theorem ends_own {z : Zone} (hs : Signed z) {t : Nat} (ht : t ≠ 255) {n : Name} {ls : List Link} {m : Name} {ans : List Rec} {σ : State}
    {rc : Nat} {au : Option (Name × Nat)} (hp : Path z t n ls m) (he : Ends z t ls m ans σ rc au) {o s : Name} {u : Nat}
    (h : .rr o s u ∈ ans) : s ∈ z.names ∧ Owns z s u ∧ Auth z u s := by
  have hst := fun l hl => (path_steps hp l hl).1
  have hrec : .rr o s u ∈ records ls → s ∈ z.names ∧ Owns z s u ∧ Auth z u s := by
    intro h
    rcases foldl_mem ls [] hst h with h | ⟨l, h1, rfl, rfl⟩
    · simp at h
    · exact step_own hs (hst l h1)
  have hext : ∀ {l}, Step z t l → .rr o s u ∈ extend (records ls) l → s ∈ z.names ∧ Owns z s u ∧ Auth z u s := by
    intro l hl h
    rcases extend_mem (by cases hl <;> simp) h with h | ⟨rfl, rfl⟩
    · exact hrec h
    · exact step_own hs hl
  cases he with
  | data hl =>
    rcases List.mem_append.mp h with h | h
    · exact hrec h
    · simp only [List.mem_singleton, Rec.rr.injEq] at h
      obtain ⟨_, rfl, rfl⟩ := h
      cases hl with
      | data h1 h2 h3 h4 =>
        unfold Match at h4
        rw [if_neg ht] at h4
        obtain ⟨rfl, h4⟩ := h4
        exact ⟨h1.1, h4, h2⟩
  | long h1 h2 h3 =>
    split at h
    · exact hrec h
    · rcases List.mem_append.mp h with h | h
      · exact hrec h
      · simp only [List.mem_singleton, Rec.rr.injEq] at h
        obtain ⟨_, rfl, rfl⟩ := h
        cases h1 with
        | dname a1 a2 a3 a4 =>
          refine ⟨a3.1, a4, fun d hd hds => ?_⟩
          obtain ⟨x, hx⟩ := cut_exists _ ⟨d, hd, hds.trans a3.2.1⟩
          exact absurd hx (a2 x)
  | made _ hl _ _ _ => exact hext hl h
  | wild hl _ _ _ _ _ => exact hext hl h
  | _ => exact hrec h

theorem agrees_self {z : Zone} (hs : Signed z) {q : Req} (ht : q.type ≠ 255) (hu : Unlimited q) {n : Name} (hn : z.apex <:+ n)
    (hreg : Regular z q.type n) {ls : List Link} {m : Name} {st : St} {r : Resp} {p : Denial} (w : Whole z q n ls m st r p) :
    Agrees z z r p := by
  obtain ⟨k1, k2⟩ := denial_own hs.wf hu hn hreg w.den
  refine ⟨rfl, fun x hx => ⟨(k1.2 x hx).1, rfl⟩, fun d hd => ?_, fun o s u h => ?_⟩
  · obtain ⟨a, n0, hc⟩ := k2 d hd
    refine ⟨hc.1.1, a, fun x hx hxd => ⟨?_, rfl⟩⟩
    have := hc.2.2 x hx (hxd.trans hc.2.1)
    exact List.IsSuffix.eq_of_length hxd (Nat.le_antisymm hxd.length_le this.length_le)
  · obtain ⟨a, b, c⟩ := ends_own hs ht w.path w.ends h
    exact ⟨a, b, c, rfl, fun _ => rfl⟩

theorem ds_same {z z' : Zone} (hs : Signed z) (hs' : Signed z') {q : Req} {n : Name} {ls : List Link} {m : Name} {st : St} {r : Resp}
    {p : Denial} (w : Whole z q n ls m st r p) (ag : Agrees z z' r p) {d : Name} (hr : r.state = .deleg)
    (hd : r.authority = some (d, 2)) :
    (43 ∈ (z.node d).types ↔ p.ds = some d) ∧ (43 ∈ (z'.node d).types ↔ 43 ∈ (z.node d).types) := by
  obtain ⟨d', e, hl⟩ := (ends_cases w.ends).2.2.2 hr
  rw [hd] at e
  cases e
  obtain ⟨k1, k2⟩ := w.known.deleg hr d hl
  obtain ⟨n0, hc⟩ := referral_deleg hl
  by_cases h43 : 43 ∈ (z.node d).types
  · refine ⟨by simp [h43, k1 h43], ?_⟩
    simp [h43, (ag.ds d (k1 h43)).2.1]
  · obtain ⟨a, b⟩ := k2 h43
    refine ⟨by simp [h43, a], ?_⟩
    obtain ⟨b1, b2⟩ := agree_there ag b
    have hi := cut_included hs.wf hc
    have h0 : (z.node d).nsec ≠ [] := by
      obtain ⟨_, x, hx, _⟩ := next_spec hs hc.1.1 hi
      rw [hx]; simp
    rw [← present_ds, ← present_ds, present_same hs hs' hc.1.1 b1 h0 b2 (by omega)]

end Knot.Nsecproof
