import Verif.Synth.Lemmas2
/-!
# Lemmas: names are read as their addresses
-/
namespace Knot.Synth
open Sockaddr (Addr Fam Bytes)
open Spec

/-! ## Reverse names -/

theorem decimal_length_cases (b : UInt8) : (decimal b).length = 1 ∨ (decimal b).length = 2 ∨ (decimal b).length = 3 := by
  have := decimal_fact b
  omega

theorem rev4_loop : ∀ (ls : List UInt8) (labels : Nat) (c6 : Bool) (b4 b6 : Bytes), labels + ls.length ≤ 4 → b4.length ≤ 4 * labels →
    b6.length ≤ labels → ∃ (c6' : Bool) (b6' : Bytes), revLoop (ls.map decimal ++ arpa4) labels true c6 b4 b6 =
      .ok (some ⟨arpa4, labels + ls.length, true, c6', ls.reverse.flatMap (fun b => 46 :: decimal b) ++ b4, b6'⟩)
  | [], labels, c6, b4, b6, h1, _, _ => by
    refine ⟨c6, b6, ?_⟩
    simp only [List.length_nil] at h1
    simp only [List.map_nil, List.nil_append, arpa4, revLoop]
    rw [if_neg (by omega)]
    simp
  | l :: ls, labels, c6, b4, b6, h1, h2, h3 => by
    simp only [List.length_cons] at h1
    have hf := decimal_fact l
    have step : ∃ (c6' : Bool) (b6' : Bytes), b6'.length ≤ labels + 1 ∧ revLoop ((l :: ls).map decimal ++ arpa4) labels true c6 b4 b6 =
        revLoop (ls.map decimal ++ arpa4) (labels + 1) true c6' (46 :: decimal l ++ b4) b6' := by
      rw [List.map_cons, List.cons_append, revLoop, if_neg (by omega), if_neg hf.2.2.2.2.1, if_pos (by omega)]
      rcases decimal_length_cases l with h | h
      · rw [if_pos h, if_pos (by omega)]
        exact ⟨c6, decimal l ++ b6, by simp only [List.length_append]; omega, rfl⟩
      · rw [if_neg (by omega), if_pos h, if_pos (by omega)]
        exact ⟨false, b6, by omega, rfl⟩
    obtain ⟨c6', b6', h4, h5⟩ := step
    obtain ⟨c, b, h6⟩ := rev4_loop ls (labels + 1) c6' (46 :: decimal l ++ b4) b6' (by omega)
      (by simp only [List.cons_append, List.length_cons, List.length_append]; omega) h4
    refine ⟨c, b, ?_⟩
    rw [h5, h6]
    simp [List.flatMap_append]; omega

theorem text4_form (bs : List UInt8) (h : bs.length ≤ 4) : text4 bs.length (bs.flatMap fun b => 46 :: decimal b) =
    .ok (dotted (bs ++ List.replicate (4 - bs.length) 0) ++ [0]) := by
  have hlen : ∀ l : List UInt8, 2 * l.length ≤ (l.flatMap fun b => 46 :: decimal b).length := by
    intro l
    induction l with
    | nil => simp
    | cons x l ih =>
      have := (decimal_fact x).2.2.2.2.2.1
      simp only [List.flatMap_cons, List.length_append, List.length_cons]; omega
  have hl := hlen bs
  have d0 : decimal 0 = [48] := by decide
  unfold text4
  rw [if_neg (by omega)]
  dsimp only
  rcases bs with _ | ⟨a, bs⟩
  · decide
  · rw [if_pos (by simp)]
    have hm : ∀ (buf : Bytes) (n : Nat), 2 * n ≤ buf.length → 0 < n →
        buf.tail ++ (List.replicate (buf.length - 2 * n) 255 ++ zero4).drop buf.tail.length = buf.tail ++ zero4.drop (2 * n - 1) := by
      intro buf n h1 h2
      rw [List.drop_append, List.drop_eq_nil_of_le (by simp; omega), List.nil_append, List.length_replicate, List.length_tail,
        show buf.length - 1 - (buf.length - 2 * n) = 2 * n - 1 by omega]
    rw [hm _ _ hl (by simp)]
    rcases bs with _ | ⟨b, _ | ⟨c, _ | ⟨d, _ | ⟨e, bs⟩⟩⟩⟩
    · simp [dotted, join, d0, zero4]
    · simp [dotted, join, d0, zero4]
    · simp [dotted, join, d0, zero4]
    · simp [dotted, join, d0, zero4]
    · simp at h

theorem reverse4 (t : Tpl) (bs : List UInt8) (h : bs.length ≤ 4) : reverseParse t (bs.reverse.map decimal ++ arpa4) =
    .ok (some ⟨dotted (bs ++ List.replicate (4 - bs.length) 0) ++ [0], .inet, bs.length < 4⟩) := by
  obtain ⟨c, b, hr⟩ := rev4_loop bs.reverse 0 true [] [] (by simp; omega) (by simp) (by simp)
  unfold reverseParse
  rw [hr]
  simp only [List.reverse_reverse, List.append_nil, List.length_reverse, Nat.zero_add, Res.bind_ok, Bool.true_and, beq_self_eq_true,
    if_true, text4_form bs h]

theorem rev6_loop : ∀ (cs : Bytes) (labels : Nat) (c4 : Bool) (b4 b6 : Bytes), (∀ c ∈ cs, c ≠ 105) → labels + cs.length ≤ 32 →
    (labels ≤ 4 → b4.length ≤ 2 * labels) → b6.length = labels →
    ∃ (c4' : Bool) (b4' : Bytes), revLoop (cs.map (fun c => [c]) ++ arpa6) labels c4 true b4 b6 =
      .ok (some ⟨arpa6, labels + cs.length, c4', true, b4', cs.reverse ++ b6⟩)
  | [], labels, c4, b4, b6, _, h1, _, _ => by
    refine ⟨c4, b4, ?_⟩
    simp only [List.map_nil, List.nil_append, arpa6, revLoop]
    by_cases h : labels < 32
    · rw [if_neg (by omega)]; simp
    · rw [if_pos h]; simp
  | c :: cs, labels, c4, b4, b6, hc, h1, h2, h3 => by
    simp only [List.length_cons] at h1
    have hne := hc c (by simp)
    have step : ∃ (c4' : Bool) (b4' : Bytes), (labels + 1 ≤ 4 → b4'.length ≤ 2 * (labels + 1)) ∧
        revLoop ((c :: cs).map (fun c => [c]) ++ arpa6) labels c4 true b4 b6 =
        revLoop (cs.map (fun c => [c]) ++ arpa6) (labels + 1) c4' true b4' ([c] ++ b6) := by
      rw [List.map_cons, List.cons_append, revLoop, if_neg (by omega), if_neg (by simpa using hne)]
      by_cases hl : labels < 4
      · rw [if_pos hl, if_pos (by simp), if_pos (by omega)]
        exact ⟨c4, _, fun _ => by simp only [List.cons_append, List.nil_append, List.length_cons]; omega, rfl⟩
      · rw [if_neg hl, if_neg (by simp), if_pos (by omega)]
        exact ⟨false, b4, fun h => by omega, rfl⟩
    obtain ⟨c4', b4', h4, h5⟩ := step
    obtain ⟨c', b', h6⟩ := rev6_loop cs (labels + 1) c4' b4' ([c] ++ b6) (fun x hx => hc x (by simp [hx])) (by omega) h4
      (by simp; omega)
    refine ⟨c', b', ?_⟩
    rw [h5, h6]
    simp; omega

theorem reverse6 (t : Tpl) (ds : Bytes) (hi : ∀ c ∈ ds, c ≠ 105) (h : ds.length ≤ 32) :
    reverseParse t (ds.reverse.map (fun c => [c]) ++ arpa6) =
      .ok (some ⟨text6 t.short (ds ++ List.replicate (32 - ds.length) 48), .inet6, ds.length < 32⟩) := by
  obtain ⟨c, b, hr⟩ := rev6_loop ds.reverse 0 true [] [] (fun c hc => hi c (by simpa using hc)) (by simp; omega) (by simp) (by simp)
  unfold reverseParse
  rw [hr]
  have hne : arpa6 ≠ arpa4 := by decide
  have ht : text6 t.short ds = text6 t.short (ds ++ List.replicate (32 - ds.length) 48) := by
    unfold text6
    have : 32 - (ds ++ List.replicate (32 - ds.length) (48 : UInt8)).length = 0 := by simp; omega
    rw [this]; simp
  simp [hne, ht]

/-! ## Forward names -/

theorem subst_id {fr to : UInt8} {s : Bytes} (h : fr ∉ s) : subst fr to s = s := by
  unfold subst
  induction s with
  | nil => rfl
  | cons c s ih =>
    simp only [List.mem_cons, not_or] at h
    rw [List.map_cons, if_neg (fun e => h.1 e.symm), ih h.2]

theorem subst_back {fr to : UInt8} {s : Bytes} (h : to ∉ s) : subst to fr (subst fr to s) = s := by
  induction s with
  | nil => rfl
  | cons c s ih =>
    simp only [List.mem_cons, not_or] at h
    have hc : c ≠ to := fun e => h.1 e.symm
    simp only [subst, List.map_cons] at ih ⊢
    rw [ih h.2]
    grind

theorem map_fix {f : UInt8 → UInt8} {s : Bytes} (h : s.map f = s) {c : UInt8} (hc : c ∈ s) : f c = c := by
  induction s with
  | nil => cases hc
  | cons d s ih =>
    simp only [List.map_cons, List.cons.injEq] at h
    rcases List.mem_cons.1 hc with rfl | hc
    · exact h.1
    · exact ih h.2 hc

theorem subst_append (fr to : UInt8) (a b : Bytes) : subst fr to (a ++ b) = subst fr to a ++ subst fr to b := by
  simp [subst]

theorem subst_cons_sep (fr to : UInt8) (b : Bytes) : subst fr to (fr :: b) = to :: subst fr to b := by
  simp [subst]

theorem subst_join {sep to : UInt8} : ∀ {gs : List Bytes}, (∀ g ∈ gs, sep ∉ g) → subst sep to (join sep gs) = join to gs
  | [], _ => rfl
  | [g], h => subst_id (h g (by simp))
  | g :: g' :: gs, h => by
    rw [join, subst_append, subst_id (h g (by simp)), subst_cons_sep, subst_join (fun x hx => h x (by simp [hx])), join]

theorem hy_four (s : Bytes) : hyphens 4 s = 4 := by
  rcases s with _ | ⟨c, _ | ⟨d, s⟩⟩ <;> simp [hyphens]

theorem hy_skip {g : Bytes} (h : 45 ∉ g) {n : Nat} (hn : n < 4) (s : Bytes) : hyphens n (g ++ s) = hyphens n s := by
  induction g with
  | nil => rfl
  | cons c g ih =>
    simp only [List.mem_cons, not_or] at h
    have hc : c ≠ 45 := fun e => h.1 e.symm
    rw [← ih h.2, List.cons_append]
    cases g ++ s with
    | nil => simp [hyphens, hc]
    | cons d r => rw [hyphens, if_pos hn, if_neg hc]

theorem hy_sep {g : Bytes} (h : 45 ∉ g) (h0 : g ≠ []) {n : Nat} (hn : n < 4) (s : Bytes) :
    hyphens n (45 :: (g ++ s)) = hyphens (n + 1) (g ++ s) := by
  cases g with
  | nil => exact absurd rfl h0
  | cons d g =>
    simp only [List.mem_cons, not_or] at h
    have hd : d ≠ 45 := fun e => h.1 e.symm
    rw [List.cons_append, hyphens, if_pos hn, if_pos rfl, if_neg hd]
    rcases Nat.lt_or_ge (n + 1) 4 with h4 | h4
    · exact (hy_skip (g := [d]) (by simpa using h.1) h4 (g ++ s)).symm
    · have : n + 1 = 4 := by omega
      rw [this, hy_four, hy_four]

theorem hy_join : ∀ {gs : List Bytes}, gs ≠ [] → (∀ g ∈ gs, 45 ∉ g ∧ g ≠ []) → ∀ {n : Nat}, n < 4 →
    hyphens n (join 45 gs) = min 4 (n + gs.length - 1)
  | [g], _, h, n, hn => by
    have := hy_skip (h g (by simp)).1 hn []
    rw [List.append_nil] at this
    rw [join, this]; simp [hyphens]; omega
  | g :: g' :: gs, _, h, n, hn => by
    obtain ⟨s, hs⟩ := join_ne (sep := 45) g' gs
    rw [join, hy_skip (h g (by simp)).1 hn, hs, hy_sep (h g' (by simp)).1 (h g' (by simp)).2 hn, ← hs]
    rcases Nat.lt_or_ge (n + 1) 4 with h4 | h4
    · rw [hy_join (by simp) (fun x hx => h x (by simp [hx])) h4]
      simp only [List.length_cons]; omega
    · rw [show n + 1 = 4 by omega, hy_four]
      simp only [List.length_cons]; omega

theorem hy_double : ∀ {gs : List Bytes}, gs ≠ [] → (∀ g ∈ gs, 45 ∉ g ∧ g ≠ []) → ∀ {n : Nat}, n < 4 → ∀ s,
    hyphens n (join 45 gs ++ 45 :: 45 :: s) = 4
  | [g], _, h, n, hn, s => by rw [join, hy_skip (h g (by simp)).1 hn, hyphens, if_pos hn, if_pos rfl, if_pos rfl]
  | g :: g' :: gs, _, h, n, hn, s => by
    obtain ⟨r, hs⟩ := join_ne (sep := 45) g' gs
    rw [join, List.append_assoc, hy_skip (h g (by simp)).1 hn, List.cons_append, hs, List.append_assoc,
      hy_sep (h g' (by simp)).1 (h g' (by simp)).2 hn, ← List.append_assoc, ← hs]
    rcases Nat.lt_or_ge (n + 1) 4 with h4 | h4
    · exact hy_double (by simp) (fun x hx => h x (by simp [hx])) h4 s
    · rw [show n + 1 = 4 by omega, hy_four]

/-- A text of an address: what the module reads and writes for it. -/
structure TextOf (fam : Fam) (raw : Bytes) (s : Bytes) : Prop where
  fams : fam = .inet ∨ fam = .inet6
  set : sockaddrSet fam (s ++ [0]) = some ⟨fam, raw, 0⟩
  mem : ∀ c ∈ s, c ≠ 45 ∧ c ≠ 0 ∧ lower c = c
  ne : s ≠ []
  len : s.length ≤ 39
  hy : (hyphens 0 (subst (sepOf fam) 45 s) = 3) ↔ fam = .inet

theorem cstr_end {s : Bytes} (h : 0 ∉ s) (t : Bytes) : cstr (s ++ 0 :: t) = s := by
  unfold cstr
  induction s with
  | nil => simp
  | cons c s ih =>
    simp only [List.mem_cons, not_or] at h
    have hc : c ≠ 0 := fun e => h.1 e.symm
    simp only [List.cons_append, List.takeWhile_cons]
    simp only [ne_eq, hc, not_false_eq_true, decide_true, if_true]
    congr 1
    exact ih h.2

theorem mem_join {sep c : UInt8} : ∀ {gs : List Bytes}, c ∈ join sep gs → c = sep ∨ ∃ g ∈ gs, c ∈ g
  | [], h => by simp [join] at h
  | [g], h => .inr ⟨g, by simp, h⟩
  | g :: g' :: gs, h => by
    simp only [join, List.mem_append, List.mem_cons] at h
    rcases h with h | h | h
    · exact .inr ⟨g, by simp, h⟩
    · exact .inl h
    · rcases mem_join h with h | ⟨x, hx, h⟩
      · exact .inl h
      · exact .inr ⟨x, by simp [hx], h⟩

theorem join_length {sep : UInt8} {k : Nat} : ∀ {gs : List Bytes}, gs ≠ [] → (∀ g ∈ gs, g.length ≤ k) →
    (join sep gs).length + 1 ≤ (k + 1) * gs.length
  | [g], _, h => by have := h g (by simp); simp only [join, List.length_cons, List.length_nil]; omega
  | g :: g' :: gs, _, h => by
    have h1 := h g (by simp)
    have h2 := join_length (sep := sep) (gs := g' :: gs) (by simp) (fun x hx => h x (by simp [hx]))
    simp only [join, List.length_append, List.length_cons] at h2 ⊢
    rw [Nat.mul_add]
    omega

theorem textOf4 (a b c d : UInt8) : TextOf .inet [a, b, c, d] (dotted [a, b, c, d]) := by
  have hm : ∀ g ∈ [a, b, c, d].map decimal, 46 ∉ g ∧ 45 ∉ g ∧ g ≠ [] ∧ g.length ≤ 3 ∧ 0 ∉ g ∧ g.map lower = g := by
    intro g hg
    obtain ⟨x, _, rfl⟩ := List.mem_map.1 hg
    have := decimal_fact x
    refine ⟨this.2.1, this.2.2.1, ?_, this.2.2.2.2.2.2.1, this.2.2.2.1, this.2.2.2.2.2.2.2.1⟩
    intro e; rw [e] at this; simp at this
  have hmem : ∀ c' ∈ dotted [a, b, c, d], c' ≠ 45 ∧ c' ≠ 0 ∧ lower c' = c' := by
    intro x hx
    rcases mem_join hx with rfl | ⟨g, hg, h⟩
    · decide
    · have := hm g hg
      refine ⟨fun e => this.2.1 (e ▸ h), fun e => this.2.2.2.2.1 (e ▸ h), ?_⟩
      exact map_fix this.2.2.2.2.2 h
  refine ⟨.inl rfl, ?_, hmem, ?_, ?_, ?_⟩
  · have : cstr (dotted [a, b, c, d] ++ [0]) = dotted [a, b, c, d] := cstr_end (fun h => (hmem 0 h).2.1 rfl) []
    simp only [sockaddrSet, this, pton4_dotted, Option.map_some]
  · obtain ⟨s, hs⟩ := join_ne (sep := 46) (decimal a) ([b, c, d].map decimal)
    unfold dotted
    rw [List.map_cons, hs]
    intro e
    rw [List.append_eq_nil_iff] at e
    exact (hm (decimal a) (by simp)).2.2.1 e.1
  · have := join_length (sep := 46) (k := 3) (gs := [a, b, c, d].map decimal) (by simp) (fun g hg => (hm g hg).2.2.2.1)
    simp only [List.length_map, List.length_cons, List.length_nil] at this
    unfold dotted; omega
  · have : subst (sepOf .inet) 45 (dotted [a, b, c, d]) = join 45 ([a, b, c, d].map decimal) :=
      subst_join (fun g hg => (hm g hg).1)
    rw [this, hy_join (by simp) (fun g hg => ⟨(hm g hg).2.1, (hm g hg).2.2.1⟩) (by decide)]
    simp

theorem good_len {w : Bytes} {xy : UInt8 × UInt8} (h : Good w xy) : w.length ≤ 4 := by
  have h1 := h.1
  unfold group at h1
  split at h1
  · cases h1
  · omega

theorem textOf6 (short : Bool) (raw : Bytes) (h : raw.length = 16) :
    ∃ s, TextOf .inet6 raw s ∧ text6 short (raw.flatMap fun b => [nibble (b.toNat / 16), nibble (b.toNat % 16)]) = s ++ [0] := by
  rcases raw with _ | ⟨a0, _ | ⟨a1, _ | ⟨b0, _ | ⟨b1, _ | ⟨c0, _ | ⟨c1, _ | ⟨d0, _ | ⟨d1, _ | ⟨e0, _ | ⟨e1, _ | ⟨f0, _ | ⟨f1, _ | ⟨g0, _ |
    ⟨g1, _ | ⟨h0, _ | ⟨h1, _ | ⟨i, r⟩⟩⟩⟩⟩⟩⟩⟩⟩⟩⟩⟩⟩⟩⟩⟩⟩ <;> simp only [List.length_cons, List.length_nil] at h <;> try omega
  have hd : [a0, a1, b0, b1, c0, c1, d0, d1, e0, e1, f0, f1, g0, g1, h0, h1].flatMap
      (fun b => [nibble (b.toNat / 16), nibble (b.toNat % 16)]) = digits a0 a1 ++ digits b0 b1 ++ digits c0 c1 ++ digits d0 d1 ++
      digits e0 e1 ++ digits f0 f1 ++ digits g0 g1 ++ digits h0 h1 := by simp [digits]
  rw [hd]
  have hm : ∀ {l : List (Bytes × UInt8 × UInt8)}, (∀ g ∈ l, Good g.1 g.2) → ∀ g ∈ l.map (·.1), 45 ∉ g ∧ g ≠ [] ∧ 58 ∉ g ∧ g.length ≤ 4 ∧
      ∀ c ∈ g, c ≠ 45 ∧ c ≠ 0 ∧ lower c = c := by
    intro l hl g hg
    obtain ⟨x, hx, rfl⟩ := List.mem_map.1 hg
    have := hl x hx
    exact ⟨fun h => (this.2.2 _ h).2.2.1 rfl, this.2.1, fun h => (this.2.2 _ h).1 rfl, good_len this,
      fun c hc => ⟨(this.2.2 c hc).2.2.1, (this.2.2 c hc).2.2.2.1, (this.2.2 c hc).2.2.2.2⟩⟩
  have hmj : ∀ {l : List (Bytes × UInt8 × UInt8)}, (∀ g ∈ l, Good g.1 g.2) → ∀ c ∈ join 58 (l.map (·.1)), c ≠ 45 ∧ c ≠ 0 ∧ lower c = c := by
    intro l hl c hc
    rcases mem_join hc with rfl | ⟨g, hg, h⟩
    · decide
    · exact (hm hl g hg).2.2.2.2 c h
  have hset : ∀ s, (∀ c ∈ s, c ≠ 45 ∧ c ≠ 0 ∧ lower c = c) → sockaddrSet .inet6 (s ++ [0]) = (pton6 s).map fun r => ⟨.inet6, r, 0⟩ := by
    intro s hs
    have : cstr (s ++ [0]) = s := cstr_end (fun h => (hs 0 h).2.1 rfl) []
    simp only [sockaddrSet, this]
  obtain ⟨l, r, hl, hr, hc | hc⟩ := text6_form short a0 a1 b0 b1 c0 c1 d0 d1 e0 e1 f0 f1 g0 g1 h0 h1
  · obtain ⟨h8, ho, ht⟩ := hc
    have l0 : l.map (·.1) ≠ [] := by intro e; rw [List.map_eq_nil_iff] at e; rw [e] at h8; cases h8
    refine ⟨join 58 (l.map (·.1)), ⟨.inr rfl, ?_, hmj hl, ?_, ?_, ?_⟩, ht⟩
    · rw [hset _ (hmj hl), pton6_full hl h8, ho]; rfl
    · cases l with
      | nil => cases h8
      | cons x l =>
        obtain ⟨s, hs⟩ := join_ne (sep := 58) x.1 (l.map (·.1))
        rw [List.map_cons, hs]
        intro e
        rw [List.append_eq_nil_iff] at e
        exact (hl x (by simp)).2.1 e.1
    · have := join_length (sep := 58) l0 (fun g hg => (hm hl g hg).2.2.2.1)
      rw [List.length_map, h8] at this; omega
    · have : subst (sepOf .inet6) 45 (join 58 (l.map (·.1))) = join 45 (l.map (·.1)) := subst_join (fun g hg => (hm hl g hg).2.2.1)
      rw [this, hy_join l0 (fun g hg => ⟨(hm hl g hg).1, (hm hl g hg).2.1⟩) (by decide), List.length_map, h8]
      simp
  · obtain ⟨l0, r0, h7, _, ho, ht⟩ := hc
    have l1 : l.map (·.1) ≠ [] := by simpa using l0
    have r1 : r.map (·.1) ≠ [] := by simpa using r0
    have hmem : ∀ c ∈ join 58 (l.map (·.1)) ++ 58 :: 58 :: join 58 (r.map (·.1)), c ≠ 45 ∧ c ≠ 0 ∧ lower c = c := by
      intro c hc
      simp only [List.mem_append, List.mem_cons] at hc
      rcases hc with h | rfl | rfl | h
      · exact hmj hl c h
      · decide
      · decide
      · exact hmj hr c h
    refine ⟨_, ⟨.inr rfl, ?_, hmem, by simp, ?_, ?_⟩, ht⟩
    · rw [hset _ hmem, pton6_short hl hr l0 r0 h7, ho]; rfl
    · have e1 := join_length (sep := 58) l1 (fun g hg => (hm hl g hg).2.2.2.1)
      have e2 := join_length (sep := 58) r1 (fun g hg => (hm hr g hg).2.2.2.1)
      rw [List.length_map] at e1 e2
      simp only [List.length_append, List.length_cons]; omega
    · have : subst (sepOf .inet6) 45 (join 58 (l.map (·.1)) ++ 58 :: 58 :: join 58 (r.map (·.1))) =
          join 45 (l.map (·.1)) ++ 45 :: 45 :: join 45 (r.map (·.1)) := by
        rw [subst_append, show sepOf .inet6 = 58 from rfl, subst_cons_sep, subst_cons_sep, subst_join (fun g hg => (hm hl g hg).2.2.1),
          subst_join (fun g hg => (hm hr g hg).2.2.1)]
      rw [this, hy_double l1 (fun g hg => ⟨(hm hl g hg).1, (hm hl g hg).2.1⟩) (by decide)]
      simp

end Knot.Synth
