import Verif.Nsecproof.Lemmas2
/-!
# NSEC proofs: the records put in the response
-/
namespace Knot.Nsecproof
open Dname (Name canonCmp lowerName)
open Nsecchain (Included present lastIn noNsec)
open Answer

theorem inNsec_iff {n : Nsecchain.Node} : inNsec n = true ↔ Included n := by
  rw [← Nsecchain.noNsec_included]
  unfold inNsec noNsec
  cases n.nonauth <;> simp

theorem lastIn_spec {h : Nsecchain.Heap} {l : List Name} (hs : l.Pairwise lt) (he : ∃ y ∈ l, Included (h y)) :
    ∃ p, lastIn h l = some p ∧ p ∈ l ∧ Included (h p) ∧ ∀ y ∈ l, Included (h y) → y = p ∨ lt y p := by
  unfold lastIn
  cases hf : l.reverse.find? (fun x => !noNsec (h x)) with
  | none =>
    obtain ⟨y, hy, hi⟩ := he
    have := List.find?_eq_none.mp hf y (by simpa using hy)
    rw [(Nsecchain.noNsec_included _).mpr hi] at this
    simp at this
  | some p =>
    obtain ⟨h1, as, bs, h2, h3⟩ := List.find?_eq_some_iff_append.mp hf
    have hl : l = bs.reverse ++ p :: as.reverse := by
      have := congrArg List.reverse h2
      simpa using this
    have hpi : Included (h p) := (Nsecchain.noNsec_included _).mp (by simpa using h1)
    refine ⟨p, rfl, by rw [hl]; simp, hpi, fun y hy hyi => ?_⟩
    rw [hl] at hy hs
    rcases List.mem_append.mp hy with h | h
    · exact .inr ((List.pairwise_append.mp hs).2.2 y h p (by simp))
    · rcases List.mem_cons.mp h with h | h
      · exact .inl h
      · have := h3 y (by simpa using h)
        rw [(Nsecchain.noNsec_included _).mpr hyi] at this
        simp at this

theorem apex_included {z : Zone} (hs : Signed z) : Included (z.node z.apex) := by
  refine owns_included ?_ (.inl hs.wf.soa : Owns z z.apex 6)
  refine nonauth_false hs.wf hs.wf.apex (fun d h1 h2 => ?_)
  have := hs.wf.closed.under d h1.1
  exact List.IsSuffix.eq_of_length h2 (Nat.le_antisymm h2.length_le this.length_le)

theorem nodePrev_spec {z : Zone} (hs : Signed z) {x : Name} (hx : z.apex <:+ x) (hne : x ≠ z.apex) :
    ∃ p, nodePrev z x = some p ∧ p ∈ z.names ∧ Included (z.node p) ∧ lt p x ∧
      ∀ y ∈ z.names, Included (z.node y) → lt y x → y = p ∨ lt y p := by
  obtain ⟨p, h1, h2, h3, h4⟩ := lastIn_spec (h := z.node) (l := z.names.filter (fun y => canonCmp y x == .lt))
    (List.Pairwise.filter _ hs.names.sorted)
    ⟨z.apex, List.mem_filter.mpr ⟨hs.wf.apex, by simpa using lt_suffix hx (Ne.symm hne)⟩, apex_included hs⟩
  obtain ⟨h5, h6⟩ := List.mem_filter.mp h2
  refine ⟨p, by simp [nodePrev, h1], h5, h3, by simpa using h6, fun y hy hi hlt => ?_⟩
  exact h4 y (List.mem_filter.mpr ⟨hy, by simpa using hlt⟩) hi

/-- The NSEC that covers a name not in the chain is found. -/
theorem covering_spec {z : Zone} (hs : Signed z) {m : Name} (hm : z.apex <:+ m)
    (hni : m ∈ z.names → ¬ Included (z.node m)) : ∃ p q, covering z m = .ok p ∧ Gap z p q m := by
  have hne : m ≠ z.apex := fun e => hni (e ▸ hs.wf.apex) (e ▸ apex_included hs)
  unfold covering findPrev
  by_cases hmn : m ∈ z.names
  · rw [if_pos hmn]
    obtain ⟨p, h1, h2, h3, h4, h5⟩ := nodePrev_spec hs hm hne
    obtain ⟨q, g⟩ := gap_of_last hs h2 h3 h4 hni h5
    refine ⟨p, q, ?_, g⟩
    simp [h1, nsecPrevious, inNsec_iff.mpr h3]
  · rw [if_neg hmn]
    have hap : z.apex ∈ z.names.filter (fun x => canonCmp x m == .lt) :=
      List.mem_filter.mpr ⟨hs.wf.apex, by simpa using lt_suffix hm (Ne.symm hne)⟩
    obtain ⟨p0, hp0⟩ : ∃ p, (z.names.filter (fun x => canonCmp x m == .lt)).getLast? = some p := by
      cases e : (z.names.filter (fun x => canonCmp x m == .lt)).getLast? with
      | some p => exact ⟨p, rfl⟩
      | none =>
        rw [List.getLast?_eq_none_iff] at e
        rw [e] at hap; simp at hap
    obtain ⟨ys, hys⟩ := List.getLast?_eq_some_iff.mp hp0
    have hpm : p0 ∈ z.names.filter (fun x => canonCmp x m == .lt) := by rw [hys]; simp
    obtain ⟨hp1, hp2⟩ := List.mem_filter.mp hpm
    have hp2 : lt p0 m := by simpa using hp2
    have hmax : ∀ d ∈ z.names, lt d m → d = p0 ∨ lt d p0 := by
      intro d hd hdn
      have hm : d ∈ z.names.filter (fun x => canonCmp x m == .lt) := List.mem_filter.mpr ⟨hd, by simpa using hdn⟩
      have hs := List.Pairwise.filter (fun x => canonCmp x m == .lt) hs.names.sorted
      rw [hys] at hm hs
      rcases List.mem_append.mp hm with h | h
      · right
        exact (List.pairwise_append.mp hs).2.2 d h p0 (by simp)
      · left; simpa using h
    simp only [hp0, Option.some_or, Res.bind_ok]
    by_cases hi : Included (z.node p0)
    · obtain ⟨q, g⟩ := gap_of_last hs hp1 hi hp2 hni (fun y hy _ h => hmax y hy h)
      refine ⟨p0, q, ?_, g⟩
      simp [nsecPrevious, inNsec_iff.mpr hi]
    · have hpa : p0 ≠ z.apex := fun e => hi (e ▸ apex_included hs)
      obtain ⟨p, h1, h2, h3, h4, h5⟩ := nodePrev_spec hs (hs.wf.closed.under p0 hp1) hpa
      obtain ⟨q, g⟩ := gap_of_last hs h2 h3 (lt_trans h4 hp2) hni (fun y hy hyi h => by
        rcases hmax y hy h with e | e
        · exact absurd (e ▸ hyi) hi
        · exact h5 y hy hyi e)
      refine ⟨p, q, ?_, g⟩
      have hf : inNsec (z.node p0) = false := by
        cases e : inNsec (z.node p0) with
        | false => rfl
        | true => exact absurd (inNsec_iff.mp e) hi
      rw [show z.names.length + 2 = (z.names.length + 1) + 1 from rfl, nsecPrevious, hf]
      simp only [Bool.false_eq_true, if_false, h1]
      simp [nsecPrevious, inNsec_iff.mpr h3]

/-- The NSEC is in the response. -/
def There (ans : List Rec) (l : List Name) (x : Name) : Prop := x ∈ l ∨ ∃ o, .rr o x 47 ∈ ans

theorem inAnswer_mem {ans : List Rec} {x : Name} (h : inAnswer ans x = true) : ∃ o, .rr o x 47 ∈ ans := by
  have key : ∀ r : Rec, (match r with
      | .rr _ y u => y == x && u == 47
      | .synth .. => false) = true → ∃ o, r = .rr o x 47 := by
    intro r hr
    cases r with
    | synth => simp at hr
    | rr o y u =>
      simp only [Bool.and_eq_true, beq_iff_eq] at hr
      exact ⟨o, by rw [hr.1, hr.2]⟩
  unfold inAnswer at h
  cases ans with
  | nil => simp at h
  | cons r l =>
    simp only [Bool.or_eq_true, Bool.and_eq_true] at h
    rcases h with h | ⟨_, h⟩
    · obtain ⟨o, e⟩ := key r h
      exact ⟨o, by rw [e]; simp⟩
    · obtain ⟨r', h1, h2⟩ := List.any_eq_true.mp h
      obtain ⟨o, e⟩ := key r' h2
      exact ⟨o, by rw [← e]; simp [h1]⟩

theorem putNsec_there {z : Zone} {ans : List Rec} {acc : List Name} {x : Name} (h : (z.node x).nsec ≠ []) :
    There ans (putNsec z ans acc x) x := by
  unfold putNsec
  rw [if_neg h]
  by_cases hi : inAnswer ans x = true
  · exact .inr (inAnswer_mem hi)
  · by_cases hc : acc.contains x = true
    · simp [hi]
      simp at hc
      simp [hc, There]
    · simp at hc
      simp [hi, hc, There]

theorem putNsec_mono {z : Zone} {ans : List Rec} {acc : List Name} {x y : Name} (h : y ∈ acc) : y ∈ putNsec z ans acc x := by
  unfold putNsec
  split
  · exact h
  · split
    · exact h
    · simp [h]

theorem There.mono {ans : List Rec} {l l' : List Name} {x : Name} (h : There ans l x) (hl : ∀ y ∈ l, y ∈ l') : There ans l' x :=
  h.imp (hl x) id

theorem gap_nsec {z : Zone} {p q m : Name} (g : Gap z p q m) : (z.node p).nsec ≠ [] := by
  obtain ⟨x, hx, _⟩ := g.link
  rw [hx]; simp

theorem wildcards_spec {z : Zone} (hs : Signed z) (ans : List Rec) : ∀ (l : List (Name × Name)) (acc : List Name),
    (∀ w n, (w, n) ∈ l → z.apex <:+ n ∧ (¬ Wild n → Wild w → n ∈ z.names → ¬ Included (z.node n))) →
    ∃ l', wildcards z ans l acc = .ok l' ∧ (∀ y ∈ acc, y ∈ l') ∧
      ∀ w n, (w, n) ∈ l → ¬ Wild n → Wild w → ∃ p q, Gap z p q n ∧ There ans l' p := by
  intro l
  induction l with
  | nil => intro acc _; exact ⟨acc, rfl, fun _ h => h, by simp⟩
  | cons a l ih =>
    obtain ⟨w, n⟩ := a
    intro acc h
    obtain ⟨h1, h2⟩ := h w n (by simp)
    have hr : ∀ w n, (w, n) ∈ l → z.apex <:+ n ∧ (¬ Wild n → Wild w → n ∈ z.names → ¬ Included (z.node n)) :=
      fun w n hm => h w n (by simp [hm])
    unfold wildcards
    by_cases hc : ¬ Wild n ∧ Wild w
    · obtain ⟨p, q, h3, g⟩ := covering_spec hs h1 (h2 hc.1 hc.2)
      obtain ⟨l', k1, k2, k3⟩ := ih (putNsec z ans acc p) hr
      rw [if_pos (by simp [wildcard_false.mpr hc.1, wildcard_iff.mpr hc.2]), h3]
      refine ⟨l', k1, fun y hy => k2 y (putNsec_mono hy), fun w' n' hm a b => ?_⟩
      rcases List.mem_cons.mp hm with e | hm
      · cases e
        exact ⟨p, q, g, (putNsec_there (gap_nsec g)).mono k2⟩
      · exact k3 w' n' hm a b
    · obtain ⟨l', k1, k2, k3⟩ := ih acc hr
      rw [if_neg (by
        intro hh
        simp only [Bool.and_eq_true, Bool.not_eq_true'] at hh
        exact hc ⟨wildcard_false.mp hh.1, wildcard_iff.mp hh.2⟩)]
      refine ⟨l', k1, k2, fun w' n' hm a b => ?_⟩
      rcases List.mem_cons.mp hm with e | hm
      · cases e
        exact absurd ⟨a, b⟩ hc
      · exact k3 w' n' hm a b

theorem nxdomain_spec {z : Zone} (hs : Signed z) (ans : List Rec) {m c : Name} (hm : m ∉ z.names) (he : Encloser z c m)
    (hw : ([42] : Dname.Label) :: c ∉ z.names) (hsz : size m ≤ 255)
    (hlab : ∀ l ∈ m, 1 ≤ l.length) :
    ∃ l p q p' q', nxdomain z ans m = .ok l ∧ Gap z p q m ∧ There ans l p ∧ Gap z p' q' ([42] :: c) ∧ There ans l p' := by
  have hca := hs.wf.closed.under c he.1
  have hma := hca.trans he.2.1
  obtain ⟨p, q, h1, g⟩ := covering_spec hs hma (fun h => absurd h hm)
  obtain ⟨p', q', h1', g'⟩ := covering_spec hs (hca.trans (List.suffix_cons [42] c)) (fun h => absurd h hw)
  have hf : findDname z m = .ok (.notFound c) := ((find_spec hs.wf m).resolve_left (fun h => h.1 hma)).elim
    (fun h => absurd h.2.1 hm) (fun ⟨_, _, c', h3, h4⟩ => by rw [h4, encloser_unique h3 he])
  have hf' : ∃ e, findDname z ([42] :: c) = .ok (.notFound e) :=
    ((find_spec hs.wf ([42] :: c)).resolve_left (fun h => h.1 (hca.trans (List.suffix_cons _ _)))).elim
      (fun h => absurd h.2.1 hw) (fun ⟨_, _, c', _, h4⟩ => ⟨c', h4⟩)
  obtain ⟨e, hf'⟩ := hf'
  have hsc : ¬ size c > 253 := by
    obtain ⟨u, hu⟩ := he.2.1
    have hne : u ≠ [] := by
      intro e
      rw [e] at hu
      exact hm (by rw [← hu]; exact he.1)
    obtain ⟨a, u', hu'⟩ := List.exists_cons_of_ne_nil hne
    have hl := hlab a (by rw [← hu, hu']; simp)
    rw [← hu, hu'] at hsz
    unfold size at hsz ⊢
    simp only [List.map_append, List.map_cons, List.cons_append, List.sum_cons, List.sum_append] at hsz
    omega
  refine ⟨putNsec z ans (putNsec z ans [] p) p', p, q, p', q', ?_, g, ?_, g', ?_⟩
  · unfold nxdomain
    rw [hf]
    simp only [Res.bind_ok, h1, if_neg hsc]
    unfold putCovering
    rw [hf']
    simp only [Res.bind_ok, h1']
  · exact (putNsec_there (gap_nsec g)).mono (fun y hy => putNsec_mono hy)
  · exact putNsec_there (gap_nsec g')

theorem nodata_full {z : Zone} (hs : Signed z) (ans : List Rec) {n x : Name} (hx : x ∈ z.names) (hi : Included (z.node x)) :
    ∃ l, nodata z ans n x = .ok l ∧ There ans l x := by
  refine ⟨putNsec z ans [] x, ?_, putNsec_there ?_⟩
  · unfold nodata
    rw [if_neg]
    intro h
    obtain ⟨u, hu⟩ := included_owns hi
    exact count_iff.mp h u hu
  · obtain ⟨_, x', h1, _⟩ := next_spec hs hx hi
    rw [h1]; simp

theorem nodata_empty {z : Zone} (hs : Signed z) (ans : List Rec) {n x : Name} (hn : z.apex <:+ n)
    (hni : n ∈ z.names → ¬ Included (z.node n)) (he : ∀ u, ¬ Owns z x u) :
    ∃ l p q, nodata z ans n x = .ok l ∧ Gap z p q n ∧ There ans l p := by
  obtain ⟨p, q, h1, g⟩ := covering_spec hs hn hni
  refine ⟨putNsec z ans [] p, p, q, ?_, g, putNsec_there (gap_nsec g)⟩
  unfold nodata
  rw [if_pos (count_iff.mpr he), h1]
  rfl

end Knot.Nsecproof
