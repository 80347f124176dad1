import Verif.Nsecchain.Lemmas
/-!
# Lemmas: fixing the chain
-/
namespace Knot.Nsecchain
open Dname (Name lowerName canonCmp)

/-- Where a member points: the next one in the list, or the first one. -/
def after (first : Name) (l : List Name) (x : Name) : Name := ((l.dropWhile (· != x)).drop 1).headD first

theorem after_split {first : Name} {A B : List Name} {x : Name} (hx : x ∉ A) :
    after first (A ++ x :: B) x = B.headD first := by
  unfold after
  have : (A ++ x :: B).dropWhile (· != x) = x :: B := by
    rw [List.dropWhile_append_of_pos (by intro y hy; simp; exact fun e => hx (e ▸ hy))]
    simp
  rw [this]; rfl

theorem takeWhile_split {A B : List Name} {x : Name} (hx : x ∉ A) : (A ++ x :: B).takeWhile (· != x) = A := by
  rw [List.takeWhile_append_of_pos (by intro y hy; simp; exact fun e => hx (e ▸ hy))]
  simp

/-- The last one of a list that has a property. -/
theorem find_last {p : Name → Bool} {l : List Name} {y : Name} (h : l.reverse.find? p = some y) :
    ∃ A B, l = A ++ y :: B ∧ p y = true ∧ ∀ z ∈ B, p z = false := by
  obtain ⟨h1, A, B, h2, h3⟩ := List.find?_eq_some_iff_append.mp h
  refine ⟨B.reverse, A.reverse, ?_, h1, ?_⟩
  · have := congrArg List.reverse h2
    simpa using this
  · intro z hz
    have := h3 z (by simpa using hz)
    simpa using this

theorem lastIn_some {h : Heap} {l : List Name} {a : Name} (ha : a ∈ l) (hn : noNsec (h a) = false) :
    ∃ A y B, l = A ++ y :: B ∧ lastIn h l = some y ∧ noNsec (h y) = false ∧ ∀ z ∈ B, noNsec (h z) = true := by
  unfold lastIn
  cases hf : l.reverse.find? (fun x => !noNsec (h x)) with
  | none =>
    rw [List.find?_eq_none] at hf
    have := hf a (by simpa using ha)
    simp [hn] at this
  | some y =>
    obtain ⟨A, B, h1, h2, h3⟩ := find_last hf
    exact ⟨A, y, B, h1, rfl, by simpa using h2, fun z hz => by simpa using h3 z hz⟩

/-- nsec_prev() of a node after the apex. -/
theorem nsecPrev_split {names : List Name} {h : Heap} {x a : Name} {A B : List Name} (hs : names = A ++ x :: B)
    (hx : x ∉ A) (ha : a ∈ A) (hn : noNsec (h a) = false)
    (hon : ∀ y ∈ A, noNsec (h y) = false → onlyNsec (h y) = false) :
    ∃ C y D, A = C ++ y :: D ∧ nsecPrev names h x = .ok y ∧ noNsec (h y) = false ∧ ∀ z ∈ D, noNsec (h z) = true := by
  obtain ⟨C, y, D, h1, h2, h3, h4⟩ := lastIn_some ha hn
  refine ⟨C, y, D, h1, ?_, h3, h4⟩
  unfold nsecPrev
  rw [hs, takeWhile_split hx, h2]
  simp only [Option.some_or]
  rw [if_neg (by simp [hon y (by rw [h1]; simp) h3])]

/-- The loop over deleted nodes. -/
theorem prevKept_spec {names : List Name} {old new : Heap} {a : Name} (hno : noNsec (old a) = false)
    (hnn : noNsec (new a) = false) : ∀ (k : Nat) (A B : List Name) (x : Name) (fuel : Nat), A.length = k →
    names = A ++ x :: B → names.Nodup → a ∈ A → (∀ y ∈ A, noNsec (old y) = false → onlyNsec (old y) = false) →
    A.length < fuel →
    ∃ C y D, A = C ++ y :: D ∧ prevKept names old new fuel x = .ok y ∧ noNsec (old y) = false ∧ noNsec (new y) = false ∧
      ∀ z ∈ D, noNsec (old z) = true ∨ noNsec (new z) = true := by
  intro k
  induction k using Nat.strongRecOn with
  | ind k ih =>
    intro A B x fuel hk hs hnd ha hon hf
    have hx : x ∉ A := by
      rw [hs] at hnd
      have := (List.nodup_append.mp hnd).2.2
      intro q
      exact this x q x (by simp) rfl
    obtain ⟨C, y, D, h1, h2, h3, h4⟩ := nsecPrev_split hs hx ha hno hon
    cases fuel with
    | zero => omega
    | succ fuel =>
      by_cases hny : noNsec (new y) = true
      · have hne : y ≠ a := by intro e; rw [e, hnn] at hny; cases hny
        have haC : a ∈ C := by
          rw [h1] at ha
          rcases List.mem_append.mp ha with q | q
          · exact q
          · rcases List.mem_cons.mp q with q | q
            · exact absurd q.symm hne
            · have := h4 a q; rw [hno] at this; cases this
        have hlen : C.length < A.length := by rw [h1]; simp
        obtain ⟨C', y', D', e1, e2, e3, e4, e5⟩ := ih C.length (by omega) C (D ++ x :: B) y fuel rfl
          (by rw [hs, h1]; simp) hnd haC (fun z hz => hon z (by rw [h1]; simp [hz])) (by omega)
        refine ⟨C', y', D' ++ y :: D, by rw [h1, e1]; simp, ?_, e3, e4, ?_⟩
        · rw [prevKept, h2, Res.bind_ok, if_pos hny, e2]
        · intro z hz
          rcases List.mem_append.mp hz with q | q
          · exact e5 z q
          · rcases List.mem_cons.mp q with q | q
            · rw [q]; exact .inr hny
            · exact .inl (h4 z q)
      · have hny : noNsec (new y) = false := by simpa using hny
        refine ⟨C, y, D, h1, ?_, h3, hny, fun z hz => .inl (h4 z hz)⟩
        rw [prevKept, h2, Res.bind_ok, if_neg (by simp [hny])]

theorem canonCmp_gt {a b : Name} (h : canonCmp b a = .lt) : canonCmp a b = .gt := by
  rw [Dname.canonCmp_swap b a, h]; rfl

theorem nearer_none (a r : Name) : nearer a none r = a := rfl

theorem nearer_low {a b r : Name} (ha : canonCmp a r = .lt) (hb : canonCmp b r = .lt) (h : canonCmp a b = .lt) :
    nearer a (some b) r = b := by
  unfold nearer
  have hne : a ≠ b := by
    intro e
    rw [e, (Dname.canonCmp_eq b b).mpr rfl] at h
    cases h
  simp [hne, ha, hb, h]

theorem nearer_high {a b r : Name} (ha : canonCmp a r = .lt) (hb : canonCmp b r = .lt) (h : canonCmp b a = .lt) :
    nearer a (some b) r = a := by
  unfold nearer
  have hne : a ≠ b := by
    intro e
    rw [e, (Dname.canonCmp_eq b b).mpr rfl] at h
    cases h
  have := canonCmp_gt h
  simp [hne, ha, hb, this]

/-! ## One step -/

theorem after_mid {first : Name} {A B Z : List Name} {x y : Name} (hx : x ∉ A) :
    after first (A ++ x :: y :: B ++ Z) x = y := by
  have : A ++ x :: y :: B ++ Z = A ++ x :: (y :: B ++ Z) := by simp
  rw [this, after_split hx]; rfl

theorem after_skip {first : Name} {Q S : List Name} {x : Name} (hx : x ∉ Q) :
    after first (Q ++ S) x = after first S x := by
  unfold after
  rw [List.dropWhile_append_of_pos (by intro y hy; simp; exact fun e => hx (e ▸ hy))]

/-- Who has an NSEC on the way: before, as in the new zone, then as in the old one. -/
def mix (old new : Heap) (pre suf : List Name) : List Name :=
  pre.filter (fun x => !noNsec (new x)) ++ suf.filter (fun x => !noNsec (old x))

/-- What fixing starts with: a chain of the old zone, kept in the new one for the nodes in both. -/
structure Start (ttl : Nat) (apex : Name) (names : List Name) (old new : Heap) : Prop where
  sorted : names.Pairwise (fun a b => canonCmp a b = .lt)
  lower : ∀ x ∈ names, lowerName x = x
  types : ∀ x ∈ names, ∀ t ∈ (new x).types, t < 65536
  apexOld : noNsec (old apex) = false
  apexNew : noNsec (new apex) = false
  oldOnly : ∀ x ∈ names, noNsec (old x) = false → onlyNsec (old x) = false
  newOnly : ∀ x ∈ names, noNsec (new x) = false → onlyNsec (new x) = false
  oldNext : ∀ x ∈ names, noNsec (old x) = false →
    ∃ t b, (old x).nsec = [(t, b)] ∧ lowerName t = after apex (names.filter (fun x => !noNsec (old x))) x
  newNext : ∀ x ∈ names, noNsec (new x) = false → noNsec (old x) = false →
    Points ttl (new x) (after apex (names.filter (fun x => !noNsec (old x))) x)
  newFresh : ∀ x ∈ names, noNsec (new x) = false → noNsec (old x) = true →
    ∃ t, (new x).nsec = [(t, Bitmap.encode (listed (new x)))] ∧ (new x).ttl = ttl

/-- What holds after the nodes `pre`. -/
structure Mid (ttl : Nat) (apex : Name) (old new : Heap) (pre suf : List Name) (h : Heap) (it : Option Name) : Prop where
  data : ∀ x, SameData (new x) (h x)
  no : ∀ x, noNsec (h x) = noNsec (new x)
  points : ∀ x ∈ pre ++ suf, noNsec (new x) = false → (x ∈ pre ∨ noNsec (old x) = false) →
    Points ttl (h x) (after apex (mix old new pre suf) x)
  fresh : ∀ x ∈ suf, noNsec (new x) = false → noNsec (old x) = true → h x = new x
  gone : ∀ x, noNsec (new x) = true → h x = new x
  itSome : ∀ y, it = some y → noNsec (new y) = false ∧ noNsec (old y) = true ∧ ∃ C D, pre = C ++ y :: D ∧
    ∀ z ∈ D, noNsec (new z) = false → noNsec (old z) = false
  itNone : it = none → ∀ z ∈ pre, noNsec (new z) = false → noNsec (old z) = false

theorem sorted_split {l A B : List Name} {y : Name} (hs : l.Pairwise (fun a b => canonCmp a b = .lt))
    (hl : l = A ++ y :: B) : (∀ z ∈ A, canonCmp z y = .lt) ∧ (∀ z ∈ B, canonCmp y z = .lt) := by
  rw [hl, List.pairwise_append] at hs
  exact ⟨fun z hz => hs.2.2 z hz y (by simp), fun z hz => List.rel_of_pairwise_cons hs.2.1 hz⟩

theorem canon_irrefl (a : Name) : canonCmp a a ≠ .lt := by
  rw [(Dname.canonCmp_eq a a).mpr rfl]; simp

theorem canon_asymm {a b : Name} (h : canonCmp a b = .lt) : canonCmp b a ≠ .lt := fun h' =>
  canon_irrefl a (Dname.canonCmp_trans a b a h h')

/-- In a sorted list split at a member, anything above it is behind. -/
theorem sorted_behind {l A B : List Name} {y z : Name} (hs : l.Pairwise (fun a b => canonCmp a b = .lt))
    (hl : l = A ++ y :: B) (hz : z ∈ l) (hyz : canonCmp y z = .lt) : z ∈ B := by
  obtain ⟨h1, h2⟩ := sorted_split hs hl
  rw [hl] at hz
  rcases List.mem_append.mp hz with q | q
  · exact absurd (h1 z q) (canon_asymm hyz)
  · rcases List.mem_cons.mp q with q | q
    · rw [q] at hyz; exact absurd hyz (canon_irrefl y)
    · exact q

theorem sorted_nodup {l : List Name} (hs : l.Pairwise (fun a b => canonCmp a b = .lt)) : l.Nodup := by
  unfold List.Nodup
  refine List.Pairwise.imp ?_ hs
  intro a b h e
  rw [e] at h
  exact canon_irrefl b h

/-- The node before, as the code finds it for a deleted one. -/
theorem nearer_spec {ttl : Nat} {apex : Name} {names : List Name} {old new : Heap}
    (st : Start ttl apex names old new) {pre post : List Name} {c : Name} (hn : names = pre ++ c :: post)
    {h : Heap} {it : Option Name} (mid : Mid ttl apex old new pre (c :: post) h it) (hap : apex ∈ pre) :
    ∃ q A p B, prevKept names old h (names.length + 1) c = .ok q ∧ nearer q it c = p ∧ pre = A ++ p :: B ∧
      noNsec (new p) = false ∧ ∀ z ∈ B, noNsec (new z) = true := by
  have hpre : pre.Pairwise (fun a b => canonCmp a b = .lt) := by
    have := st.sorted
    rw [hn, List.pairwise_append] at this
    exact this.1
  have hc := (sorted_split st.sorted hn).1
  obtain ⟨C, q, D, e1, e2, e3, e4, e5⟩ := prevKept_spec (names := names) (old := old) (new := h) (a := apex) st.apexOld
    (by rw [mid.no]; exact st.apexNew) pre.length pre post c (names.length + 1) rfl hn (sorted_nodup st.sorted) hap
    (fun y hy => st.oldOnly y (by rw [hn]; simp [hy])) (by rw [hn]; simp; omega)
  rw [mid.no] at e4
  have hqc : canonCmp q c = .lt := hc q (by rw [e1]; simp)
  refine ⟨q, ?_⟩
  cases hit : it with
  | none =>
    have h0 := mid.itNone hit
    refine ⟨C, q, D, e2, rfl, e1, e4, fun z hz => ?_⟩
    have h5 := e5 z hz
    rw [mid.no] at h5
    cases hz' : noNsec (new z) with
    | true => rfl
    | false =>
      have := h0 z (by rw [e1]; simp [hz]) hz'
      rw [this, hz'] at h5
      simp at h5
  | some y =>
    obtain ⟨y1, y2, C', D', y3, y4⟩ := mid.itSome y hit
    have hyc : canonCmp y c = .lt := hc y (by rw [y3]; simp)
    have hqy : q ≠ y := by intro e; rw [e, y2] at e3; cases e3
    have hq : q ∈ pre := by rw [e1]; simp
    rw [y3] at hq
    obtain ⟨s1, s2⟩ := sorted_split hpre y3
    rcases List.mem_append.mp hq with r | r
    · have hlt := s1 q r
      refine ⟨C', y, D', e2, nearer_low hqc hyc hlt, y3, y1, fun z hz => ?_⟩
      cases hz' : noNsec (new z) with
      | true => rfl
      | false =>
        have h6 := y4 z hz hz'
        have hzD := sorted_behind hpre e1 (by rw [y3]; simp [hz]) (Dname.canonCmp_trans q y z hlt (s2 z hz))
        have h5 := e5 z hzD
        rw [mid.no, h6, hz'] at h5
        simp at h5
    · rcases List.mem_cons.mp r with r | r
      · exact absurd r hqy
      · have hlt := s2 q r
        refine ⟨C, q, D, e2, nearer_high hqc hyc hlt, e1, e4, fun z hz => ?_⟩
        cases hz' : noNsec (new z) with
        | true => rfl
        | false =>
          have hqz := (sorted_split hpre e1).2 z hz
          have hzD := sorted_behind hpre y3 (by rw [e1]; simp [hz]) (Dname.canonCmp_trans y q z hlt hqz)
          have h6 := y4 z hzD hz'
          have h5 := e5 z hz
          rw [mid.no, h6, hz'] at h5
          simp at h5

end Knot.Nsecchain
