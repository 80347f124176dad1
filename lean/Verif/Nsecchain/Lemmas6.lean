import Verif.Nsecchain.Lemmas5
/-!
# Lemmas: checking the chain
-/
namespace Knot.Nsecchain
open Dname (Name lowerName canonCmp)

theorem noNsec_included (n : Node) : noNsec n = false ↔ Included n := by
  unfold noNsec Included count
  cases n.nonauth with
  | true => simp
  | false =>
    simp only [Bool.false_or, decide_eq_false_iff_not, true_and]
    cases n.types with
    | cons a l => simp
    | nil => cases n.sigs <;> cases n.nsec <;> simp

theorem present_eq {n : Node} (ht : ∀ t ∈ n.types, t < 65536) :
    Bitmap.write ((bitmapTypes n true).foldl Bitmap.add Bitmap.new) = Bitmap.encode (present n) := by
  rw [C18_write]
  · congr 1
    funext t
    simp only [present, bitmapTypes, Bool.true_and, List.mem_append, List.mem_filter]
    rw [decide_eq_decide]
    cases hd : n.deleg <;> cases hs : n.sigs <;> cases hn : n.nsec <;> simp <;> grind
  · intro t h
    simp only [bitmapTypes, Bool.true_and, List.mem_append, List.mem_filter] at h
    rcases h with (h | h) | h
    · exact ht t h.1
    · split at h <;> simp at h; omega
    · split at h <;> simp at h; omega

/-- One bitmap. -/
def BitOk (n : Node) : Prop :=
  (Included n → ∃ t, n.nsec = [(t, Bitmap.encode (present n))]) ∧ (¬ Included n → n.nsec = [])

theorem checkBitmap_spec {n : Node} (ht : ∀ t ∈ n.types, t < 65536) :
    (checkBitmap n = .ok () ∧ BitOk n) ∨ (∃ e, checkBitmap n = .err e) ∧ ¬ BitOk n := by
  unfold checkBitmap BitOk
  rw [present_eq ht, ← noNsec_included]
  cases hno : noNsec n with
  | true =>
    cases hn : n.nsec with
    | nil => left; simp
    | cons r l => right; simp
  | false =>
    match hn : n.nsec with
    | [] => right; simp
    | [r] =>
      by_cases hr : Bitmap.encode (present n) = r.2
      · left
        simp only [List.length_singleton, ne_eq, not_true_eq_false, false_and, if_false, hr, Bool.false_eq_true, if_true,
          true_and, forall_const, not_false_eq_true]
        exact ⟨⟨r.1, rfl⟩, by simp⟩
      · right
        refine ⟨⟨.ensecBitmap, by simp [hr]⟩, ?_⟩
        intro h
        obtain ⟨t, ht⟩ := h.1 rfl
        simp only [List.cons.injEq, and_true] at ht
        exact hr (by rw [ht])
    | r :: r' :: l => right; simp

theorem checkBitmaps_spec {h : Heap} : ∀ (l : List Name), (∀ x ∈ l, ∀ t ∈ (h x).types, t < 65536) →
    (checkBitmaps h l = .ok () ∧ ∀ x ∈ l, BitOk (h x)) ∨ (∃ e, checkBitmaps h l = .err e) ∧ ¬ ∀ x ∈ l, BitOk (h x) := by
  intro l
  induction l with
  | nil => intro _; left; simp [checkBitmaps]
  | cons c l ih =>
    intro ht
    rcases checkBitmap_spec (ht c (by simp)) with ⟨e1, e2⟩ | ⟨⟨e, e1⟩, e2⟩
    · rcases ih (fun x hx => ht x (by simp [hx])) with ⟨f1, f2⟩ | ⟨⟨f, f1⟩, f2⟩
      · left
        refine ⟨by rw [checkBitmaps, e1, Res.bind_ok, f1], ?_⟩
        intro x hx
        rcases List.mem_cons.mp hx with q | q
        · rw [q]; exact e2
        · exact f2 x q
      · right
        exact ⟨⟨f, by rw [checkBitmaps, e1, Res.bind_ok, f1]⟩, fun q => f2 fun x hx => q x (by simp [hx])⟩
    · right
      exact ⟨⟨e, by rw [checkBitmaps, e1]; rfl⟩, fun q => e2 (q c (by simp))⟩

/-- A node with one NSEC that points to a name. -/
def To (n : Node) (x : Name) : Prop := ∃ r, n.nsec = [r] ∧ lowerName r.1 = x

theorem checkConnect_spec {h : Heap} {a b : Name} (hb : lowerName b = b) (hi : Included (h b)) :
    (checkConnect h a b = .ok false ∧ To (h a) b) ∨ (∃ e, checkConnect h a b = .err e) ∧ ¬ To (h a) b := by
  unfold checkConnect To
  rw [if_neg (by rw [(noNsec_included _).mpr hi]; simp), hb]
  match hn : (h a).nsec with
  | [] => right; simp
  | [r] =>
    by_cases hr : lowerName r.1 = b
    · left; simp [hr]
    · right
      refine ⟨⟨_, by simp only [if_neg hr]; rfl⟩, ?_⟩
      rintro ⟨r', q1, q2⟩
      simp only [List.cons.injEq, and_true] at q1
      rw [← q1] at q2; exact hr q2
  | r :: r' :: l => right; simp

theorem checkConnect_skip {h : Heap} {a b : Name} (hi : ¬ Included (h b)) : checkConnect h a b = .ok true := by
  unfold checkConnect
  rw [if_pos]
  cases hq : noNsec (h b) with
  | true => rfl
  | false => exact absurd ((noNsec_included (h b)).mp hq) hi

/-- The included ones. -/
def inc (h : Heap) (l : List Name) : List Name := l.filter (fun x => decide (Included (h x)))

theorem checkLoop_spec {h : Heap} : ∀ (l : List Name) (prev cur : Name) (skip : Bool),
    (∀ x ∈ l, lowerName x = x) → (skip = false → cur = prev) →
    (∃ last cur' skip', checkLoop h prev cur skip l = .ok (last, cur', skip') ∧ (skip' = false → cur' = last) ∧
      (prev :: inc h l).getLast? = some last ∧
      (∀ A x y B, prev :: inc h l = A ++ x :: y :: B → To (h x) y)) ∨
    (∃ e, checkLoop h prev cur skip l = .err e) ∧ ¬ (∀ A x y B, prev :: inc h l = A ++ x :: y :: B → To (h x) y) := by
  intro l
  induction l with
  | nil =>
    intro prev cur skip _ hs
    left
    refine ⟨prev, cur, skip, rfl, hs, rfl, ?_⟩
    intro A x y B hA
    have := congrArg List.length hA
    simp [inc] at this
    omega
  | cons c l ih =>
    intro prev cur skip hl hs
    by_cases hi : Included (h c)
    · have hm : inc h (c :: l) = c :: inc h l := by simp [inc, hi]
      rcases checkConnect_spec (a := prev) (hl c (by simp)) hi with ⟨e1, e2⟩ | ⟨⟨e, e1⟩, e2⟩
      · have hrec : checkLoop h prev cur skip (c :: l) = checkLoop h c c false l := by
          rw [checkLoop, e1, Res.bind_ok, if_neg (by simp)]
        rw [hrec, hm]
        rcases ih c c false (fun x hx => hl x (by simp [hx])) (fun _ => rfl) with ⟨last, cur', skip', f1, f2, f3, f4⟩ | ⟨⟨f, f1⟩, f2⟩
        · left
          refine ⟨last, cur', skip', f1, f2, by rw [List.getLast?_cons_cons]; exact f3, ?_⟩
          intro A x y B hA
          cases A with
          | nil =>
            simp only [List.nil_append, List.cons.injEq] at hA
            rw [← hA.1, ← hA.2.1]; exact e2
          | cons a A =>
            simp only [List.cons_append, List.cons.injEq] at hA
            exact f4 A x y B hA.2
        · right
          refine ⟨⟨f, f1⟩, fun q => f2 fun A x y B hA => ?_⟩
          exact q (prev :: A) x y B (by rw [hA]; rfl)
      · right
        refine ⟨⟨e, by rw [checkLoop, e1]; rfl⟩, fun q => e2 ?_⟩
        exact q [] prev c (inc h l) (by rw [hm]; rfl)
    · have hm : inc h (c :: l) = inc h l := by simp [inc, hi]
      have hrec : checkLoop h prev cur skip (c :: l) = checkLoop h prev c true l := by
        rw [checkLoop, checkConnect_skip hi, Res.bind_ok, if_pos rfl]
      rw [hrec, hm]
      exact ih prev c true (fun x hx => hl x (by simp [hx])) (by simp)

/-- Valid, in terms of neighbours. -/
theorem valid_iff {names : List Name} {h : Heap} {a : Name} {l : List Name} (hnd : names.Nodup)
    (hm : inc h names = a :: l) :
    Valid names h ↔ (∀ x ∈ names, BitOk (h x)) ∧ ∀ x ∈ names, Included (h x) → To (h x) (after a (inc h names) x) := by
  have hndm : (a :: l).Nodup := by rw [← hm]; exact hnd.filter _
  constructor
  · intro v
    have key : ∀ x ∈ names, Included (h x) → ∃ t, (h x).nsec = [(t, Bitmap.encode (present (h x)))] ∧
        lowerName t = after a (inc h names) x := by
      intro x hx hi
      have hxm : x ∈ a :: l := by rw [← hm]; exact List.mem_filter.mpr ⟨hx, by simpa using hi⟩
      obtain ⟨A, B, e⟩ := List.append_of_mem hxm
      have hxA : x ∉ A := by
        rw [e] at hndm
        exact fun q => (List.nodup_append.mp hndm).2.2 x q x (by simp) rfl
      rw [hm, e, after_split hxA]
      refine v.links (a :: l) (by rw [← hm]; rfl) A.length x (B.headD a) (by rw [e]; simp) ?_
      have hlen : (a :: l).length = A.length + (B.length + 1) := by rw [e]; simp
      cases B with
      | nil => rw [hlen]; simp
      | cons b B => rw [Nat.mod_eq_of_lt (by rw [hlen]; simp), e]; simp
    refine ⟨fun x hx => ⟨fun hi => ?_, fun hi => v.others x hx hi⟩, fun x hx hi => ?_⟩
    · obtain ⟨t, t1, _⟩ := key x hx hi
      exact ⟨t, t1⟩
    · obtain ⟨t, t1, t2⟩ := key x hx hi
      exact ⟨_, t1, t2⟩
  · rintro ⟨v1, v2⟩
    refine ⟨fun x hx hi => (v1 x hx).2 hi, ?_⟩
    intro L hL i x y hx hy
    have hL : L = a :: l := by rw [hL, ← hm]; rfl
    rw [hL] at hx hy
    have hxm : x ∈ inc h names := by rw [hm]; exact List.mem_of_getElem? hx
    obtain ⟨q1, q2⟩ := List.mem_filter.mp hxm
    have q2 : Included (h x) := by simpa using q2
    obtain ⟨t, t1⟩ := (v1 x q1).1 q2
    obtain ⟨r, r1, r2⟩ := v2 x q1 q2
    rw [t1] at r1
    simp only [List.cons.injEq, and_true] at r1
    refine ⟨t, t1, ?_⟩
    rw [← r1] at r2
    simp only at r2
    rw [r2, hm]
    rcases round_cases hx hy with ⟨A, B, e⟩ | ⟨e1, e2⟩
    · rw [e] at hndm ⊢
      have hxA : x ∉ A := fun q => (List.nodup_append.mp hndm).2.2 x q x (by simp) rfl
      rw [after_split hxA]; rfl
    · obtain ⟨Q, e1⟩ := List.getLast?_eq_some_iff.mp e1
      rw [e1] at hndm ⊢
      have hxQ : x ∉ Q := fun q => (List.nodup_append.mp hndm).2.2 x q x (by simp) rfl
      rw [after_split hxQ, e2]; rfl

theorem check_spec {names : List Name} {h : Heap} (tr : Names names h) :
    (check names h = .ok false ∧ Valid names h) ∨ (∃ e, check names h = .err e) ∧ ¬ Valid names h := by
  obtain ⟨a, l, hn, ha⟩ := tr.apex
  have hm : inc h names = a :: inc h l := by rw [hn]; simp [inc, ha]
  have hnd := sorted_nodup tr.sorted
  have hndm : (a :: inc h l).Nodup := by rw [← hm]; exact hnd.filter _
  rw [valid_iff hnd hm]
  have hlow : ∀ x ∈ l, lowerName x = x := fun x hx => tr.lower x (by rw [hn]; simp [hx])
  unfold check
  rcases checkBitmaps_spec names tr.types with ⟨e1, e2⟩ | ⟨⟨e, e1⟩, e2⟩
  · rw [e1, Res.bind_ok]
    -- neighbours in terms of splits
    have htwo : (∀ x ∈ names, Included (h x) → To (h x) (after a (inc h names) x)) ↔
        (∀ A x y B, a :: inc h l = A ++ x :: y :: B → To (h x) y) ∧
        (∀ x, (a :: inc h l).getLast? = some x → To (h x) a) := by
      rw [hm]
      constructor
      · intro q
        have hin : ∀ x ∈ a :: inc h l, x ∈ names ∧ Included (h x) := by
          intro x hx
          rw [← hm] at hx
          obtain ⟨q1, q2⟩ := List.mem_filter.mp hx
          exact ⟨q1, by simpa using q2⟩
        constructor
        · intro A x y B hA
          have := hin x (by rw [hA]; simp)
          have := q x this.1 this.2
          rw [hA] at this hndm
          have hxA : x ∉ A := fun q => (List.nodup_append.mp hndm).2.2 x q x (by simp) rfl
          rw [after_split hxA] at this
          exact this
        · intro x hx
          obtain ⟨Q, e⟩ := List.getLast?_eq_some_iff.mp hx
          have := hin x (by rw [e]; simp)
          have := q x this.1 this.2
          rw [e] at this hndm
          have hxQ : x ∉ Q := fun q => (List.nodup_append.mp hndm).2.2 x q x (by simp) rfl
          rw [after_split hxQ] at this
          exact this
      · rintro ⟨q1, q2⟩ x hx hi
        have hxm : x ∈ a :: inc h l := by rw [← hm]; exact List.mem_filter.mpr ⟨hx, by simpa using hi⟩
        obtain ⟨A, B, e⟩ := List.append_of_mem hxm
        have hxA : x ∉ A := by
          rw [e] at hndm
          exact fun q => (List.nodup_append.mp hndm).2.2 x q x (by simp) rfl
        rw [e, after_split hxA]
        cases B with
        | nil => exact q2 x (by rw [e]; simp)
        | cons y B => exact q1 A x y B e
    rw [hn] at htwo e2 ⊢
    simp only
    rw [htwo]
    rcases checkLoop_spec (h := h) l a a false hlow (fun _ => rfl) with ⟨last, cur', skip', f1, f2, f3, f4⟩ | ⟨⟨f, f1⟩, f2⟩
    · rw [f1, Res.bind_ok]
      have hprev : (if skip' then last else cur') = last := by
        cases skip' with
        | true => rfl
        | false => exact f2 rfl
      simp only [hprev]
      rcases checkConnect_spec (a := last) (tr.lower a (by rw [hn]; simp)) ha with ⟨g1, g2⟩ | ⟨⟨g, g1⟩, g2⟩
      · left
        refine ⟨g1, e2, f4, ?_⟩
        intro x hx
        rw [f3] at hx
        have : last = x := by simpa using hx
        rw [← this]; exact g2
      · right
        exact ⟨⟨g, g1⟩, fun q => g2 (q.2.2 last f3)⟩
    · right
      exact ⟨⟨f, by rw [f1]; rfl⟩, fun q => f2 q.2.1⟩
  · right
    exact ⟨⟨e, by rw [e1]; rfl⟩, fun q => e2 q.1⟩

end Knot.Nsecchain
