import Verif.Nsecchain.Lemmas6
/-!
# Lemmas: the incremental check
-/
namespace Knot.Nsecchain
open Dname (Name lowerName canonCmp)

theorem lastIn_eq (h : Heap) (l : List Name) : lastIn h l = (inc h l).getLast? := by
  have e : (fun x => !noNsec (h x)) = fun x => decide (Included (h x)) := by
    funext x
    have := noNsec_included (h x)
    by_cases hi : Included (h x)
    · rw [this.mpr hi]; simp [hi]
    · cases hq : noNsec (h x) with
      | true => simp [hi]
      | false => exact absurd (this.mp hq) hi
  unfold lastIn inc
  rw [e, ← List.head?_filter, List.filter_reverse, List.head?_reverse]

/-- The one before, going round. -/
def before (l : List Name) (x : Name) : Option Name := ((l.takeWhile (· != x)).getLast?).or l.getLast?

theorem before_split {A B : List Name} {x : Name} (hx : x ∉ A) :
    before (A ++ x :: B) x = A.getLast?.or (x :: B).getLast? := by
  unfold before
  rw [takeWhile_split hx, List.getLast?_append]
  cases A.getLast? with
  | some y => simp
  | none => simp

/-- Neighbours. -/
theorem before_after {a : Name} {l : List Name} (hnd : (a :: l).Nodup) {x y : Name} (hx : x ∈ a :: l)
    (hy : y ∈ a :: l) : before (a :: l) y = some x ↔ after a (a :: l) x = y := by
  obtain ⟨A, B, e⟩ := List.append_of_mem hx
  have hxA : x ∉ A := by
    rw [e] at hnd
    exact fun q => (List.nodup_append.mp hnd).2.2 x q x (by simp) rfl
  have hxB : x ∉ B := by
    rw [e] at hnd
    exact (List.nodup_cons.mp (List.nodup_append.mp hnd).2.1).1
  rw [e, after_split hxA]
  cases B with
  | nil =>
    -- x is the last one
    constructor
    · intro hb
      simp only [List.headD_nil]
      rw [e] at hy
      rcases List.mem_append.mp hy with q | q
      · obtain ⟨C, D, e'⟩ := List.append_of_mem q
        have hyC : y ∉ C := by
          rw [e, e'] at hnd
          simp only [List.append_assoc] at hnd
          exact fun q => (List.nodup_append.mp hnd).2.2 y q y (by simp) rfl
        have e2 : A ++ [x] = C ++ y :: (D ++ [x]) := by rw [e']; simp
        rw [e2, before_split hyC] at hb
        cases hC : C.getLast? with
        | some z =>
          rw [hC] at hb
          have hzx : z = x := by simpa using hb
          have : x ∈ A := by
            rw [e', ← hzx]
            exact List.mem_append_left _ (List.mem_of_getLast? hC)
          exact absurd this hxA
        | none =>
          rw [List.getLast?_eq_none_iff] at hC
          rw [e2, hC] at e
          simp only [List.nil_append, List.cons.injEq] at e
          exact e.1
      · have hyx : y = x := by simpa using q
        rw [hyx, before_split hxA] at hb
        cases hA : A.getLast? with
        | some z =>
          rw [hA] at hb
          have hzx : z = x := by simpa using hb
          exact absurd (hzx ▸ List.mem_of_getLast? hA) hxA
        | none =>
          rw [List.getLast?_eq_none_iff] at hA
          rw [hA] at e
          simp only [List.nil_append, List.cons.injEq] at e
          rw [hyx]; exact e.1
    · intro hay
      simp only [List.headD_nil] at hay
      rw [← e, ← hay]
      unfold before
      simp only [bne_self_eq_false, Bool.false_eq_true, not_false_eq_true, List.takeWhile_cons_of_neg,
        List.getLast?_nil, Option.none_or]
      rw [e]; simp
  | cons b B =>
    simp only [List.headD_cons]
    have hnb : b ∉ A ++ [x] := by
      rw [e] at hnd
      have e2 : A ++ x :: b :: B = (A ++ [x]) ++ b :: B := by simp
      rw [e2] at hnd
      exact fun q => (List.nodup_append.mp hnd).2.2 b q b (by simp) rfl
    constructor
    · intro hb
      rw [e] at hy
      rcases List.mem_append.mp hy with q | q
      · exfalso
        obtain ⟨C, D, e'⟩ := List.append_of_mem q
        have hyC : y ∉ C := by
          rw [e, e'] at hnd
          simp only [List.append_assoc] at hnd
          exact fun q => (List.nodup_append.mp hnd).2.2 y q y (by simp) rfl
        have e2 : A ++ x :: b :: B = C ++ y :: (D ++ x :: b :: B) := by rw [e']; simp
        rw [e2, before_split hyC] at hb
        cases hC : C.getLast? with
        | some z =>
          rw [hC] at hb
          have hzx : z = x := by simpa using hb
          have : x ∈ A := by
            rw [e', ← hzx]
            exact List.mem_append_left _ (List.mem_of_getLast? hC)
          exact absurd this hxA
        | none =>
          rw [hC] at hb
          simp only [Option.none_or] at hb
          have : (y :: (D ++ x :: b :: B)).getLast? = (b :: B).getLast? := by
            have : y :: (D ++ x :: b :: B) = (y :: D ++ [x]) ++ (b :: B) := by simp
            rw [this, List.getLast?_append]
            cases hg : (b :: B).getLast? with
            | none => simp at hg
            | some z => simp
          rw [this] at hb
          exact hxB (List.mem_of_getLast? hb)
      · rcases List.mem_cons.mp q with q | q
        · exfalso
          rw [q, before_split hxA] at hb
          cases hA : A.getLast? with
          | some z =>
            rw [hA] at hb
            have hzx : z = x := by simpa using hb
            exact absurd (hzx ▸ List.mem_of_getLast? hA) hxA
          | none =>
            rw [hA, Option.none_or, List.getLast?_cons_cons] at hb
            exact hxB (List.mem_of_getLast? hb)
        · obtain ⟨C, D, e'⟩ := List.append_of_mem q
          have e2 : A ++ x :: b :: B = (A ++ x :: C) ++ y :: D := by rw [e']; simp
          have hyC : y ∉ A ++ x :: C := by
            rw [e, e2] at hnd
            exact fun q => (List.nodup_append.mp hnd).2.2 y q y (by simp) rfl
          rw [e2, before_split hyC, List.getLast?_append] at hb
          cases C with
          | nil =>
            simp only [List.nil_append, List.cons.injEq] at e'
            exact e'.1
          | cons c C =>
            exfalso
            rw [List.getLast?_cons_cons] at hb
            cases hg : (c :: C).getLast? with
            | none => simp at hg
            | some z =>
              rw [hg] at hb
              have hzx : z = x := by simpa using hb
              have : x ∈ b :: B := by
                rw [e', ← hzx]
                exact List.mem_append_left _ (List.mem_of_getLast? hg)
              exact hxB this
    · intro hby
      rw [← hby]
      have e2 : A ++ x :: b :: B = (A ++ [x]) ++ b :: B := by simp
      rw [e2, before_split hnb]
      simp

theorem before_inc {names : List Name} {h : Heap} {x : Name} (hnd : names.Nodup) (hx : x ∈ names)
    (hi : Included (h x)) :
    ((inc h (names.takeWhile (· != x))).getLast?).or (inc h names).getLast? = before (inc h names) x := by
  obtain ⟨A, B, e⟩ := List.append_of_mem hx
  have hxA : x ∉ A := by
    rw [e] at hnd
    exact fun q => (List.nodup_append.mp hnd).2.2 x q x (by simp) rfl
  have e2 : inc h names = inc h A ++ x :: inc h B := by rw [e]; simp [inc, hi]
  unfold before
  have hxi : x ∉ inc h A := fun q => hxA (List.mem_filter.mp q).1
  rw [e2, takeWhile_split hxi, e, takeWhile_split hxA]

/-- nsec_prev() of an included name. -/
theorem nsecPrev_spec {names : List Name} {h : Heap} {a : Name} {l : List Name} (hnd : names.Nodup)
    (hm : inc h names = a :: l) (hd : ∀ x ∈ names, Included (h x) → (h x).types ≠ []) {x : Name} (hx : x ∈ names)
    (hi : Included (h x)) :
    ∃ p, p ∈ names ∧ Included (h p) ∧ nsecPrev names h x = .ok p ∧ after a (inc h names) p = x := by
  have hb := before_inc hnd hx hi
  have hxm : x ∈ inc h names := List.mem_filter.mpr ⟨hx, by simpa using hi⟩
  have hndm : (a :: l).Nodup := by rw [← hm]; exact hnd.filter _
  have hsome : ∃ p, before (inc h names) x = some p := by
    unfold before
    rw [hm, List.getLast?_eq_some_getLast (List.cons_ne_nil a l)]
    cases ((a :: l).takeWhile (· != x)).getLast? with
    | some z => exact ⟨z, rfl⟩
    | none => exact ⟨_, rfl⟩
  obtain ⟨p, hp⟩ := hsome
  have hpm : p ∈ inc h names := by
    unfold before at hp
    cases hg : ((inc h names).takeWhile (· != x)).getLast? with
    | some z =>
      rw [hg] at hp
      have : z = p := by simpa using hp
      rw [← this]
      exact (List.takeWhile_sublist _).mem (List.mem_of_getLast? hg)
    | none =>
      rw [hg, Option.none_or] at hp
      exact List.mem_of_getLast? hp
  obtain ⟨q1, q2⟩ := List.mem_filter.mp hpm
  have q2 : Included (h p) := by simpa using q2
  refine ⟨p, q1, q2, ?_, ?_⟩
  · unfold nsecPrev
    rw [lastIn_eq, lastIn_eq, hb, hp]
    simp [onlyNsec, hd p q1 q2]
  · rw [hm] at hp hpm hxm ⊢
    exact (before_after hndm hpm hxm).mp hp

/-- One node passes the check. -/
theorem checkPrevNext_spec {names : List Name} {h : Heap} {a : Name} {l : List Name} (hnd : names.Nodup)
    (hl : ∀ x ∈ names, lowerName x = x)
    (hm : inc h names = a :: l) (hd : ∀ x ∈ names, Included (h x) → (h x).types ≠ []) {x : Name} (hx : x ∈ names)
    (hi : Included (h x))
    (ht : ∀ r, (h x).nsec = [r] → lowerName r.1 ∈ names → Included (h (lowerName r.1))) :
    (checkPrevNext names h x = .ok () ∧ (∀ p ∈ names, Included (h p) → after a (inc h names) p = x → To (h p) x) ∧
      To (h x) (after a (inc h names) x)) ∨
    (∃ e, checkPrevNext names h x = .err e) ∧
      ¬ ((∀ p ∈ names, Included (h p) → after a (inc h names) p = x → To (h p) x) ∧
      To (h x) (after a (inc h names) x)) := by
  have hxm : x ∈ inc h names := List.mem_filter.mpr ⟨hx, by simpa using hi⟩
  have hndm : (a :: l).Nodup := by rw [← hm]; exact hnd.filter _
  obtain ⟨p, p1, p2, p3, p4⟩ := nsecPrev_spec hnd hm hd hx hi
  have huniq : ∀ q ∈ names, Included (h q) → after a (inc h names) q = x → q = p := by
    intro q q1 q2 q3
    have hqm : q ∈ inc h names := List.mem_filter.mpr ⟨q1, by simpa using q2⟩
    have hpm : p ∈ inc h names := List.mem_filter.mpr ⟨p1, by simpa using p2⟩
    rw [hm] at q3 p4 hqm hpm hxm
    have e1 := (before_after hndm hqm hxm).mpr q3
    have e2 := (before_after hndm hpm hxm).mpr p4
    rw [e1] at e2
    simpa using e2
  unfold checkPrevNext
  rw [if_neg (by rw [(noNsec_included _).mpr hi]; simp), p3, Res.bind_ok]
  rcases checkConnect_spec (a := p) (hl x hx) hi with ⟨e1, e2⟩ | ⟨⟨e, e1⟩, e2⟩
  · rw [e1, Res.bind_ok]
    have hfirst : ∀ q ∈ names, Included (h q) → after a (inc h names) q = x → To (h q) x := by
      intro q q1 q2 q3
      rw [huniq q q1 q2 q3]; exact e2
    match hn : (h x).nsec with
    | [] =>
      right
      refine ⟨⟨_, rfl⟩, fun q => ?_⟩
      obtain ⟨r, r1, _⟩ := q.2
      rw [hn] at r1; cases r1
    | r :: r' :: k =>
      right
      refine ⟨⟨_, rfl⟩, fun q => ?_⟩
      obtain ⟨r, r1, _⟩ := q.2
      rw [hn] at r1; cases r1
    | [r] =>
      simp only
      have hto : To (h x) (after a (inc h names) x) ↔ lowerName r.1 = after a (inc h names) x := by
        unfold To
        rw [hn]
        constructor
        · rintro ⟨r', r1, r2⟩
          simp only [List.cons.injEq, and_true] at r1
          rw [r1]; exact r2
        · intro q; exact ⟨r, rfl, q⟩
      have hafter : after a (inc h names) x ∈ inc h names := by
        rw [hm] at hxm ⊢
        obtain ⟨A, B, e⟩ := List.append_of_mem hxm
        have hxA : x ∉ A := by
          rw [e] at hndm
          exact fun q => (List.nodup_append.mp hndm).2.2 x q x (by simp) rfl
        have : after a (a :: l) x = B.headD a := by rw [e, after_split hxA]
        rw [this]
        cases B with
        | nil => simp
        | cons b B => rw [e]; simp
      by_cases hrn : lowerName r.1 ∈ names
      · rw [if_pos hrn]
        have hri := ht r hn hrn
        obtain ⟨q, q1, q2, q3, q4⟩ := nsecPrev_spec hnd hm hd hrn hri
        rw [q3, Res.bind_ok]
        by_cases hqx : q = x
        · left
          rw [if_pos hqx]
          refine ⟨rfl, hfirst, hto.mpr ?_⟩
          rw [← hqx, q4]
        · right
          rw [if_neg hqx]
          refine ⟨⟨_, rfl⟩, fun w => hqx ?_⟩
          have w2 := hto.mp w.2
          have hqm : q ∈ inc h names := List.mem_filter.mpr ⟨q1, by simpa using q2⟩
          have hrm : lowerName r.1 ∈ inc h names := List.mem_filter.mpr ⟨hrn, by simpa using hri⟩
          rw [hm] at q4 w2 hqm hxm hrm
          have f1 := (before_after hndm hqm hrm).mpr q4
          have f2 := (before_after hndm hxm hrm).mpr w2.symm
          rw [f1] at f2
          simpa using f2
      · right
        rw [if_neg hrn]
        refine ⟨⟨_, rfl⟩, fun w => hrn ?_⟩
        rw [hto.mp w.2]
        exact (List.mem_filter.mp hafter).1
  · right
    exact ⟨⟨e, by rw [e1]; rfl⟩, fun w => e2 (w.1 p p1 p2 p4)⟩

theorem checkPrevNexts_spec {names : List Name} {h : Heap} {a : Name} {l : List Name} (hnd : names.Nodup)
    (hl : ∀ x ∈ names, lowerName x = x)
    (hm : inc h names = a :: l) (hd : ∀ x ∈ names, Included (h x) → (h x).types ≠ []) :
    ∀ (ptrs : List Name), (∀ x ∈ ptrs, x ∈ names) →
    (∀ x ∈ ptrs, Included (h x) → ∀ r, (h x).nsec = [r] → lowerName r.1 ∈ names → Included (h (lowerName r.1))) →
    (checkPrevNexts names h ptrs = .ok () ∧ ∀ x ∈ ptrs, Included (h x) →
      (∀ p ∈ names, Included (h p) → after a (inc h names) p = x → To (h p) x) ∧ To (h x) (after a (inc h names) x)) ∨
    (∃ e, checkPrevNexts names h ptrs = .err e) ∧ ¬ (∀ x ∈ ptrs, Included (h x) →
      (∀ p ∈ names, Included (h p) → after a (inc h names) p = x → To (h p) x) ∧ To (h x) (after a (inc h names) x)) := by
  intro ptrs
  induction ptrs with
  | nil => intro _ _; left; simp [checkPrevNexts]
  | cons c k ih =>
    intro hin ht
    have ihk := ih (fun x hx => hin x (by simp [hx])) (fun x hx => ht x (by simp [hx]))
    by_cases hi : Included (h c)
    · rcases checkPrevNext_spec hnd hl hm hd (hin c (by simp)) hi (ht c (by simp) hi) with ⟨e1, e2⟩ | ⟨⟨e, e1⟩, e2⟩
      · rcases ihk with ⟨f1, f2⟩ | ⟨⟨f, f1⟩, f2⟩
        · left
          refine ⟨by rw [checkPrevNexts, e1, Res.bind_ok, f1], ?_⟩
          intro x hx hxi
          rcases List.mem_cons.mp hx with q | q
          · rw [q]; exact e2
          · exact f2 x q hxi
        · right
          exact ⟨⟨f, by rw [checkPrevNexts, e1, Res.bind_ok, f1]⟩, fun q => f2 fun x hx => q x (by simp [hx])⟩
      · right
        exact ⟨⟨e, by rw [checkPrevNexts, e1]; rfl⟩, fun q => e2 (q c (by simp) hi)⟩
    · have e1 : checkPrevNext names h c = .ok () := by
        unfold checkPrevNext
        rw [if_pos]
        cases hq : noNsec (h c) with
        | true => rfl
        | false => exact absurd ((noNsec_included (h c)).mp hq) hi
      rcases ihk with ⟨f1, f2⟩ | ⟨⟨f, f1⟩, f2⟩
      · left
        refine ⟨by rw [checkPrevNexts, e1, Res.bind_ok, f1], ?_⟩
        intro x hx hxi
        rcases List.mem_cons.mp hx with q | q
        · rw [q] at hxi; exact absurd hxi hi
        · exact f2 x q hxi
      · right
        exact ⟨⟨f, by rw [checkPrevNexts, e1, Res.bind_ok, f1]⟩, fun q => f2 fun x hx => q x (by simp [hx])⟩

theorem checkFix_spec {names ptrs : List Name} {old new : Heap} (to : Names names old) (tn : Names names new)
    (hv : Valid names old) (hin : ∀ x ∈ ptrs, x ∈ names) (hun : ∀ x, x ∉ ptrs → new x = old x)
    (hd : ∀ x ∈ names, Included (new x) → (new x).types ≠ [])
    (hk : ∀ x ∈ names, Included (old x) → Included (new x))
    (ht : ∀ x ∈ ptrs, Included (new x) → ∀ r, (new x).nsec = [r] → lowerName r.1 ∈ names →
      Included (new (lowerName r.1))) :
    (checkFix names ptrs new = .ok () ∧ Valid names new) ∨ (∃ e, checkFix names ptrs new = .err e) ∧ ¬ Valid names new := by
  obtain ⟨a, l, hn, ha⟩ := tn.apex
  have ho : Included (old a) := by
    obtain ⟨a', l', e1, e2⟩ := to.apex
    rw [hn] at e1
    simp only [List.cons.injEq] at e1
    rw [e1.1]; exact e2
  have hnd := sorted_nodup tn.sorted
  have hm : inc new names = a :: inc new l := by rw [hn]; simp [inc, ha]
  have hmo : inc old names = a :: inc old l := by rw [hn]; simp [inc, ho]
  have hndm : (a :: inc new l).Nodup := by rw [← hm]; exact hnd.filter _
  rw [valid_iff hnd hmo] at hv
  rw [valid_iff hnd hm]
  unfold checkFix
  rcases checkBitmaps_spec ptrs (fun x hx => tn.types x (hin x hx)) with ⟨e1, e2⟩ | ⟨⟨e, e1⟩, e2⟩
  · rw [e1, Res.bind_ok]
    rcases checkPrevNexts_spec hnd tn.lower hm hd ptrs hin ht with ⟨f1, f2⟩ | ⟨⟨f, f1⟩, f2⟩
    · left
      refine ⟨f1, ?_, ?_⟩
      · intro x hx
        by_cases hxp : x ∈ ptrs
        · exact e2 x hxp
        · rw [hun x hxp]; exact hv.1 x hx
      · intro x hx hi
        by_cases hxp : x ∈ ptrs
        · exact (f2 x hxp hi).2
        · have hxo : Included (old x) := by rw [← hun x hxp]; exact hi
          have hto := hv.2 x hx hxo
          rw [← hun x hxp] at hto
          have hxm : x ∈ a :: inc new l := by rw [← hm]; exact List.mem_filter.mpr ⟨hx, by simpa using hi⟩
          -- the old members among the new ones
          have hsub : inc old names = (inc new names).filter (fun x => decide (Included (old x))) := by
            unfold inc
            rw [List.filter_filter]
            apply List.filter_congr
            intro y hy
            by_cases q : Included (old y)
            · simp [q, hk y hy q]
            · simp [q]
          have hall : ∀ y ∈ inc new names, y ∈ names ∧ Included (new y) := by
            intro y hy
            obtain ⟨q1, q2⟩ := List.mem_filter.mp hy
            exact ⟨q1, by simpa using q2⟩
          obtain ⟨A, B, e⟩ := List.append_of_mem hxm
          have hxA : x ∉ A := by
            rw [e] at hndm
            exact fun q => (List.nodup_append.mp hndm).2.2 x q x (by simp) rfl
          have hxA' : x ∉ A.filter (fun x => decide (Included (old x))) := fun q => hxA (List.mem_filter.mp q).1
          have hnext : after a (inc new names) x = B.headD a := by rw [hm, e, after_split hxA]
          have hnexto : after a (inc old names) x = (B.filter (fun x => decide (Included (old x)))).headD a := by
            rw [hsub, hm, e, List.filter_append, List.filter_cons_of_pos (by simpa using hxo), after_split hxA']
          cases B with
          | nil =>
            rw [hnext]
            rw [hnexto] at hto
            exact hto
          | cons b B =>
            simp only [List.headD_cons] at hnext
            by_cases hbp : b ∈ ptrs
            · have hb := hall b (by rw [hm, e]; simp)
              rw [hnext]
              exact (f2 b hbp hb.2).1 x hx hi hnext
            · have hb := hall b (by rw [hm, e]; simp)
              have hbo : Included (old b) := by rw [← hun b hbp]; exact hb.2
              rw [hnexto, List.filter_cons_of_pos (by simpa using hbo)] at hto
              rw [hnext]
              exact hto
    · right
      refine ⟨⟨f, f1⟩, fun w => f2 ?_⟩
      intro x hx hi
      refine ⟨?_, w.2 x (hin x hx) hi⟩
      intro p p1 p2 p3
      have := w.2 p p1 p2
      rw [p3] at this
      exact this
  · right
    exact ⟨⟨e, by rw [e1]; rfl⟩, fun w => e2 fun x hx => w.1 x (hin x hx)⟩

end Knot.Nsecchain
