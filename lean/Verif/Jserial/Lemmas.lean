import Verif.Jserial.Model
import Verif.Dname.Lemmas
import Verif.WireCtx.Props
import Verif.Changeset.Lemmas
/-!
# Lemmas: writing chunks
-/
namespace Knot.Jserial
open WireCtx (beBytes beVal length_beBytes beVal_beBytes)

/-- The parts of an RRset from one on. -/
def todo (r : Rr) (phase : Nat) : List Bytes := ((List.range (r.rrs.length + 1)).drop phase).map (part r)

/-- All parts of several. -/
def allParts (l : List Rr) : List Bytes := l.flatMap (fun r => todo r 0)

/-- The size of several parts. -/
def total (a : List Bytes) : Nat := a.flatten.length

theorem part_length (r : Rr) (n : Nat) : (part r n).length = partSize r n := by
  cases n <;> simp [part, partSize, length_beBytes] <;> omega

theorem partSize_pos (r : Rr) (n : Nat) : 0 < partSize r n := by cases n <;> simp only [partSize] <;> omega

theorem total_cons (x : Bytes) (a : List Bytes) : total (x :: a) = x.length + total a := by simp [total]

theorem todo_end {r : Rr} {n : Nat} (h : r.rrs.length + 1 ≤ n) : todo r n = [] := by
  simp [todo, h]

theorem todo_step {r : Rr} {n : Nat} (h : n < r.rrs.length + 1) : todo r n = part r n :: todo r (n + 1) := by
  unfold todo
  rw [List.drop_eq_getElem_cons (by simpa using h)]
  simp

theorem todo_length (r : Rr) (n : Nat) : (todo r n).length = r.rrs.length + 1 - n := by simp [todo]

theorem allParts_cons (r : Rr) (l : List Rr) : allParts (r :: l) = todo r 0 ++ allParts l := by simp [allParts]

theorem allParts_append (a b : List Rr) : allParts (a ++ b) = allParts a ++ allParts b := by simp [allParts]

theorem allParts_length (l : List Rr) : (allParts l).length = parts l := by
  induction l with
  | nil => rfl
  | cons r l ih => rw [allParts_cons, List.length_append, ih, todo_length]; simp [parts]

/-- The last RRset of a buffer. -/
def lastOf (cur : Rr) (l : List Rr) : Rr := (cur :: l).getLast (by simp)

theorem lastOf_cons (cur r : Rr) (l : List Rr) : lastOf cur (r :: l) = lastOf r l := by
  simp [lastOf]

theorem allParts_last (cur : Rr) (l : List Rr) :
    ((lastOf cur l).rrs.length + 1 ≤ (allParts (cur :: l)).length) ∧
    (l ≠ [] → (lastOf cur l).rrs.length + 1 ≤ (allParts l).length) := by
  induction l generalizing cur with
  | nil => simp [lastOf, allParts, todo_length]
  | cons r l ih =>
    have := ih r
    rw [lastOf_cons]
    refine ⟨?_, fun _ => this.1⟩
    rw [allParts_cons, List.length_append]
    omega

/-- serialize_chunk() writes exactly what was prepared. -/
theorem chunkLoop_spec : ∀ (fuel : Nat) (cur : Rr) (next : List Rr) (phase avail : Nat) (out : Bytes)
    (a c : List Bytes) (ph : Nat),
    todo cur phase ++ allParts next = a ++ c → c = todo (lastOf cur next) ph → avail = total a →
    (todo cur phase ++ allParts next).length < fuel →
    ∃ phase', chunkLoop fuel cur next phase avail out = .ok (out ++ a.flatten, phase') ∧
      todo (lastOf cur next) phase' = c := by
  intro fuel
  induction fuel with
  | zero => intro _ _ _ _ _ _ _ _ _ _ _ h; omega
  | succ fuel ih =>
    intro cur next phase avail out a c ph hq hc hav hfu
    have hclen : c.length ≤ (lastOf cur next).rrs.length + 1 := by rw [hc, todo_length]; omega
    unfold chunkLoop
    by_cases hp : phase ≥ cur.rrs.length + 1
    · rw [if_pos hp]
      rw [todo_end hp, List.nil_append] at hq hfu
      cases next with
      | nil =>
        have : a = [] ∧ c = [] := by
          have : a ++ c = [] := hq.symm
          exact List.append_eq_nil_iff.mp this
        refine ⟨phase, by rw [this.1]; simp, ?_⟩
        rw [this.2]
        exact todo_end hp
      | cons r next =>
        rw [lastOf_cons] at hc hclen ⊢
        rw [allParts_cons, todo_step (by omega)] at hq hfu
        cases a with
        | nil =>
          simp only
          rw [if_pos (by rw [hav]; exact partSize_pos r 0)]
          refine ⟨0, by simp, ?_⟩
          cases next with
          | nil =>
            simp only [allParts, List.flatMap_nil, List.append_nil, List.nil_append] at hq
            rw [← hq, ← todo_step (by omega)]
            rfl
          | cons r' next =>
            exfalso
            have := (allParts_last r (r' :: next)).2 (by simp)
            have h2 := congrArg List.length hq
            simp only [List.nil_append, List.length_append, List.length_cons] at h2
            omega
        | cons x a =>
          simp only [List.cons_append, List.cons.injEq] at hq
          obtain ⟨h1, h2⟩ := hq
          rw [total_cons, ← h1, part_length] at hav
          simp only
          rw [if_neg (by omega)]
          obtain ⟨p', e1, e2⟩ := ih r next 1 (avail - partSize r 0) (out ++ part r 0) a c ph h2 hc (by omega)
            (by simp only [List.cons_append, List.length_cons] at hfu; exact Nat.lt_of_succ_lt_succ hfu)
          exact ⟨p', by rw [e1, ← h1]; simp, e2⟩
    · rw [if_neg hp]
      rw [todo_step (by omega)] at hq hfu
      cases a with
      | nil =>
        rw [if_pos (by rw [hav]; exact partSize_pos cur phase)]
        refine ⟨phase, by simp, ?_⟩
        cases next with
        | nil =>
          simp only [allParts, List.flatMap_nil, List.append_nil, List.nil_append] at hq
          rw [← hq, ← todo_step (by omega)]
          rfl
        | cons r' next =>
          exfalso
          have := (allParts_last cur (r' :: next)).2 (by simp)
          have h2 := congrArg List.length hq
          simp only [List.nil_append, List.length_append, List.length_cons] at h2
          omega
      | cons x a =>
        simp only [List.cons_append, List.cons.injEq] at hq
        obtain ⟨h1, h2⟩ := hq
        rw [total_cons, ← h1, part_length] at hav
        rw [if_neg (by omega)]
        obtain ⟨p', e1, e2⟩ := ih cur next (phase + 1) (avail - partSize cur phase) (out ++ part cur phase) a c ph h2 hc
          (by omega) (by simp only [List.cons_append, List.length_cons] at hfu; omega)
        exact ⟨p', by rw [e1, ← h1]; simp, e2⟩

/-- What serialize_prepare() finds. -/
theorem prepareLoop_spec (thresh max : Nat) : ∀ (fuel : Nat) (pre : List Rr) (cur : Rr) (src : List Rr) (tmp cand : Nat),
    (todo cur tmp ++ allParts src).length < fuel → cand ≤ max →
    ∃ s1 src' fin real, prepareLoop thresh max fuel pre cur src tmp cand = .ok (pre ++ cur :: s1, src', fin, real) ∧
      src = s1 ++ src' ∧ ∃ a c ph, todo cur tmp ++ allParts s1 = a ++ c ∧ c = todo (lastOf cur s1) ph ∧
      real = cand + total a ∧ real ≤ max ∧ (fin = true → c = [] ∧ src' = []) ∧
      (a = [] → (c ++ allParts src' = [] ∨ bufMax ≤ pre.length + 1 ∨
        ∃ x l, c ++ allParts src' = x :: l ∧ max < cand + x.length)) := by
  intro fuel
  induction fuel with
  | zero => intro _ _ _ _ _ h; omega
  | succ fuel ih =>
    intro pre cur src tmp cand hfu hcm
    unfold prepareLoop
    by_cases hp : tmp ≥ cur.rrs.length + 1
    · rw [if_pos hp]
      have ht := todo_end hp
      by_cases hb : pre.length + 1 ≥ bufMax
      · rw [if_pos hb]
        refine ⟨[], src, false, cand, rfl, rfl, [], [], tmp, ?_, ?_, rfl, hcm, by simp, fun _ => .inr (.inl hb)⟩
        · rw [ht]; rfl
        · exact ht.symm
      · rw [if_neg hb]
        cases src with
        | nil =>
          refine ⟨[], [], true, cand, rfl, rfl, [], [], tmp, ?_, ?_, rfl, hcm, by simp, fun _ => .inl rfl⟩
          · rw [ht]; rfl
          · exact ht.symm
        | cons r src =>
          simp only
          rw [ht, List.nil_append, allParts_cons, todo_step (by omega : 0 < r.rrs.length + 1)] at hfu
          by_cases hm : cand + partSize r 0 > max
          · rw [if_pos hm]
            refine ⟨[r], src, false, cand, rfl, rfl, [], todo r 0, 0, ?_, rfl, rfl, hcm, by simp, fun _ => .inr (.inr ?_)⟩
            · rw [ht]; simp [allParts]
            · exact ⟨part r 0, _, by rw [todo_step (by omega), List.cons_append], by rw [part_length]; exact hm⟩
          · rw [if_neg hm]
            by_cases hth : cand + partSize r 0 ≥ thresh
            · rw [if_pos hth]
              refine ⟨[r], src, false, cand + partSize r 0, rfl, rfl, [part r 0], todo r 1, 1, ?_, rfl, ?_, by omega, by simp, by simp⟩
              · rw [ht, List.nil_append, allParts_cons, todo_step (by omega)]; simp [allParts]
              · simp [total, part_length]
            · rw [if_neg hth]
              obtain ⟨s1, src', fin, real, e1, e2, a, c, ph, e3, e4, e5, e6, e7, e8⟩ :=
                ih (pre ++ [cur]) r src 1 (cand + partSize r 0)
                  (by simp only [List.cons_append, List.length_cons] at hfu; exact Nat.lt_of_succ_lt_succ hfu) (by omega)
              refine ⟨r :: s1, src', fin, real, by rw [e1]; simp, by rw [e2]; rfl, part r 0 :: a, c, ph, ?_, ?_, ?_, e6, e7, by simp⟩
              · rw [ht, List.nil_append, allParts_cons, todo_step (by omega), List.cons_append, e3, List.cons_append]
              · rw [lastOf_cons]; exact e4
              · rw [e5, total_cons, part_length]; omega
    · rw [if_neg hp]
      rw [todo_step (by omega)] at hfu
      simp only
      by_cases hm : cand + partSize cur tmp > max
      · rw [if_pos hm]
        refine ⟨[], src, false, cand, rfl, rfl, [], todo cur tmp, tmp, by simp [allParts], rfl, rfl, hcm, by simp, fun _ => .inr (.inr ?_)⟩
        exact ⟨part cur tmp, _, by rw [todo_step (by omega), List.cons_append], by rw [part_length]; exact hm⟩
      · rw [if_neg hm]
        by_cases hth : cand + partSize cur tmp ≥ thresh
        · rw [if_pos hth]
          refine ⟨[], src, false, cand + partSize cur tmp, rfl, rfl, [part cur tmp], todo cur (tmp + 1), tmp + 1, ?_, rfl, ?_, by omega, by simp, by simp⟩
          · rw [todo_step (by omega)]; simp [allParts]
          · simp [total, part_length]
        · rw [if_neg hth]
          obtain ⟨s1, src', fin, real, e1, e2, a, c, ph, e3, e4, e5, e6, e7, e8⟩ :=
            ih pre cur src (tmp + 1) (cand + partSize cur tmp)
              (by simp only [List.cons_append, List.length_cons] at hfu; omega) (by omega)
          refine ⟨s1, src', fin, real, e1, e2, part cur tmp :: a, c, ph, ?_, e4, ?_, e6, e7, by simp⟩
          · rw [todo_step (by omega), List.cons_append, e3, List.cons_append]
          · rw [e5, total_cons, part_length]; omega

/-- What is to be written in a state. -/
def left (st : St) : List Bytes :=
  match st.buf.getLast? with
  | some cur => todo cur st.phase ++ allParts st.src
  | none => allParts st.src

theorem getLast_lastOf (cur : Rr) (l : List Rr) : (cur :: l).getLast? = some (lastOf cur l) := by
  rw [lastOf, List.getLast?_eq_some_getLast (by simp)]

theorem todo_le (cur : Rr) (src : List Rr) (n : Nat) :
    (todo cur n ++ allParts src).length < parts (cur :: src) + 1 := by
  rw [List.length_append, todo_length, allParts_length]
  simp only [parts, List.map_cons, List.sum_cons]
  omega

/-- One round of writing. -/
theorem round_spec {thresh max : Nat} {st : St} (hfin : st.fin = false) (h0 : st.buf = [] → st.phase = 0)
    (hmax : ∀ x ∈ left st, x.length ≤ max) :
    ∃ st' real, prepare thresh max st = .ok (st', real) ∧
      ((real = 0 ∧ left st = []) ∨
       (∃ a b, left st = a ++ b ∧ a ≠ [] ∧ real = total a ∧ real ≤ max ∧ real ≠ 0 ∧
        ∀ space : Bytes, space.length = real → ∃ st'', chunk st' real space = .ok (st'', a.flatten) ∧
          left st'' = b ∧ (st''.fin = true → b = []) ∧ st''.buf ≠ [])) := by
  have key : ∀ cur src, left st = todo cur st.phase ++ allParts src →
      ∃ r, prepareLoop thresh max (parts (cur :: src) + 1) [] cur src st.phase 0 = .ok r ∧
      ((r.2.2.2 = 0 ∧ left st = []) ∨
       (∃ a b, left st = a ++ b ∧ a ≠ [] ∧ r.2.2.2 = total a ∧ r.2.2.2 ≤ max ∧ r.2.2.2 ≠ 0 ∧
        ∀ space : Bytes, space.length = r.2.2.2 →
          ∃ st'', chunk ⟨r.1, st.phase, r.2.1, r.2.2.1⟩ r.2.2.2 space = .ok (st'', a.flatten) ∧
          left st'' = b ∧ (st''.fin = true → b = []) ∧ st''.buf ≠ [])) := by
    intro cur src hl
    obtain ⟨s1, src', fin, real, e1, e2, a, c, ph, e3, e4, e5, e6, e7, e8⟩ :=
      prepareLoop_spec thresh max (parts (cur :: src) + 1) [] cur src st.phase 0 (todo_le _ _ _) (Nat.zero_le _)
    refine ⟨_, e1, ?_⟩
    have hleft : left st = a ++ (c ++ allParts src') := by
      rw [hl, e2, allParts_append, ← List.append_assoc, e3, List.append_assoc]
    simp only
    by_cases ha : a = []
    · left
      refine ⟨by rw [e5, ha]; rfl, ?_⟩
      rcases e8 ha with q | q | ⟨x, l, q1, q2⟩
      · rw [hleft, ha, q]; rfl
      · exact absurd q (by decide)
      · exfalso
        have := hmax x (by rw [hleft, ha, q1]; simp)
        omega
    · right
      have hpos : 0 < total a := by
        cases a with
        | nil => exact absurd rfl ha
        | cons x a =>
          rw [total_cons]
          have hx : x ∈ todo cur st.phase ++ allParts s1 := by rw [e3]; simp
          have : ∃ r n, x = part r n := by
            rcases List.mem_append.mp hx with q | q
            · simp only [todo, List.mem_map] at q
              obtain ⟨n, _, rfl⟩ := q
              exact ⟨_, _, rfl⟩
            · simp only [allParts, List.mem_flatMap, todo, List.mem_map] at q
              obtain ⟨r, _, n, _, rfl⟩ := q
              exact ⟨_, _, rfl⟩
          obtain ⟨r, n, rfl⟩ := this
          have := partSize_pos r n
          rw [part_length]
          omega
      refine ⟨a, c ++ allParts src', hleft, ha, by omega, e6, by omega, fun space hs => ?_⟩
      simp only [List.nil_append, chunk]
      obtain ⟨p', f1, f2⟩ := chunkLoop_spec (parts (cur :: s1) + 1) cur s1 st.phase real [] a c ph e3 e4 (by omega)
        (todo_le _ _ _)
      rw [f1, Res.bind_ok]
      refine ⟨⟨cur :: s1, p', src', fin⟩, ?_, ?_, ?_, by simp⟩
      · have : space.length = a.flatten.length := by rw [hs, e5]; simp [total]
        simp [← this]
      · simp only [left, getLast_lastOf, f2]
      · intro q
        obtain ⟨q1, q2⟩ := e7 q
        rw [q1, q2]; rfl
  unfold prepare
  cases hb : st.buf.getLast? with
  | some cur =>
    have hl : left st = todo cur st.phase ++ allParts st.src := by simp [left, hb]
    obtain ⟨r, r1, r2⟩ := key cur st.src hl
    simp only
    rw [r1]
    exact ⟨_, _, rfl, r2⟩
  | none =>
    have hbn : st.buf = [] := List.getLast?_eq_none_iff.mp hb
    have hl : left st = allParts st.src := by simp [left, hb]
    cases hsrc : st.src with
    | nil => exact ⟨_, _, rfl, .inl ⟨rfl, by rw [hl, hsrc]; rfl⟩⟩
    | cons cur src =>
      obtain ⟨r, r1, r2⟩ := key cur src (by rw [hl, hsrc, allParts_cons, h0 hbn])
      simp only
      rw [r1]
      exact ⟨_, _, rfl, r2⟩

/-- Writing everything: the parts come in groups. -/
theorem writeLoop_spec {thresh max : Nat} {junk : Nat → Bytes} (hj : ∀ n, (junk n).length = n) :
    ∀ (fuel : Nat) (st : St), (st.fin = true → left st = []) → (st.buf = [] → st.phase = 0) →
    (∀ x ∈ left st, x.length ≤ max) → (left st).length + 1 < fuel →
    ∃ g : List (List Bytes), writeLoop thresh max junk fuel st = .ok (g.map List.flatten) ∧ g.flatten = left st ∧
      ∀ x ∈ g, x ≠ [] ∧ total x ≤ max := by
  intro fuel
  induction fuel with
  | zero => intro _ _ _ _ h; omega
  | succ fuel ih =>
    intro st hf h0 hmax hfu
    unfold writeLoop
    by_cases hfin : st.fin = true
    · rw [if_pos hfin]
      exact ⟨[], rfl, (hf hfin).symm, by simp⟩
    · rw [if_neg hfin]
      obtain ⟨st', real, e1, e2⟩ := round_spec (thresh := thresh) (by simpa using hfin) h0 hmax
      rw [e1, Res.bind_ok]
      rcases e2 with ⟨q1, q2⟩ | ⟨a, b, q1, q2, q3, q4, q5, q6⟩
      · rw [if_pos q1]
        exact ⟨[], rfl, q2.symm, by simp⟩
      · rw [if_neg q5]
        obtain ⟨st'', f1, f2, f3, f4⟩ := q6 (junk real) (hj real)
        rw [f1, Res.bind_ok]
        have hlen : 0 < a.length := by
          cases a with
          | nil => exact absurd rfl q2
          | cons x a => simp
        rw [q1, List.length_append] at hfu
        obtain ⟨g, g1, g2, g3⟩ := ih st'' (fun q => f2.trans (f3 q)) (fun q => absurd q f4)
          (by rw [f2]; intro x hx; exact hmax x (by rw [q1]; exact List.mem_append_right _ hx))
          (by rw [f2]; omega)
        refine ⟨a :: g, ?_, ?_, ?_⟩
        · simp only
          rw [g1]; rfl
        · rw [List.flatten_cons, g2, f2, q1]
        · intro x hx
          rcases List.mem_cons.mp hx with q | q
          · rw [q]; exact ⟨q2, by omega⟩
          · exact g3 x q

end Knot.Jserial
