import Verif.Dname.Lemmas
/-! # Lemmas about ordering and presentation format -/
namespace Knot.Dname
open Knot

/-! ## Lookup format -/

/-- The content of the lookup format: labels from the root down, each followed by NUL. -/
def lfBody (ls : Name) : Bytes := ls.reverse.flatMap (· ++ [0])

theorem lfBody_length (ls : Name) : (lfBody ls).length + 1 = nameLen ls := by
  induction ls with
  | nil => rfl
  | cons l ls ih =>
    simp only [lfBody, List.reverse_cons, List.flatMap_append, List.length_append, nameLen] at *
    simp [List.flatMap_cons] at *
    omega

theorem lfLoop_wire {ls : Name} (r acc : Bytes) (h : LabelsOk ls)
    (hl : acc.length + nameLen ls ≤ 255) :
    lfLoop (wire ls ++ r) acc = .ok (UInt8.ofNat (lfBody ls ++ acc).length :: (lfBody ls ++ acc)) := by
  induction ls generalizing acc with
  | nil =>
    unfold lfLoop
    simp only [wire, nameLen] at *
    simp [lfBody]; omega
  | cons l ls ih =>
    have := h.head
    have := nameLen_pos ls
    simp only [nameLen] at hl
    unfold lfLoop
    simp only [wire, List.cons_append, h.head_toNat]
    rw [if_neg (by omega), if_neg (by omega), if_neg (by omega), if_neg (by simp)]
    rw [List.append_assoc, List.drop_left, List.take_left, ih _ h.tail]
    · simp [lfBody, List.flatMap_append]
    · simp; omega

theorem lf_wire {ls : Name} (r : Bytes) (h : Valid ls) :
    lf (wire ls ++ r) = .ok (UInt8.ofNat (lfBody ls).length :: lfBody ls) := by
  unfold lf
  rw [lfLoop_wire r [] h.1 (by simpa using h.2)]
  simp

theorem byteCmp_self (a : UInt8) : byteCmp a a = .eq := by simp [byteCmp]

/-- The comparison procedure of `cmp` is lexicographic comparison. -/
theorem memcmp_lex (x y : Bytes) :
    (match memcmp (x.take (if x.length > y.length then y.length else x.length))
                  (y.take (if x.length > y.length then y.length else x.length)) with
      | .lt => Ordering.lt
      | .gt => .gt
      | .eq => if x.length < y.length then .lt else if x.length > y.length then .gt else .eq)
    = lexCmp byteCmp x y := by
  induction x generalizing y with
  | nil => cases y <;> simp [memcmp, lexCmp]
  | cons a s ih =>
    cases y with
    | nil => simp [memcmp, lexCmp]
    | cons b t =>
      have e : (if (a :: s).length > (b :: t).length then (b :: t).length else (a :: s).length)
        = (if s.length > t.length then t.length else s.length) + 1 := by
        simp only [List.length_cons]; split <;> split <;> omega
      rw [e]
      simp only [List.take_succ_cons, memcmp, lexCmp, byteCmp]
      rcases Nat.lt_trichotomy a.toNat b.toNat with h | h | h
      · simp [h, Nat.compare_eq_lt.mpr h]
      · simp only [h, Nat.lt_irrefl, if_false]
        rw [← ih t]
        simp only [List.length_cons]
        simp
      · have : ¬ a.toNat < b.toNat := by omega
        simp [h, this, Nat.compare_eq_gt.mpr h]

theorem lexCmp_sep (k l x y : Bytes) (hk : 0 ∉ k) (hl : 0 ∉ l) :
    lexCmp byteCmp (k ++ 0 :: x) (l ++ 0 :: y) =
      match lexCmp byteCmp k l with
      | .lt => .lt
      | .gt => .gt
      | .eq => lexCmp byteCmp x y := by
  have pos : ∀ {b : UInt8}, b ≠ 0 → 0 < b.toNat := by
    intro b hb
    rcases Nat.eq_zero_or_pos b.toNat with h | h
    · exact absurd (zero_toNat.mp h) hb
    · exact h
  induction k generalizing l with
  | nil =>
    cases l with
    | nil => simp [lexCmp, byteCmp]
    | cons b t =>
      simp only [List.mem_cons, not_or] at hl
      have := pos (Ne.symm hl.1)
      simp [lexCmp, byteCmp, Nat.compare_eq_lt.mpr this]
  | cons a s ih =>
    simp only [List.mem_cons, not_or] at hk
    cases l with
    | nil =>
      have := pos (Ne.symm hk.1)
      have h2 : compare a.toNat 0 = .gt := Nat.compare_eq_gt.mpr this
      simp [lexCmp, byteCmp, h2]
    | cons b t =>
      simp only [List.mem_cons, not_or] at hl
      simp only [List.cons_append, lexCmp]
      rw [ih _ hk.2 hl.2]
      cases byteCmp a b <;> rfl

theorem lexCmp_flat (A B : List Bytes) (hA : ∀ l ∈ A, 0 ∉ l) (hB : ∀ l ∈ B, 0 ∉ l) :
    lexCmp byteCmp (A.flatMap (· ++ [0])) (B.flatMap (· ++ [0])) =
      lexCmp (lexCmp byteCmp) A B := by
  induction A generalizing B with
  | nil =>
    cases B with
    | nil => rfl
    | cons l ls =>
      simp only [List.flatMap_nil, List.flatMap_cons, lexCmp]
      cases l <;> simp [lexCmp]
  | cons k ks ih =>
    cases B with
    | nil =>
      simp only [List.flatMap_nil, List.flatMap_cons, lexCmp]
      cases k <;> simp [lexCmp]
    | cons l ls =>
      simp only [List.flatMap_cons, List.append_assoc, List.singleton_append, lexCmp]
      rw [lexCmp_sep _ _ _ _ (hA k (by simp)) (hB l (by simp)),
        ih _ (fun x hx => hA x (by simp [hx])) (fun x hx => hB x (by simp [hx]))]
      cases lexCmp byteCmp k l <;> rfl

theorem cmp_wire_lex {a b : Name} (r s : Bytes) (ha : Valid a) (hb : Valid b) :
    cmp (wire a ++ r) (wire b ++ s) = .ok (lexCmp byteCmp (lfBody a) (lfBody b)) := by
  have h1 := lfBody_length a
  have h2 := lfBody_length b
  have h3 := ha.2
  have h4 := hb.2
  unfold cmp
  rw [lf_wire r ha, lf_wire s hb]
  simp only [Res.bind_ok]
  rw [ofNat_toNat (by omega), ofNat_toNat (by omega), ← memcmp_lex]
  generalize memcmp _ _ = o
  cases o <;> rfl

/-! ## Order facts about the specification -/

theorem byteCmp_eq {a b : UInt8} : byteCmp a b = .eq ↔ a = b := by
  simp only [byteCmp, Nat.compare_eq_eq]
  exact ⟨byte_eq, fun h => by rw [h]⟩

theorem lexCmp_eq {α} {c : α → α → Ordering} (hc : ∀ a b, c a b = .eq ↔ a = b) (x y : List α) :
    lexCmp c x y = .eq ↔ x = y := by
  induction x generalizing y with
  | nil => cases y <;> simp [lexCmp]
  | cons a s ih =>
    cases y with
    | nil => simp [lexCmp]
    | cons b t =>
      simp only [lexCmp, List.cons.injEq]
      cases h : c a b
      · simp only [reduceCtorEq, false_iff, not_and]
        intro h'; rw [(hc a b).mpr h'] at h; cases h
      · simp [ih, (hc a b).mp h]
      · simp only [reduceCtorEq, false_iff, not_and]
        intro h'; rw [(hc a b).mpr h'] at h; cases h

theorem lexCmp_swap {α} {c : α → α → Ordering} (hc : ∀ a b, c b a = (c a b).swap) (x y : List α) :
    lexCmp c y x = (lexCmp c x y).swap := by
  induction x generalizing y with
  | nil => cases y <;> simp [lexCmp]
  | cons a s ih =>
    cases y with
    | nil => simp [lexCmp]
    | cons b t =>
      simp only [lexCmp, hc a b]
      cases h : c a b <;> simp [ih]

theorem lexCmp_trans {α} {c : α → α → Ordering} (he : ∀ a b, c a b = .eq ↔ a = b)
    (hc : ∀ x y z, c x y = .lt → c y z = .lt → c x z = .lt) (x y z : List α) :
    lexCmp c x y = .lt → lexCmp c y z = .lt → lexCmp c x z = .lt := by
  induction x generalizing y z with
  | nil => cases y <;> cases z <;> simp [lexCmp]
  | cons a s ih =>
    cases y with
    | nil => simp [lexCmp]
    | cons b t =>
      cases z with
      | nil => simp [lexCmp]
      | cons d u =>
        simp only [lexCmp]
        cases h1 : c a b <;> cases h2 : c b d <;> simp
        · rw [hc _ _ _ h1 h2]
        · rw [he] at h2; subst h2; rw [h1]; simp
        · rw [he] at h1; subst h1; rw [h2]; simp
        · rw [he] at h1 h2; subst h1; subst h2; rw [(he a a).mpr rfl]; exact ih t u

theorem byteCmp_swap (a b : UInt8) : byteCmp b a = (byteCmp a b).swap := by
  simp [byteCmp, Nat.compare_swap]

theorem byteCmp_trans (x y z : UInt8) : byteCmp x y = .lt → byteCmp y z = .lt → byteCmp x z = .lt := by
  simp only [byteCmp, Nat.compare_eq_lt]; omega

theorem canonCmp_eq (a b : Name) : canonCmp a b = .eq ↔ a = b := by
  unfold canonCmp
  rw [lexCmp_eq (lexCmp_eq (fun _ _ => byteCmp_eq)), List.reverse_inj]

theorem canonCmp_swap (a b : Name) : canonCmp b a = (canonCmp a b).swap :=
  lexCmp_swap (fun _ _ => lexCmp_swap byteCmp_swap _ _) _ _

theorem canonCmp_trans (a b c : Name) : canonCmp a b = .lt → canonCmp b c = .lt → canonCmp a c = .lt :=
  lexCmp_trans (lexCmp_eq (fun _ _ => byteCmp_eq))
    (lexCmp_trans (fun _ _ => byteCmp_eq) byteCmp_trans) _ _ _

/-! ## Common suffix -/

theorem zip_self_eq_map {α} (l : List α) : l.zip l = l.map (fun x => (x, x)) := by
  induction l with
  | nil => rfl
  | cons a t ih => simp [ih]

theorem takeWhile_self_iff {α} {p : α → Bool} {l : List α} :
    l.takeWhile p = l ↔ ∀ x ∈ l, p x = true := by
  induction l with
  | nil => simp
  | cons a t ih =>
    by_cases h : p a
    · simp [h, ih]
    · simp [h]

theorem commonSuffixLen_cons {a b : Name} (k l : Label) (h : a.length = b.length) :
    commonSuffixLen (k :: a) (l :: b) =
      if a = b then (if k = l then a.length + 1 else a.length) else commonSuffixLen a b := by
  have hz : ((k :: a).reverse.zip (l :: b).reverse) = a.reverse.zip b.reverse ++ [(k, l)] := by
    rw [List.reverse_cons, List.reverse_cons, List.zip_append (by simpa using h)]; rfl
  unfold commonSuffixLen
  rw [hz, List.takeWhile_append]
  by_cases he : a = b
  · subst he
    have : ((a.reverse.zip a.reverse).takeWhile (fun p => p.1 == p.2)) = a.reverse.zip a.reverse := by
      rw [takeWhile_self_iff]
      intro x hx
      rw [zip_self_eq_map] at hx
      simp only [List.mem_map] at hx
      obtain ⟨y, _, rfl⟩ := hx
      simp
    rw [this, if_pos rfl, if_pos rfl]
    by_cases hk : k = l <;> simp [hk]
  · rw [if_neg he, if_neg]
    intro hlen
    apply he
    have hp := (List.takeWhile_prefix (l := a.reverse.zip b.reverse) (fun p => p.1 == p.2)).eq_of_length hlen
    rw [takeWhile_self_iff] at hp
    have : a.reverse = b.reverse := by
      apply List.ext_getElem (by simpa using h)
      intro i h1 h2
      have := hp (a.reverse[i], b.reverse[i]) (by
        rw [List.mem_iff_getElem]
        exact ⟨i, by simp at *; omega, by simp⟩)
      simpa using this
    simpa using this

theorem matchedLoop_wire {a b : Name} (r s : Bytes) (ha : LabelsOk a) (hb : LabelsOk b)
    (h : a.length = b.length) (m : Nat) :
    matchedLoop (wire a ++ r) (wire b ++ s) a.length m =
      .ok (if a = b then m + a.length else commonSuffixLen a b) := by
  induction a generalizing b m with
  | nil =>
    cases b with
    | nil => simp [matchedLoop]
    | cons => simp at h
  | cons k ks ih =>
    cases b with
    | nil => simp at h
    | cons l ls =>
      simp only [List.length_cons, matchedLoop]
      rw [labelIsEqual_wire r s false ha hb, nextLabel_wire r ha, nextLabel_wire s hb]
      simp only [Res.bind_ok]
      have h' : ks.length = ls.length := by simpa using h
      rw [ih ha.tail hb.tail h', commonSuffixLen_cons _ _ h']
      congr 1
      by_cases h1 : ks = ls
      · subst h1
        by_cases h2 : k = l
        · subst h2; simp; omega
        · simp [h2]
      · simp [h1]

theorem commonSuffixLen_drop (a b : Name) :
    commonSuffixLen a b = commonSuffixLen (a.drop (a.length - b.length)) (b.drop (b.length - a.length)) := by
  unfold commonSuffixLen
  congr 2
  rw [List.zip_eq_zip_take_min (l₁ := a.reverse) (l₂ := b.reverse)]
  simp only [List.length_reverse]
  rw [List.reverse_drop, List.reverse_drop]
  congr 2 <;> omega

theorem LabelsOk.drop {ls : Name} (h : LabelsOk ls) (k : Nat) : LabelsOk (ls.drop k) :=
  fun l hl => h l (List.mem_of_mem_drop hl)

theorem matchedLabels_wire {a b : Name} (r s : Bytes) (ha : LabelsOk a) (hb : LabelsOk b) :
    matchedLabels (wire a ++ r) (wire b ++ s) = .ok (commonSuffixLen a b) := by
  unfold matchedLabels
  rw [labels_wire r ha, labels_wire s hb]
  simp only [Res.bind_ok]
  split
  · rename_i h0
    rcases h0 with h0 | h0
    · rw [List.length_eq_zero_iff] at h0; subst h0; simp [commonSuffixLen]
    · rw [List.length_eq_zero_iff] at h0; subst h0; simp [commonSuffixLen]
  · rw [skipLabels_wire r ha (by omega), skipLabels_wire s hb (by omega)]
    simp only [Res.bind_ok]
    have hl : (a.drop (a.length - b.length)).length = (b.drop (b.length - a.length)).length := by
      simp only [List.length_drop]; omega
    have e : (if a.length < b.length then a.length else b.length) =
        (a.drop (a.length - b.length)).length := by
      simp only [List.length_drop]; split <;> omega
    rw [e, matchedLoop_wire r s (ha.drop _) (hb.drop _) hl]
    rw [commonSuffixLen_drop a b]
    congr 1
    split
    · rename_i he
      rw [← he]
      unfold commonSuffixLen
      rw [takeWhile_self_iff.mpr]
      · simp
      · intro x hx
        rw [zip_self_eq_map] at hx
        simp only [List.mem_map] at hx
        obtain ⟨y, _, rfl⟩ := hx
        simp
    · rfl

theorem inBailiwick_wire {a b : Name} (r s : Bytes) (ha : LabelsOk a) (hb : LabelsOk b) :
    inBailiwick (wire a ++ r) (wire b ++ s) =
      if b <:+ a then .ok (a.length - b.length) else .err .eoutofzone := by
  unfold inBailiwick
  rw [labels_wire r ha, labels_wire s hb]
  simp only [Res.bind_ok]
  split
  · rw [if_neg]
    intro h; have := h.length_le; omega
  · rw [skipLabels_wire r ha (by omega)]
    simp only [Res.bind_ok, isEqual]
    rw [isEqualGen_wire r s false (ha.drop _) hb]
    simp only [Res.bind_ok, Bool.false_eq_true, if_false, beq_iff_eq]
    congr 1
    rw [eq_iff_iff, List.suffix_iff_eq_drop]
    exact eq_comm

theorem nameLen_append (a b : Name) : nameLen (a ++ b) + 1 = nameLen a + nameLen b := by
  induction a with
  | nil => simp [nameLen]; omega
  | cons l ls ih => simp only [List.cons_append, nameLen]; omega

theorem replaceSuffix_wire {a b : Name} (r s : Bytes) (ha : LabelsOk a) (hb : LabelsOk b) (n : Nat) :
    replaceSuffix (wire a ++ r) n (wire b ++ s) =
      .ok (if n < a.length then some (wire (a.take (a.length - n) ++ b)) else none) := by
  unfold replaceSuffix
  rw [labels_wire r ha]
  simp only [Res.bind_ok]
  split
  · rw [if_neg (by omega)]
  · rw [prefixlen_wire r ha, size_wire s hb]
    simp only [Res.bind_ok]
    have h1 := nameLen_pos b
    by_cases hn : n < a.length
    · have h2 : 2 ≤ nameLen (a.take (a.length - n)) := by
        cases a with
        | nil => simp at hn
        | cons l ls =>
          have e : (l :: ls).length - n = (ls.length - n) + 1 := by simp at *; omega
          rw [e, List.take_succ_cons, nameLen]
          have := nameLen_pos (ls.take (ls.length - n))
          omega
      rw [if_neg (by omega), copyPrefix_wire r ha (by omega), copyAll_wire s hb]
      simp only [Res.bind_ok, List.length_dropLast, wire_length]
      rw [if_neg (by omega), if_pos hn, wire_append]
    · have e : a.length - n = 0 := by omega
      simp [e, nameLen, hn]

/-! ## Printing -/

theorem isPlain_eq (c : UInt8) : isPlain c = true ↔
    ((48 ≤ c.toNat ∧ c.toNat ≤ 57) ∨ (65 ≤ c.toNat ∧ c.toNat ≤ 90) ∨
     (97 ≤ c.toNat ∧ c.toNat ≤ 122) ∨
     c.toNat = 45 ∨ c.toNat = 95 ∨ c.toNat = 42 ∨ c.toNat = 47) := by
  simp only [isPlain, isAlnum, isDigit, Bool.or_eq_true, decide_eq_true_eq, beq_iff_eq,
    ← UInt8.toNat_inj, UInt8.reduceToNat]
  omega

theorem isPunct_eq (c : UInt8) (h : ¬ isPlain c = true) :
    (isPunct c && !(c == 35)) = true ↔ 33 ≤ c.toNat ∧ c.toNat ≤ 126 ∧ c.toNat ≠ 35 := by
  rw [isPlain_eq] at h
  simp only [isPunct, isAlnum, isDigit, Bool.and_eq_true, Bool.not_eq_true', Bool.or_eq_false_iff,
    decide_eq_true_eq, decide_eq_false_iff_not, beq_eq_false_iff_ne, ne_eq,
    ← UInt8.toNat_inj, UInt8.reduceToNat]
  omega

theorem escByte_cases (c : UInt8) :
    (isPlain c = true ∧ escByte c = [c]) ∨
    (¬ isPlain c = true ∧ (isPunct c && !(c == 35)) = true ∧ escByte c = [92, c]) ∨
    (¬ isPlain c = true ∧ ¬ (isPunct c && !(c == 35)) = true ∧ escByte c = ddd c) := by
  unfold escByte
  by_cases h : isPlain c = true
  · left; refine ⟨h, ?_⟩
    rw [isPlain_eq] at h
    simp only [h, if_true]
  · right
    by_cases h2 : (isPunct c && !(c == 35)) = true
    · left; refine ⟨h, h2, ?_⟩
      rw [isPunct_eq c h] at h2
      rw [isPlain_eq] at h
      simp only [h, if_false]
      rw [if_pos h2]
    · right; refine ⟨h, h2, ?_⟩
      rw [isPunct_eq c h] at h2
      rw [isPlain_eq] at h
      simp only [h, if_false]
      rw [if_neg h2]; rfl

theorem escByte_length (c : UInt8) : 1 ≤ (escByte c).length ∧ (escByte c).length ≤ 4 := by
  rcases escByte_cases c with ⟨_, h⟩ | ⟨_, _, h⟩ | ⟨_, _, h⟩ <;> rw [h] <;> simp [ddd]

theorem escLabel_cons (c : UInt8) (l : Label) : escLabel (c :: l) = escByte c ++ escLabel l := by
  simp [escLabel]

theorem escLabel_length (l : Label) :
    l.length ≤ (escLabel l).length ∧ (escLabel l).length ≤ 4 * l.length := by
  induction l with
  | nil => simp [escLabel]
  | cons c l ih =>
    have := escByte_length c
    rw [escLabel_cons, List.length_append, List.length_cons]; omega

/-- Printing one label into a caller's buffer. -/
theorem toStrLoop_label_buf (sz1 : Bool) (l : Label) (t : Bytes) (asz : Nat) (out : Bytes)
    (ho : out.length < asz) :
    toStrLoop false sz1 (l ++ t) l.length asz out =
      if out.length + (escLabel l).length < asz
      then toStrLoop false sz1 t 0 asz (out ++ escLabel l) else none := by
  induction l generalizing out with
  | nil => simp [escLabel, ho]
  | cons c l ih =>
    simp only [List.cons_append, List.length_cons, toStrLoop]
    rw [escLabel_cons]
    have hl := escLabel_length l
    rcases escByte_cases c with ⟨h1, h⟩ | ⟨h1, h2, h⟩ | ⟨h1, h2, h⟩
    · rw [h, if_pos h1]
      split
      · rw [if_neg]; simp; omega
      · rw [ih _ (by simp; omega)]
        simp [Nat.add_assoc, Nat.add_comm]
    · rw [h, if_neg h1, if_pos h2]
      simp only [Bool.false_eq_true, if_false]
      split
      · rw [if_neg]; simp; omega
      · rw [ih _ (by simp; omega)]
        simp only [List.length_append, List.append_assoc, Nat.add_assoc, List.length_cons,
          List.length_nil]
    · rw [h, if_neg h1, if_neg h2]
      simp only [Bool.false_eq_true, if_false]
      split
      · rw [if_neg]; simp [ddd]; omega
      · rw [ih _ (by simp [ddd]; omega)]
        simp only [List.length_append, List.append_assoc, Nat.add_assoc, List.length_cons,
          List.length_nil, ddd]

/-- Printing one label in the allocating variant. -/
theorem toStrLoop_label_alloc (sz1 : Bool) (l : Label) (t : Bytes) (asz : Nat) (out : Bytes)
    (ho : out.length + l.length < asz) :
    toStrLoop true sz1 (l ++ t) l.length asz out =
      toStrLoop true sz1 t 0 (asz + ((escLabel l).length - l.length)) (out ++ escLabel l) := by
  induction l generalizing out asz with
  | nil => simp [escLabel]
  | cons c l ih =>
    simp only [List.cons_append, List.length_cons, toStrLoop]
    simp only [List.length_cons] at ho
    rw [escLabel_cons]
    have hl := escLabel_length l
    rcases escByte_cases c with ⟨h1, h⟩ | ⟨h1, h2, h⟩ | ⟨h1, h2, h⟩
    · rw [h, if_pos h1, if_neg (by omega), ih _ _ (by simp; omega)]
      simp only [List.append_assoc, List.length_append, List.length_singleton]
      congr 1; omega
    · rw [h, if_neg h1, if_pos h2]
      simp only [if_true]
      rw [ih _ _ (by simp; omega)]
      simp only [List.append_assoc, List.length_append, List.length_cons, List.length_nil]
      congr 1; omega
    · rw [h, if_neg h1, if_neg h2]
      simp only [if_true]
      rw [if_neg (by omega), ih _ _ (by simp [ddd]; omega)]
      simp only [List.append_assoc, List.length_append, ddd, List.length_cons, List.length_nil]
      congr 1; omega

def textBody (ls : Name) : Bytes := ls.flatMap (fun l => escLabel l ++ [46])

theorem textBody_cons_length (l : Label) (ls : Name) :
    (textBody (l :: ls)).length = (escLabel l).length + 1 + (textBody ls).length := by
  simp only [textBody, List.flatMap_cons, List.length_append, List.length_singleton]

theorem textBody_length (ls : Name) : nameLen ls ≤ (textBody ls).length + 1 := by
  induction ls with
  | nil => simp [nameLen, textBody]
  | cons l ls ih =>
    have := escLabel_length l
    simp only [textBody, List.flatMap_cons, List.length_append, nameLen, List.length_singleton] at *
    omega

/-- The rest of a name after a label: `out` is not empty. -/
theorem toStrLoop_rest_buf (sz1 : Bool) (ls : Name) (h : LabelsOk ls) (asz : Nat) (out : Bytes)
    (h0 : 0 < out.length) (ho : out.length < asz) :
    toStrLoop false sz1 (wire ls) 0 asz out =
      if out.length + (textBody ls).length + 1 < asz
      then some (out ++ [46] ++ (textBody ls), asz) else none := by
  induction ls generalizing out with
  | nil =>
    simp only [wire, toStrLoop, textBody]
    rw [if_pos (Or.inl h0)]
    simp only [List.flatMap_nil, List.length_nil, List.append_nil]
    split
    · rw [if_neg (by omega)]
    · rw [if_pos (by omega)]
  | cons l ls ih =>
    have hl := h.head
    have := escLabel_length l
    simp only [wire, toStrLoop, textBody, List.flatMap_cons, List.length_append, h.head_toNat]
    rw [if_pos (Or.inl h0)]
    split
    · rw [if_neg (by simp; omega)]
    · rw [toStrLoop_label_buf _ _ _ _ _ (by simp; omega)]
      split
      · rename_i h1 h2
        simp only [List.length_append, List.length_singleton] at h2
        rw [ih h.tail _ (by simp; omega) (by simp; omega)]
        simp only [List.length_append, List.length_singleton, textBody, List.append_assoc]
        congr 1
        simp only [eq_iff_iff]; omega
      · rename_i h1 h2
        simp only [List.length_append, List.length_singleton] at h2
        rw [if_neg (by simp; omega)]

theorem toStrLoop_rest_alloc (sz1 : Bool) (ls : Name) (h : LabelsOk ls) (asz : Nat) (out : Bytes)
    (h0 : 0 < out.length) (ho : out.length + nameLen ls < asz) :
    toStrLoop true sz1 (wire ls) 0 asz out =
      some (out ++ [46] ++ (textBody ls), asz + ((textBody ls).length + 1 - nameLen ls)) := by
  induction ls generalizing out asz with
  | nil =>
    simp only [wire, toStrLoop, textBody]
    simp only [nameLen] at ho
    rw [if_pos (Or.inl h0), if_neg (by omega)]
    simp [nameLen]
  | cons l ls ih =>
    have hl := h.head
    have := escLabel_length l
    have := textBody_length ls
    have := nameLen_pos ls
    simp only [nameLen] at ho
    simp only [wire, toStrLoop, textBody, List.flatMap_cons, List.length_append, h.head_toNat]
    rw [if_pos (Or.inl h0), if_neg (by omega), toStrLoop_label_alloc _ _ _ _ _ (by simp; omega),
      ih h.tail _ _ (by simp; omega) (by simp; omega)]
    simp only [textBody, List.append_assoc, Option.some.injEq, Prod.mk.injEq, true_and, nameLen] at *
    simp only [List.length_singleton]; omega

theorem text_eq_textBody {ls : Name} (h : ls ≠ []) : text ls = textBody ls := by
  cases ls with
  | nil => exact absurd rfl h
  | cons l ls => rfl

theorem toStr_wire_buf {ls : Name} (r : Bytes) (h : LabelsOk ls) (m : Nat) :
    toStr (wire ls ++ r) (some m) =
      .ok (if nameLen ls < m ∧ (text ls).length < m then some (text ls) else none) := by
  unfold toStr
  rw [size_wire r h]
  simp only [Res.bind_ok, Option.getD_some, Option.isNone_some]
  rw [if_neg (by rw [List.length_append, wire_length]; omega)]
  have ht : (wire ls ++ r).take (nameLen ls) = wire ls := by
    rw [List.take_left' (wire_length ls)]
  rw [ht]
  cases ls with
  | nil =>
    rw [show nameLen [] = 1 from rfl, show text [] = [46] from rfl]
    by_cases hm : 1 < m
    · rw [if_neg (by omega), if_pos ⟨hm, hm⟩]
      have : ¬ m ≤ 1 := by omega
      simp [wire, toStrLoop, this, hm]
    · rw [if_pos (by omega), if_neg (by simp; omega)]
  | cons l ls =>
    have hl := h.head
    have he := escLabel_length l
    have hb := textBody_length ls
    rw [text_eq_textBody (by simp)]
    have hn := nameLen_pos ls
    have h1 : (nameLen (l :: ls) == 1) = false := by simp [nameLen]; omega
    rw [h1]
    have htl : (textBody (l :: ls)).length = (escLabel l).length + 1 + (textBody ls).length := textBody_cons_length l ls
    split
    · rename_i hlt; rw [if_neg (by omega)]
    · rename_i hlt
      simp only [nameLen] at hlt
      simp only [wire, toStrLoop, h.head_toNat]
      rw [if_neg (by simp), toStrLoop_label_buf _ _ _ _ _ (by simp; omega)]
      simp only [List.length_nil, Nat.zero_add, List.nil_append]
      by_cases hf : (textBody (l :: ls)).length < m
      · rw [if_pos (by omega), toStrLoop_rest_buf _ _ h.tail _ _ (by omega) (by omega),
          if_pos (by omega), if_pos ⟨by simp only [nameLen]; omega, hf⟩]
        have : escLabel l ++ [46] ++ textBody ls = textBody (l :: ls) := by simp [textBody]
        simp only [this]
        rw [if_pos hf]
      · rw [if_neg (c := nameLen (l :: ls) < m ∧ (textBody (l :: ls)).length < m) (by omega)]
        split
        · rename_i heq; rfl
        · rename_i s asz heq
          exfalso
          split at heq
          · rw [toStrLoop_rest_buf _ _ h.tail _ _ (by omega) (by omega), if_neg (by omega)] at heq
            cases heq
          · cases heq

theorem toStr_wire_alloc {ls : Name} (r : Bytes) (h : LabelsOk ls) :
    toStr (wire ls ++ r) none = .ok (some (text ls)) := by
  unfold toStr
  rw [size_wire r h]
  simp only [Res.bind_ok, Option.getD_none, Option.isNone_none]
  rw [if_neg (by rw [List.length_append, wire_length]; omega), if_neg (by omega)]
  have ht : (wire ls ++ r).take (nameLen ls) = wire ls := by
    rw [List.take_left' (wire_length ls)]
  rw [ht]
  cases ls with
  | nil => rfl
  | cons l ls =>
    have hl := h.head
    have he := escLabel_length l
    have hb := textBody_length ls
    rw [text_eq_textBody (by simp)]
    have hn := nameLen_pos ls
    have h1 : (nameLen (l :: ls) == 1) = false := by simp [nameLen]; omega
    have htl : (textBody (l :: ls)).length = (escLabel l).length + 1 + (textBody ls).length := textBody_cons_length l ls
    have : escLabel l ++ [46] ++ textBody ls = textBody (l :: ls) := by simp [textBody]
    rw [h1]
    simp only [wire, toStrLoop, h.head_toNat]
    rw [if_neg (by simp), toStrLoop_label_alloc _ _ _ _ _ (by simp [nameLen]; omega)]
    rw [toStrLoop_rest_alloc _ _ h.tail _ _ (by simp; omega) (by simp [nameLen]; omega)]
    simp only [List.nil_append, this]
    rw [if_pos (by simp only [nameLen]; omega)]

theorem escLabels_max {ls : Name} (h : LabelsOk ls) :
    (textBody ls).length + 4 + 3 * ls.length ≤ 4 * nameLen ls ∧ nameLen ls ≤ 64 * ls.length + 1 := by
  induction ls with
  | nil => simp [textBody, nameLen]
  | cons l ls ih =>
    have hl := h.head
    have he := escLabel_length l
    have := ih h.tail
    have htl : (textBody (l :: ls)).length = (escLabel l).length + 1 + (textBody ls).length := textBody_cons_length l ls
    simp only [htl, nameLen, List.length_cons]
    omega

theorem text_length_max {ls : Name} (h : Valid ls) : (text ls).length ≤ 1004 := by
  cases ls with
  | nil => simp [text]
  | cons l ls =>
    rw [text_eq_textBody (by simp)]
    have h1 := escLabels_max h.1
    have := h.2
    omega

/-! ## Parsing -/

theorem isDigit_iff (c : UInt8) : isDigit c = true ↔ 48 ≤ c.toNat ∧ c.toNat ≤ 57 := by
  simp [isDigit]

/-- `Run ch lab ls f`: scanning `ch` with the label under construction `lab` finishes the
labels `ls` and leaves the label `f` under construction. -/
inductive Run : Bytes → Label → Name → Label → Prop
  | nil {lab} : Run [] lab [] lab
  | dot {t lab ls f} : lab ≠ [] → Run t [] ls f → Run (46 :: t) lab (lab :: ls) f
  | plain {c t lab ls f} : c.toNat ≠ 46 → c.toNat ≠ 92 → Run t (lab ++ [c]) ls f →
      Run (c :: t) lab ls f
  | esc {c t lab ls f} : ¬ isDigit c = true → Run t (lab ++ [c]) ls f → Run (92 :: c :: t) lab ls f
  | num {c1 c2 c3 t lab ls f} : isDigit c1 = true → isDigit c2 = true → isDigit c3 = true →
      (c1.toNat - 48) * 100 + (c2.toNat - 48) * 10 + (c3.toNat - 48) ≤ 255 →
      Run t (lab ++ [UInt8.ofNat ((c1.toNat - 48) * 100 + (c2.toNat - 48) * 10 + (c3.toNat - 48))]) ls f →
      Run (92 :: c1 :: c2 :: c3 :: t) lab ls f

theorem Run.lab_le {ch lab ls f} (h : Run ch lab ls f) :
    lab.length + 1 ≤ nameLen ls + f.length := by
  induction h with
  | nil => simp [nameLen]; omega
  | dot _ _ ih => simp only [nameLen, List.length_nil] at *; omega
  | plain _ _ _ ih => simp at ih; omega
  | esc _ _ ih => simp at ih; omega
  | num _ _ _ _ _ ih => simp at ih; omega

theorem Run.first_le {ch lab ls f} (h : Run ch lab ls f) (hb : ∀ l ∈ ls, l.length ≤ 63)
    (hf : f.length ≤ 63) : lab.length ≤ 63 := by
  induction h with
  | nil => exact hf
  | dot _ _ ih => exact hb _ (by simp)
  | plain _ _ _ ih => have := ih hb hf; simp at this; omega
  | esc _ _ ih => have := ih hb hf; simp at this; omega
  | num _ _ _ _ _ ih => have := ih hb hf; simp at this; omega

theorem c46 {c : UInt8} (h : c.toNat = 46) : c = 46 := byte_eq h
theorem c92 {c : UInt8} (h : c.toNat = 92) : c = 92 := byte_eq h

theorem fromStrLoop_iff (cap : Nat) (ch : Bytes) (s s' : FromSt) (hs : s.lab.length ≤ 63) :
    fromStrLoop cap true ch s = some s' ↔
    ∃ ls f, Run ch s.lab ls f ∧ s' = ⟨s.done ++ (wire ls).dropLast, f⟩ ∧
      (∀ l ∈ ls, l.length ≤ 63) ∧ f.length ≤ 63 ∧
      (ch = [] ∨ s.done.length + nameLen ls + f.length ≤ cap) := by
  fun_induction fromStrLoop cap true ch s with
  | case1 s =>
    constructor
    · intro h; cases h
      exact ⟨[], _, .nil, by simp [wire], by simp, hs, .inl rfl⟩
    · rintro ⟨ls, f, h, rfl, _⟩
      cases h
      simp [wire]
  | case2 s c t h =>
    simp only [reduceCtorEq, false_iff, not_exists, not_and, false_or]
    intro ls f h1 h2 h3 h4 h5
    have hl : s.lab.length + 2 ≤ nameLen ls + f.length := by
      cases h1 with
      | dot _ h => have := h.lab_le; simp [nameLen] at *; omega
      | plain _ _ h => have := h.lab_le; simp at *; omega
      | esc _ h => have := h.lab_le; simp at *; omega
      | num _ _ _ _ h => have := h.lab_le; simp at *; omega
    simp only [FromSt.pos] at h
    omega
  | case3 s c t h hc h0 =>
    simp only [reduceCtorEq, false_iff, not_exists, not_and]
    intro ls f h1
    exfalso
    cases h1 with
    | dot h2 => simp at h0; exact h2 h0
    | plain h2 => exact h2 hc
    | esc => simp at hc
    | num => simp at hc
  | case4 s c t h hc h0 ih =>
    have hne : s.lab ≠ [] := by simpa using h0
    obtain rfl := c46 hc
    rw [ih (by simp)]
    simp only [FromSt.pos] at h
    have hd : ∀ ls : Name, s.done ++ (wire (s.lab :: ls)).dropLast =
        s.done ++ UInt8.ofNat s.lab.length :: s.lab ++ (wire ls).dropLast := by
      intro ls
      simp only [wire]
      rw [List.dropLast_cons_of_ne_nil (by simp [wire_ne_nil]),
        List.dropLast_append_of_ne_nil (wire_ne_nil _)]
      simp
    constructor
    · rintro ⟨ls, f, h1, rfl, h3, h4, h5⟩
      refine ⟨s.lab :: ls, f, .dot hne h1, by rw [hd], ?_, h4, .inr ?_⟩
      · simp only [List.mem_cons]; rintro l (rfl | hl); exact hs; exact h3 l hl
      · simp only [nameLen]
        rcases h5 with rfl | h5
        · cases h1; simp [nameLen]; omega
        · simp at h5; omega
    · rintro ⟨ls, f, h1, rfl, h3, h4, h5⟩
      cases h1 with
      | @dot _ _ ls f h1 h2 =>
        refine ⟨ls, f, h2, by rw [hd], fun l hl => h3 l (by simp [hl]), h4, .inr ?_⟩
        simp [nameLen] at h5
        simp; omega
      | plain h2 => exact absurd rfl h2
  | case5 s c h h1 h2 =>
    obtain rfl := c92 h2
    simp only [reduceCtorEq, false_iff, not_exists, not_and]
    intro ls f h1
    cases h1 with
    | plain _ h2 => exact absurd rfl h2
  | case6 s c h h1 h2 d t1 h3 =>
    obtain rfl := c92 h2
    simp only [maxLabelLen] at h3
    simp only [reduceCtorEq, false_iff, not_exists, not_and]
    intro ls f h4 h5 h6 h7
    exfalso
    cases h4 with
    | plain _ h2 => exact absurd rfl h2
    | esc _ h => have := h.first_le h6 h7; simp at this; omega
    | num _ _ _ _ h => have := h.first_le h6 h7; simp at this; omega
  | case7 s c h h1 h2 d h3 hd d2 d3 t2 hd23 num hnum =>
    obtain rfl := c92 h2
    simp only [Bool.and_eq_true] at hd23
    simp only [reduceCtorEq, false_iff, not_exists, not_and]
    intro ls f h4
    exfalso
    cases h4 with
    | plain _ h2 => exact absurd rfl h2
    | esc h => exact h hd
    | num _ _ _ h => omega
  | case8 s c h h1 h2 d h3 hd d2 d3 t2 hd23 num hnum ih =>
    obtain rfl := c92 h2
    simp only [Bool.and_eq_true] at hd23
    simp only [maxLabelLen] at h3
    simp only [FromSt.pos] at h
    rw [ih (by simp; omega)]
    constructor
    · rintro ⟨ls, f, h4, h5, h6, h7, h8⟩
      refine ⟨ls, f, .num hd hd23.1 hd23.2 (by omega) h4, h5, h6, h7, .inr ?_⟩
      rcases h8 with rfl | h8
      · cases h4; simp [nameLen]; omega
      · simpa using h8
    · rintro ⟨ls, f, h4, h5, h6, h7, h8⟩
      cases h4 with
      | plain _ h2 => exact absurd rfl h2
      | esc h => exact absurd hd h
      | num _ _ _ _ h4 =>
        refine ⟨ls, f, h4, h5, h6, h7, .inr ?_⟩
        simpa using h8
  | case9 s c h h1 h2 d h3 hd d2 d3 t2 hd23 =>
    obtain rfl := c92 h2
    simp only [Bool.and_eq_true] at hd23
    simp only [reduceCtorEq, false_iff, not_exists, not_and]
    intro ls f h4
    exfalso
    cases h4 with
    | plain _ h2 => exact absurd rfl h2
    | esc h => exact h hd
    | num _ h h' => exact hd23 ⟨h, h'⟩
  | case10 s c h h1 h2 d t1 h3 hd hno =>
    obtain rfl := c92 h2
    simp only [reduceCtorEq, false_iff, not_exists, not_and]
    intro ls f h4
    exfalso
    cases h4 with
    | plain _ h2 => exact absurd rfl h2
    | esc h => exact h hd
    | num _ h h' => exact hno _ _ _ rfl
  | case11 s c h h1 h2 d t1 h3 hd ih =>
    obtain rfl := c92 h2
    simp only [maxLabelLen] at h3
    simp only [FromSt.pos] at h
    rw [ih (by simp; omega)]
    constructor
    · rintro ⟨ls, f, h4, h5, h6, h7, h8⟩
      refine ⟨ls, f, .esc hd h4, h5, h6, h7, .inr ?_⟩
      rcases h8 with rfl | h8
      · cases h4; simp [nameLen]; omega
      · simpa using h8
    · rintro ⟨ls, f, h4, h5, h6, h7, h8⟩
      cases h4 with
      | plain _ h2 => exact absurd rfl h2
      | esc _ h4 =>
        refine ⟨ls, f, h4, h5, h6, h7, .inr ?_⟩
        simpa using h8
      | num h => exact absurd h hd
  | case12 s c t h h1 h2 h3 =>
    simp only [maxLabelLen] at h3
    simp only [reduceCtorEq, false_iff, not_exists, not_and]
    intro ls f h4 h5 h6 h7
    exfalso
    cases h4 with
    | dot => exact h1 rfl
    | plain _ _ h => have := h.first_le h6 h7; simp at this; omega
    | esc => exact h2 rfl
    | num => exact h2 rfl
  | case13 s c t h h1 h2 h3 ih =>
    simp only [maxLabelLen] at h3
    simp only [FromSt.pos] at h
    rw [ih (by simp; omega)]
    constructor
    · rintro ⟨ls, f, h4, h5, h6, h7, h8⟩
      refine ⟨ls, f, .plain h1 h2 h4, h5, h6, h7, .inr ?_⟩
      rcases h8 with rfl | h8
      · cases h4; simp [nameLen]; omega
      · simpa using h8
    · rintro ⟨ls, f, h4, h5, h6, h7, h8⟩
      cases h4 with
      | dot => exact absurd rfl h1
      | plain _ _ h4 =>
        refine ⟨ls, f, h4, h5, h6, h7, .inr ?_⟩
        simpa using h8
      | esc => exact absurd rfl h2
      | num => exact absurd rfl h2

theorem digit_ofNat {a : Nat} (h : a ≤ 9) : isDigit (UInt8.ofNat (48 + a)) = true ∧
    (UInt8.ofNat (48 + a)).toNat - 48 = a := by
  have : (UInt8.ofNat (48 + a)).toNat = 48 + a := ofNat_toNat (by omega)
  rw [isDigit_iff, this]; omega

theorem Run.of_chars {s l} (h : Chars s l) : ∀ {t lab ls f}, Run t (lab ++ l) ls f →
    Run (s ++ t) lab ls f := by
  induction h with
  | nil => intro t lab ls f h; simpa using h
  | plain h1 h2 _ ih =>
    intro t lab ls f h
    exact .plain h1 h2 (ih (by simpa using h))
  | esc h1 _ ih =>
    intro t lab ls f h
    exact .esc (by rwa [isDigit_iff]) (ih (by simpa using h))
  | @num a b c s l h1 h2 h3 h4 _ ih =>
    intro t lab ls f h
    obtain ⟨e1, e2⟩ := digit_ofNat h1
    obtain ⟨e3, e4⟩ := digit_ofNat h2
    obtain ⟨e5, e6⟩ := digit_ofNat h3
    refine .num e1 e3 e5 (by omega) (ih ?_)
    rw [e2, e4, e6]
    have : a * 100 + b * 10 + c = 100 * a + 10 * b + c := by omega
    rw [this]
    simpa using h

theorem Run.split {ch lab ls f} (h : Run ch lab ls f) :
    (ls = [] ∧ ∃ l, Chars ch l ∧ f = lab ++ l) ∨
    (∃ s l r ls', ch = s ++ 46 :: r ∧ Chars s l ∧ lab ++ l ≠ [] ∧ ls = (lab ++ l) :: ls' ∧
      Run r [] ls' f) := by
  induction h with
  | nil => left; exact ⟨rfl, [], .nil, by simp⟩
  | @dot t lab ls f h1 h2 _ =>
    right; exact ⟨[], [], t, ls, rfl, .nil, by simpa using h1, by simp, h2⟩
  | @plain c t lab ls f h1 h2 _ ih =>
    rcases ih with ⟨h3, l, h4, h5⟩ | ⟨s, l, r, ls', h3, h4, h5, h6, h7⟩
    · left; exact ⟨h3, c :: l, .plain h1 h2 h4, by simpa using h5⟩
    · right; exact ⟨c :: s, c :: l, r, ls', by simp [h3], .plain h1 h2 h4, by simp, by simpa using h6, h7⟩
  | @esc c t lab ls f h1 _ ih =>
    rw [isDigit_iff] at h1
    rcases ih with ⟨h3, l, h4, h5⟩ | ⟨s, l, r, ls', h3, h4, h5, h6, h7⟩
    · left; exact ⟨h3, c :: l, .esc h1 h4, by simpa using h5⟩
    · right; exact ⟨92 :: c :: s, c :: l, r, ls', by simp [h3], .esc h1 h4, by simp, by simpa using h6, h7⟩
  | @num c1 c2 c3 t lab ls f h1 h2 h3 h4 _ ih =>
    rw [isDigit_iff] at h1 h2 h3
    have key : ∀ {s l}, Chars s l → Chars (92 :: c1 :: c2 :: c3 :: s)
        (UInt8.ofNat ((c1.toNat - 48) * 100 + (c2.toNat - 48) * 10 + (c3.toNat - 48)) :: l) := by
      intro s l h
      have := Chars.num (a := c1.toNat - 48) (b := c2.toNat - 48) (c := c3.toNat - 48) (s := s) (l := l)
        (by omega) (by omega) (by omega) (by omega) h
      rw [Nat.add_sub_cancel' h1.1, Nat.add_sub_cancel' h2.1, Nat.add_sub_cancel' h3.1,
        UInt8.ofNat_toNat, UInt8.ofNat_toNat, UInt8.ofNat_toNat, Nat.mul_comm 100, Nat.mul_comm 10] at this
      exact this
    rcases ih with ⟨h3, l, h4, h5⟩ | ⟨s, l, r, ls', h3, h4, h5, h6, h7⟩
    · left; exact ⟨h3, _, key h4, by simpa using h5⟩
    · right
      exact ⟨_ :: _ :: _ :: _ :: s, _, r, ls', by rw [h3]; rfl, key h4, by simp, by simpa using h6, h7⟩

/-- Appending the unfinished last label. -/
def closeName (ls : Name) (f : Label) : Name := if f = [] then ls else ls ++ [f]

theorem Labels_of_Run {ls f} : ∀ {ch}, Run ch [] ls f → ch ≠ [] → Labels ch (closeName ls f) := by
  induction ls with
  | nil =>
    intro ch h hne
    rcases h.split with ⟨_, l, h1, h2⟩ | ⟨s, l, r, ls', h3, h4, h5, h6, h7⟩
    · simp only [List.nil_append] at h2
      subst h2
      have : f ≠ [] := by
        intro h; subst h; cases h1; exact hne rfl
      simp only [closeName, if_neg this]
      exact .last h1 this
    · cases h6
  | cons k ks ih =>
    intro ch h hne
    rcases h.split with ⟨h, _⟩ | ⟨s, l, r, ls', rfl, h4, h5, h6, h7⟩
    · cases h
    · simp only [List.nil_append, List.cons.injEq] at h6 h5
      obtain ⟨rfl, rfl⟩ := h6
      by_cases hr : r = []
      · subst hr; cases h7
        exact .lastDot h4 h5
      · have := ih h7 hr
        have e : closeName (k :: ks) f = k :: closeName ks f := by
          unfold closeName; split <;> simp
        rw [e]
        exact .cons h4 h5 this

theorem Run_of_Labels {ch L} (h : Labels ch L) : ∃ ls f, Run ch [] ls f ∧ L = closeName ls f := by
  induction h with
  | @last s l h1 h2 =>
    refine ⟨[], l, ?_, by simp [closeName, h2]⟩
    have := Run.of_chars h1 (t := []) (lab := []) (ls := []) (f := l) (by simpa using Run.nil)
    simpa using this
  | @lastDot s l h1 h2 =>
    refine ⟨[l], [], ?_, by simp [closeName]⟩
    exact Run.of_chars h1 (.dot (by simpa using h2) .nil)
  | @cons s l r ls h1 h2 _ ih =>
    obtain ⟨ks, f, h3, rfl⟩ := ih
    refine ⟨l :: ks, f, ?_, by unfold closeName; split <;> simp⟩
    exact Run.of_chars h1 (.dot (by simpa using h2) h3)

theorem Labels.ne_nil {ch L} (h : Labels ch L) : ch ≠ [] := by
  cases h with
  | last h1 h2 => intro h; subst h; cases h1; exact h2 rfl
  | lastDot => simp
  | cons => simp

theorem Run.nonempty_labels {ch lab ls f} (h : Run ch lab ls f) : ∀ l ∈ ls, 1 ≤ l.length := by
  induction h with
  | nil => simp
  | dot h1 _ ih =>
    simp only [List.mem_cons]; rintro l (rfl | h)
    · exact List.length_pos_iff.mpr h1
    · exact ih l h
  | plain _ _ _ ih => exact ih
  | esc _ _ ih => exact ih
  | num _ _ _ _ _ ih => exact ih

/-- The wire form uses at most one octet more than the text has characters. -/
theorem Run.length_le {ch lab ls f} (h : Run ch lab ls f) :
    nameLen ls + f.length ≤ lab.length + ch.length + 1 := by
  induction h with
  | nil => simp [nameLen]; omega
  | dot _ _ ih => simp [nameLen] at *; omega
  | plain _ _ _ ih => simp at *; omega
  | esc _ _ ih => simp at *; omega
  | num _ _ _ _ _ ih => simp at *; omega

/-- If the text does not end with a dot then an unfinished label remains (or nothing was read). -/
theorem Run.open_label {ch lab ls f} (h : Run ch lab ls f) (hd : ch.getLast? ≠ some 46)
    (hl : lab ≠ [] ∨ ch ≠ []) : f ≠ [] := by
  induction h with
  | nil => simpa using hl
  | @dot t lab ls f h1 h2 ih =>
    have ht : t ≠ [] := by rintro rfl; simp at hd
    rw [List.getLast?_cons_of_ne_nil ht] at hd
    exact ih hd (.inr ht)
  | @plain c t lab ls f _ _ _ ih =>
    by_cases ht : t = []
    · exact ih (by subst ht; simp) (.inl (by simp))
    · rw [List.getLast?_cons_of_ne_nil ht] at hd
      exact ih hd (.inr ht)
  | @esc c t lab ls f _ _ ih =>
    by_cases ht : t = []
    · exact ih (by subst ht; simp) (.inl (by simp))
    · rw [List.getLast?_cons_of_ne_nil (by simp), List.getLast?_cons_of_ne_nil ht] at hd
      exact ih hd (.inr ht)
  | @num c1 c2 c3 t lab ls f _ _ _ _ _ ih =>
    by_cases ht : t = []
    · exact ih (by subst ht; simp) (.inl (by simp))
    · rw [List.getLast?_cons_of_ne_nil (by simp), List.getLast?_cons_of_ne_nil (by simp),
        List.getLast?_cons_of_ne_nil (by simp), List.getLast?_cons_of_ne_nil ht] at hd
      exact ih hd (.inr ht)

theorem nameLen_closeName (ls : Name) (f : Label) (hf : f ≠ []) :
    nameLen (closeName ls f) = nameLen ls + f.length + 1 := by
  simp only [closeName, if_neg hf]
  have := nameLen_append ls [f]
  simp only [nameLen] at this
  omega

theorem wire_closeName (ls : Name) (f : Label) :
    wire (closeName ls f) = if f = [] then (wire ls).dropLast ++ [0]
      else (wire ls).dropLast ++ UInt8.ofNat f.length :: f ++ [0] := by
  unfold closeName
  split
  · have := wire_append ls []; simpa [wire] using this
  · rw [wire_append]; simp [wire]

/-- Core of the parser for texts of more than one character. -/
theorem fromStr_core (cap : Nat) (ch : Bytes) (hne : ch ≠ []) (hcap : cap ≤ 255) (w : Bytes) :
    fromStrBody cap true ch = some w ↔
    ∃ ls, Labels ch ls ∧ Valid ls ∧ nameLen ls ≤ cap ∧ w = wire ls := by
  unfold fromStrBody
  constructor
  · intro h
    cases hl : fromStrLoop cap true ch ⟨[], []⟩ with
    | none => rw [hl] at h; cases h
    | some s =>
      rw [hl] at h
      obtain ⟨ls, f, h1, rfl, h3, h4, h5⟩ := (fromStrLoop_iff cap ch _ s (by simp)).mp hl
      have h5 := h5.resolve_left hne
      simp only [List.length_nil, Nat.zero_add, List.nil_append, FromSt.pos, List.length_dropLast,
        wire_length] at h h5
      have hn := nameLen_pos ls
      have hne' := h1.nonempty_labels
      refine ⟨closeName ls f, Labels_of_Run h1 hne, ?_⟩
      rw [wire_closeName]
      by_cases hf : f = []
      · subst hf
        simp only [List.length_nil, gt_iff_lt, Nat.lt_irrefl, if_false, Option.some.injEq] at h
        simp only [closeName, if_true]
        simp only [List.length_nil] at h5
        exact ⟨⟨fun l hl => ⟨hne' l hl, h3 l hl⟩, by omega⟩, by omega, h.symm⟩
      · have hfl : 0 < f.length := List.length_pos_iff.mpr hf
        rw [if_pos hfl] at h
        split at h
        · cases h
        · rename_i h6
          rw [Option.some.injEq] at h
          rw [if_neg hf]
          have e := nameLen_closeName ls f hf
          refine ⟨⟨?_, by omega⟩, by omega, h.symm⟩
          intro l hl
          simp only [closeName, if_neg hf, List.mem_append, List.mem_singleton] at hl
          rcases hl with hl | rfl
          · exact ⟨hne' l hl, h3 l hl⟩
          · exact ⟨hfl, h4⟩
  · rintro ⟨L, h1, h2, h3, rfl⟩
    obtain ⟨ls, f, h4, rfl⟩ := Run_of_Labels h1
    have hn := nameLen_pos ls
    have hle : (∀ l ∈ ls, l.length ≤ 63) ∧ f.length ≤ 63 := by
      have h2' := h2.1
      unfold closeName at h2'
      split at h2'
      · rename_i hf; subst hf; exact ⟨fun l hl => (h2' l hl).2, by simp⟩
      · exact ⟨fun l hl => (h2' l (by simp [hl])).2, (h2' f (by simp)).2⟩
    have hfit : nameLen ls + f.length ≤ cap := by
      by_cases hf : f = []
      · subst hf; simpa [closeName] using h3
      · rw [nameLen_closeName _ _ hf] at h3; omega
    have := (fromStrLoop_iff cap ch ⟨[], []⟩ ⟨(wire ls).dropLast, f⟩ (by simp)).mpr
      ⟨ls, f, h4, by simp, hle.1, hle.2, .inr (by simpa using hfit)⟩
    rw [this]
    simp only
    rw [wire_closeName]
    by_cases hf : f = []
    · subst hf; simp
    · have hfl : 0 < f.length := List.length_pos_iff.mpr hf
      rw [if_pos hfl, if_neg hf, if_neg]
      rw [nameLen_closeName _ _ hf] at h3
      simp only [FromSt.pos, List.length_dropLast, wire_length]
      omega

theorem Run.length_le' {ch lab ls f} (h : Run ch lab ls f) (hd : ch.getLast? = some 46)
    (hf : f ≠ []) : nameLen ls + f.length ≤ lab.length + ch.length := by
  induction h with
  | nil => simp at hd
  | @dot t lab ls f h1 h2 ih =>
    by_cases ht : t = []
    · subst ht; cases h2; exact absurd rfl hf
    · rw [List.getLast?_cons_of_ne_nil ht] at hd
      have := ih hd hf; simp [nameLen] at *; omega
  | @plain c t lab ls f h1 _ h2 ih =>
    by_cases ht : t = []
    · subst ht; simp at hd; subst hd; exact absurd rfl h1
    · rw [List.getLast?_cons_of_ne_nil ht] at hd
      have := ih hd hf; simp at *; omega
  | @esc c t lab ls f _ h ih => have := h.length_le; simp at *; omega
  | @num c1 c2 c3 t lab ls f _ _ _ _ h ih => have := h.length_le; simp at *; omega

theorem not_Labels_dot {t L} : ¬ Labels (46 :: t) L := by
  have key : ∀ {s l u}, Chars s l → l ≠ [] → s ++ u ≠ 46 :: t := by
    intro s l u h hl he
    cases h with
    | nil => exact hl rfl
    | plain h1 => simp only [List.cons_append, List.cons.injEq] at he; rw [he.1] at h1; exact h1 rfl
    | esc => simp at he
    | num => simp at he
  intro h
  generalize hs : 46 :: t = s0 at h
  cases h with
  | last h1 h2 => exact key (u := []) h1 h2 (by simpa using hs.symm)
  | lastDot h1 h2 => exact key h1 h2 hs.symm
  | cons h1 h2 _ => exact key h1 h2 hs.symm

theorem fromStrLoop_single (cap : Nat) (c : UInt8) (hc : c.toNat ≠ 46) (s : FromSt) (m : Bool) :
    fromStrLoop cap m [c] s = fromStrLoop cap true [c] s := by
  unfold fromStrLoop
  simp only [hc, if_false]
  split
  · rfl
  · split
    · rfl
    · split
      · rfl
      · simp [fromStrLoop]

theorem fromStrLoop_multi (cap : Nat) (ch : Bytes) (h : ch ≠ []) (hd : ch.head? ≠ some 46)
    (s : FromSt) :
    fromStrLoop cap (decide (ch.length > 1)) ch s = fromStrLoop cap true ch s := by
  match ch, h, hd with
  | [c], _, hd => exact fromStrLoop_single _ _ (fun h => hd (by rw [c46 h]; rfl)) _ _
  | _ :: _ :: _, _, _ => simp

theorem fromStrBody_multi (cap : Nat) (ch : Bytes) (h : ch ≠ []) (hd : ch.head? ≠ some 46) :
    fromStrBody cap (decide (ch.length > 1)) ch = fromStrBody cap true ch := by
  unfold fromStrBody; rw [fromStrLoop_multi _ _ h hd]

/-- The parser in its allocating variant accepts exactly the presentation format. -/
theorem fromStr_alloc_iff (s w : Bytes) :
    fromStr s none = some w ↔ ∃ ls, Parses s ls ∧ Valid ls ∧ w = wire ls := by
  unfold fromStr Parses
  by_cases h0 : s = []
  · subst h0
    simp only [List.length_nil, if_true, reduceCtorEq, false_iff, not_exists, not_and]
    rintro ls (⟨h, _⟩ | h)
    · cases h
    · exact absurd rfl h.ne_nil
  rw [if_neg (by simpa using h0)]
  by_cases hd : s.head? = some 46
  · obtain ⟨t, rfl⟩ : ∃ t, s = 46 :: t := by
      cases s with
      | nil => cases hd
      | cons c t => simp at hd; exact ⟨t, by rw [hd]⟩
    simp only [hd, if_true]
    by_cases ht : t = []
    · subst ht
      have e : (if [(46 : UInt8)].length > 1 then none else fromStrBody (min 1 maxLen) false []) =
        some [0] := by simp [fromStrBody, fromStrLoop]
      rw [e]
      constructor
      · intro h
        cases h
        exact ⟨[], .inl ⟨rfl, rfl⟩, ⟨by simp, by simp [nameLen]⟩, rfl⟩
      · rintro ⟨ls, ⟨_, rfl⟩ | h, _, rfl⟩
        · rfl
        · exact absurd h not_Labels_dot
    · have hlen : (46 :: t).length > 1 := by
        simp; exact List.length_pos_iff.mpr ht
      rw [if_pos hlen]
      simp only [reduceCtorEq, false_iff, not_exists, not_and]
      rintro ls (⟨h, _⟩ | h)
      · simp at h; exact absurd h ht
      · exact absurd h not_Labels_dot
  · simp only [hd, if_false]
    rw [fromStrBody_multi _ _ h0 hd, fromStrBody_multi _ _ h0 hd]
    simp only [maxLen]
    constructor
    · intro h
      split at h
      · obtain ⟨ls, h1, h2, h3, h4⟩ := (fromStr_core _ s h0 (by omega) w).mp h
        exact ⟨ls, .inr h1, h2, h4⟩
      · obtain ⟨ls, h1, h2, h3, h4⟩ := (fromStr_core _ s h0 (by omega) w).mp h
        exact ⟨ls, .inr h1, h2, h4⟩
    · rintro ⟨ls, ⟨rfl, _⟩ | h1, h2, h4⟩
      · exact absurd rfl hd
      · have h5 := h2.2
        obtain ⟨ks, f, h6, rfl⟩ := Run_of_Labels h1
        have h7 := h6.length_le
        simp only [List.length_nil, Nat.zero_add] at h7
        have hnl : nameLen (closeName ks f) ≤ 1 + s.length + 1 ∧
            (s.getLast? = some 46 → nameLen (closeName ks f) ≤ 1 + s.length) := by
          by_cases hf : f = []
          · subst hf
            simp only [closeName, if_true, List.length_nil] at *
            omega
          · rw [nameLen_closeName _ _ hf] at *
            refine ⟨by omega, fun hl => ?_⟩
            have h8 := h6.length_le' hl hf
            simp only [List.length_nil, Nat.zero_add] at h8
            omega
        split
        · exact (fromStr_core _ s h0 (by omega) w).mpr ⟨_, h1, h2, by omega, h4⟩
        · rename_i hl
          have := hnl.2 (by simpa using hl)
          exact (fromStr_core _ s h0 (by omega) w).mpr ⟨_, h1, h2, by omega, h4⟩

/-- The parser writing to a caller's buffer of `m` octets. -/
theorem fromStr_buf_iff (s w : Bytes) (m : Nat) :
    fromStr s (some m) = some w ↔
      (s = [46] ∧ 2 ≤ m ∧ w = [0, 0]) ∨
      ∃ ls, Labels s ls ∧ Valid ls ∧ nameLen ls ≤ m ∧ w = wire ls := by
  unfold fromStr
  by_cases h0 : s = []
  · subst h0
    simp only [List.length_nil, if_true, reduceCtorEq, false_and, false_or, false_iff, not_exists,
      not_and]
    intro ls h; exact absurd rfl h.ne_nil
  rw [if_neg (by simpa using h0)]
  by_cases hm : m = 0
  · subst hm
    simp only [if_true, reduceCtorEq, false_iff, not_or, not_and, not_exists]
    refine ⟨fun _ h => by omega, fun ls _ _ h => ?_⟩
    have := nameLen_pos ls; omega
  simp only [if_neg hm, maxLen]
  by_cases hd : s.head? = some 46
  · obtain ⟨t, rfl⟩ : ∃ t, s = 46 :: t := by
      cases s with
      | nil => cases hd
      | cons c t => simp at hd; exact ⟨t, by rw [hd]⟩
    have hr : ¬ ∃ ls, Labels (46 :: t) ls ∧ Valid ls ∧ nameLen ls ≤ m ∧ w = wire ls := by
      rintro ⟨_, h, _⟩; exact not_Labels_dot h
    simp only [hr, or_false]
    unfold fromStrBody fromStrLoop
    by_cases ht : t = []
    · subst ht
      simp only [FromSt.pos, List.length_nil, List.length_singleton]
      by_cases h2 : 2 ≤ m
      · have : ¬ (0 + 1 + 0 ≥ min m 255) := by omega
        simp only [if_neg this]
        simp [h2, fromStrLoop, eq_comm]
      · have : 0 + 1 + 0 ≥ min m 255 := by omega
        simp only [if_pos this]
        simp [h2]
    · have hlen : (46 :: t).length > 1 := by
        simp; exact List.length_pos_iff.mpr ht
      simp [ht, List.length_pos_iff.mpr ht]
  · rw [fromStrBody_multi _ _ h0 hd, fromStr_core _ s h0 (by omega) w]
    constructor
    · rintro ⟨ls, h1, h2, h3, h4⟩
      exact .inr ⟨ls, h1, h2, by omega, h4⟩
    · rintro (⟨rfl, _⟩ | ⟨ls, h1, h2, h3, h4⟩)
      · exact absurd rfl hd
      · have := h2.2
        exact ⟨ls, h1, h2, by omega, h4⟩

theorem Chars.append {s l s' l'} (h : Chars s l) (h' : Chars s' l') : Chars (s ++ s') (l ++ l') := by
  induction h with
  | nil => simpa using h'
  | plain h1 h2 _ ih => exact .plain h1 h2 ih
  | esc h1 _ ih => exact .esc h1 ih
  | num h1 h2 h3 h4 _ ih => exact .num h1 h2 h3 h4 ih

theorem Chars_escByte (c : UInt8) : Chars (escByte c) [c] := by
  have hc := c.toNat_lt
  unfold escByte
  simp only
  split
  · exact .plain (by omega) (by omega) .nil
  · split
    · exact .esc (by omega) .nil
    · have := Chars.num (a := c.toNat / 100) (b := c.toNat / 10 % 10) (c := c.toNat % 10)
        (s := []) (l := []) (by omega) (by omega) (by omega) (by omega) .nil
      have e : 100 * (c.toNat / 100) + 10 * (c.toNat / 10 % 10) + c.toNat % 10 = c.toNat := by omega
      rw [e, UInt8.ofNat_toNat] at this
      exact this

theorem Chars_escLabel (l : Label) : Chars (escLabel l) l := by
  induction l with
  | nil => exact .nil
  | cons c l ih => rw [escLabel_cons]; exact (Chars_escByte c).append ih

theorem Labels_textBody {ls : Name} (h : LabelsOk ls) (hne : ls ≠ []) : Labels (textBody ls) ls := by
  induction ls with
  | nil => exact absurd rfl hne
  | cons l ls ih =>
    have hl : l ≠ [] := List.length_pos_iff.mp h.head.1
    by_cases hs : ls = []
    · subst hs
      have := Labels.lastDot (Chars_escLabel l) hl
      simpa [textBody] using this
    · have := Labels.cons (Chars_escLabel l) hl (ih h.tail hs)
      simpa [textBody] using this

theorem Parses_text {ls : Name} (h : Valid ls) : Parses (text ls) ls := by
  by_cases hs : ls = []
  · subst hs; exact .inl ⟨rfl, rfl⟩
  · right; rw [text_eq_textBody hs]; exact Labels_textBody h.1 hs

end Knot.Dname
