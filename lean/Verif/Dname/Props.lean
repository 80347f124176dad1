import Verif.Dname.LemmasText
/-!
# Properties C01–C05: domain names

Only `Spec.lean` and the signatures in `Model.lean` are needed to read the statements.
`example`s show that the hypotheses are met by concrete non-trivial cases.
-/
namespace Knot
open Knot.Dname

/-! ## C01: checking a name in a message -/

/-- C01. The check never reads outside `[0, endp)` (with `mem.length = endp` any such read
would be `ub`) and always returns: it yields a value for every buffer. -/
theorem C01_wire_check_safe (mem : List UInt8) (endp pos : Nat) (compr : Bool)
    (hp : pos ≤ endp) (he : endp ≤ mem.length) : wireCheck mem endp compr pos ≠ .ub := by
  unfold wireCheck
  split
  · simp
  · exact wireCheckLoop_safe _ _ _ _ _ _ _ (by omega) he

/-- C01. The check succeeds with `n` exactly when the buffer encodes at `pos` a name of at
most 255 octets whose encoding there takes `n` octets. -/
theorem C01_wire_check_exact (mem : List UInt8) (endp pos : Nat) (compr : Bool) (n : Nat)
    (hp : pos ≤ endp) (he : endp ≤ mem.length) :
    wireCheck mem endp compr pos = .ok n ↔
      ∃ ls, NameAt mem endp compr pos ls n ∧ Valid ls := by
  unfold wireCheck
  split
  · rename_i h
    simp only [reduceCtorEq, false_iff, not_exists, not_and]
    intro ls h'; have := h'.lt; omega
  · rw [wireCheckLoop_ok_iff _ _ _ _ _ _ _ _ (by omega) he (by omega)]
    simp only [Bool.false_eq_true, if_false, Nat.zero_add]
    constructor
    · rintro ⟨ls, m, h1, h2, rfl⟩; exact ⟨ls, h1, h1.labels_ok, by omega⟩
    · rintro ⟨ls, h1, h2⟩; exact ⟨ls, n, h1, by have := h2.2; omega, rfl⟩

/-- C01. An encoding denotes one name only, and lies inside the buffer. -/
theorem C01_name_unique (mem : List UInt8) (endp pos : Nat) (compr : Bool) (ls ls' : Name) (n n' : Nat)
    (h : NameAt mem endp compr pos ls n) (h' : NameAt mem endp compr pos ls' n') :
    ls = ls' ∧ n = n' ∧ pos + n ≤ endp :=
  ⟨(h.unique h').1, (h.unique h').2, h.fits⟩

/-- C01. The answer depends on the bytes below `endp` only. -/
theorem C01_wire_check_local (mem mem' : List UInt8) (endp pos : Nat) (compr : Bool)
    (hp : pos ≤ endp) (he : endp ≤ mem.length) (he' : endp ≤ mem'.length)
    (h : mem.take endp = mem'.take endp) (n : Nat) :
    wireCheck mem endp compr pos = .ok n ↔ wireCheck mem' endp compr pos = .ok n := by
  have get : ∀ i < endp, mem[i]? = mem'[i]? := by
    intro i hi
    have := congrArg (·[i]?) h
    simpa [List.getElem?_take, hi] using this
  have key : ∀ {m m' : List UInt8}, endp ≤ m.length → endp ≤ m'.length →
      m.take endp = m'.take endp → (∀ i < endp, m[i]? = m'[i]?) →
      ∀ {p ls k}, NameAt m endp compr p ls k → NameAt m' endp compr p ls k := by
    intro m m' hm hm' hh hg p ls k hn
    induction hn with
    | root h1 h2 => exact .root h1 (by rw [← hg _ h1, h2])
    | @label p l ls k h1 h2 h3 h4 h5 ih =>
      have := h5.lt
      refine .label (by rw [← hg _ (by omega), h1]) h2 h3 ?_ ih
      rw [← h4, h4]
      conv => rhs; rw [← h4]
      apply List.ext_getElem?
      intro i
      rw [List.getElem?_take, List.getElem?_take, List.getElem?_drop, List.getElem?_drop]
      split
      · rw [hg _ (by omega)]
      · rfl
    | ptr h1 h2 h3 h4 h5 h6 h7 ih =>
      exact .ptr h1 h2 (by rw [← hg _ (by omega), h3]) (by rw [← hg _ (by omega), h4]) h5 h6 ih
  rw [C01_wire_check_exact _ _ _ _ _ hp he, C01_wire_check_exact _ _ _ _ _ hp he']
  constructor
  · rintro ⟨ls, h1, h2⟩; exact ⟨ls, key he he' h get h1, h2⟩
  · rintro ⟨ls, h1, h2⟩; exact ⟨ls, key he' he h.symm (fun i hi => (get i hi).symm) h1, h2⟩

/-- Offset 4: label `x`, then a pointer to `ab.` at offset 0. -/
example : NameAt [2, 97, 98, 0, 1, 120, 0xC0, 0] 8 true 4 [[120], [97, 98]] 4 ∧
    Valid [[120], [97, 98]] :=
  ⟨.label (l := [120]) (n := 2) rfl (by decide) (by decide) rfl
    (.ptr (b1 := 0xC0) (b2 := 0) (n := 4) rfl (by decide) rfl rfl (by decide) (by decide)
      (.label (l := [97, 98]) (n := 1) rfl (by decide) (by decide) rfl (.root (by decide) rfl))),
   by simp, by simp [nameLen]⟩

/-- A self-pointing name is rejected. -/
example : ¬ ∃ n, wireCheck [0xC0, 0] 2 true 0 = .ok n := by
  rintro ⟨n, h⟩
  simp [wireCheck, wireCheckLoop, isPtr, getPtr] at h

/-! ## C02: decompression -/

/-- C02. Decompression of an encoded name writes precisely its uncompressed wire form if
that fits, and fails otherwise; it never misbehaves. -/
theorem C02_unpack_exact (mem : List UInt8) (endp pos maxlen : Nat) (ls : Name) (n : Nat)
    (he : endp ≤ mem.length) (h : NameAt mem endp true pos ls n) :
    (nameLen ls ≤ maxlen → unpack mem maxlen pos = .ok (wire ls)) ∧
    (maxlen < nameLen ls → unpack mem maxlen pos = .err .espace ∨
      unpack mem maxlen pos = .err .einval) := by
  rw [unpack_of_NameAt he h]
  constructor
  · intro h; rw [if_pos h]
  · intro h; rw [if_neg (by omega)]; split <;> simp

/-- C02. Whatever the checker accepts is decompressed into 255 octets, and the result is an
uncompressed name that the checker accepts without compression, of the announced size
and label count. -/
theorem C02_checked_then_unpacked (mem : List UInt8) (endp pos n : Nat) (rest : List UInt8)
    (hp : pos ≤ endp) (he : endp ≤ mem.length) (h : wireCheck mem endp true pos = .ok n) :
    ∃ ls, NameAt mem endp true pos ls n ∧ Valid ls ∧
      unpack mem 255 pos = .ok (wire ls) ∧
      wireCheck (wire ls ++ rest) (nameLen ls) false 0 = .ok (nameLen ls) ∧
      size (wire ls ++ rest) = .ok (nameLen ls) ∧
      labels (wire ls ++ rest) = .ok ls.length ∧
      (∀ fuel > ls.length, realsize mem fuel pos = some (.ok (nameLen ls))) := by
  obtain ⟨ls, h1, h2⟩ := (C01_wire_check_exact _ _ _ _ _ hp he).mp h
  have hat : ∀ (ls : Name) (pre : List UInt8), LabelsOk ls →
      NameAt (pre ++ wire ls ++ rest) (pre.length + nameLen ls) false pre.length ls (nameLen ls) := by
    intro ls
    induction ls with
    | nil => intro pre _; exact .root (by simp [nameLen]) (by simp [wire])
    | cons l ls ih =>
      intro pre hok
      have hl := hok.head
      have := ih (pre ++ UInt8.ofNat l.length :: l) hok.tail
      refine .label (by simp [wire]) hl.1 hl.2 ?_ ?_
      · rw [List.append_assoc, ← List.drop_drop, List.drop_left]; simp [wire]
      · have e : pre.length + (l.length + 1) = (pre ++ UInt8.ofNat l.length :: l).length := by
          simp
        have e2 : pre.length + nameLen (l :: ls) =
            (pre ++ UInt8.ofNat l.length :: l).length + nameLen ls := by
          simp [nameLen]; omega
        rw [e, e2]
        simpa [wire] using this
  refine ⟨ls, h1, h2, (C02_unpack_exact _ _ _ _ _ _ he h1).1 h2.2, ?_, size_wire _ h2.1,
    labels_wire _ h2.1, ?_⟩
  · rw [C01_wire_check_exact _ _ _ _ _ (by omega) (by rw [List.length_append, wire_length]; omega)]
    have := hat ls [] h2.1
    simp only [List.nil_append, List.length_nil, Nat.zero_add] at this
    exact ⟨ls, this, h2⟩
  · intro fuel hf
    obtain ⟨pos', n', h3, h4, b, h5, h6⟩ := seekLabel_of_NameAt h1
    unfold realsize
    rw [h3]
    simpa using realsizeLoop_of_NameAt ls h4 h5 h6 hf (len := 0)

example : unpack [2, 97, 98, 0, 1, 120, 0xC0, 0] 255 4 = .ok [1, 120, 2, 97, 98, 0] :=
  (C02_unpack_exact _ 8 4 255 [[120], [97, 98]] 4 (by decide)
    (.label (l := [120]) (n := 2) rfl (by decide) (by decide) rfl
    (.ptr (b1 := 0xC0) (b2 := 0) (n := 4) rfl (by decide) rfl rfl (by decide) (by decide)
      (.label (l := [97, 98]) (n := 1) rfl (by decide) (by decide) rfl
        (.root (by decide) rfl))))).1 (by decide)

/-! ## C03: presentation format -/

/-- C03. Parsing (allocating variant) accepts exactly the presentation format of legal
names, and yields the wire form of the denoted name. -/
theorem C03_from_str_exact (s w : List UInt8) :
    fromStr s none = some w ↔ ∃ ls, Parses s ls ∧ Valid ls ∧ w = wire ls :=
  fromStr_alloc_iff s w

/-- C03. The same into a caller's buffer of `m` octets, which additionally has to hold the
name. (The root written as `.` needs two octets there although its wire form is one.) -/
theorem C03_from_str_buf_exact (s w : List UInt8) (m : Nat) :
    fromStr s (some m) = some w ↔
      (s = [46] ∧ 2 ≤ m ∧ w = wire [] ++ [0]) ∨
      ∃ ls, s ≠ [46] ∧ Parses s ls ∧ Valid ls ∧ nameLen ls ≤ m ∧ w = wire ls := by
  rw [fromStr_buf_iff]
  constructor
  · rintro (h | ⟨ls, h1, h2⟩)
    · exact .inl h
    · exact .inr ⟨ls, fun h => not_Labels_dot (h ▸ h1), .inr h1, h2⟩
  · rintro (h | ⟨ls, h0, h1 | h1, h2⟩)
    · exact .inl h
    · exact absurd h1.1 h0
    · exact .inr ⟨ls, h1, h2⟩

/-- C03. Printing gives the presentation form; into a buffer exactly if the text and its
terminator fit (and the buffer is larger than the wire form). -/
theorem C03_to_str_exact (ls : Name) (rest : List UInt8) (h : Valid ls) :
    toStr (wire ls ++ rest) none = .ok (some (text ls)) ∧
    ∀ m, toStr (wire ls ++ rest) (some m) =
      .ok (if nameLen ls < m ∧ (text ls).length < m then some (text ls) else none) :=
  ⟨toStr_wire_alloc rest h.1, fun m => toStr_wire_buf rest h.1 m⟩

/-- C03. The advertised buffer size KNOT_DNAME_TXT_MAXLEN + 1 is always enough. -/
theorem C03_to_str_maxlen (ls : Name) (rest : List UInt8) (h : Valid ls) :
    toStr (wire ls ++ rest) (some (txtMaxLen + 1)) = .ok (some (text ls)) := by
  rw [(C03_to_str_exact ls rest h).2, if_pos]
  have := text_length_max h
  have := h.2
  simp only [txtMaxLen]; omega

/-- C03. Print and parse is the identity. -/
theorem C03_round_trip (ls : Name) (rest : List UInt8) (h : Valid ls) :
    ∃ s, toStr (wire ls ++ rest) none = .ok (some s) ∧ fromStr s none = some (wire ls) :=
  ⟨text ls, (C03_to_str_exact ls rest h).1, (C03_from_str_exact _ _).mpr ⟨ls, Parses_text h, h, rfl⟩⟩

/-- C03. Text denotes at most one name. -/
theorem C03_parse_unique (s : List UInt8) (a b : Name) (ha : Parses s a) (hb : Parses s b)
    (va : Valid a) (vb : Valid b) : a = b := by
  have h1 := (C03_from_str_exact s (wire a)).mpr ⟨a, ha, va, rfl⟩
  have h2 := (C03_from_str_exact s (wire b)).mpr ⟨b, hb, vb, rfl⟩
  rw [h1] at h2
  simp only [Option.some.injEq] at h2
  exact wire_inj (r := []) (s := []) va.1 vb.1 (by rw [h2])

example : Valid [[97, 46, 0], [99, 122]] ∧
    text [[97, 46, 0], [99, 122]] = [97, 92, 46, 92, 48, 48, 48, 46, 99, 122, 46] := by
  refine ⟨⟨by simp, by simp [nameLen]⟩, by decide⟩

/-- `a\.` is a one-label name without the final dot. -/
example : Parses [97, 92, 46] [[97, 46]] :=
  .inr (.last (.plain (by decide) (by decide) (.esc (by decide) .nil)) (by simp))

/-! ## C04: canonical ordering -/

/-- No label contains a NUL octet. -/
def NulFree (ls : Name) : Prop := ∀ l ∈ ls, (0 : UInt8) ∉ l

/-- C04. On names without NUL octets the comparison is exactly canonical DNS order.
See `C04_nul_collision` for names with NUL octets. -/
theorem C04_cmp_canonical (a b : Name) (r s : List UInt8) (ha : Valid a) (hb : Valid b)
    (na : NulFree a) (nb : NulFree b) :
    cmp (wire a ++ r) (wire b ++ s) = .ok (canonCmp a b) := by
  rw [cmp_wire_lex r s ha hb]
  unfold canonCmp lfBody
  rw [lexCmp_flat]
  · intro l hl; exact na l (by simpa using hl)
  · intro l hl; exact nb l (by simpa using hl)

/-- C04. Canonical order is a strict total order in which only equal names compare equal. -/
theorem C04_canonical_total (a b c : Name) :
    (canonCmp a b = .eq ↔ a = b) ∧
    (canonCmp a b = .lt ↔ canonCmp b a = .gt) ∧
    (canonCmp a b = .lt → canonCmp b c = .lt → canonCmp a c = .lt) := by
  refine ⟨canonCmp_eq a b, ?_, canonCmp_trans a b c⟩
  rw [canonCmp_swap a b]
  cases canonCmp a b <;> simp

/-- C04. A zone apex precedes everything below it. -/
theorem C04_parent_first (a p : Name) (hp : p ≠ []) : canonCmp a (p ++ a) = .lt := by
  unfold canonCmp
  rw [List.reverse_append]
  generalize a.reverse = x
  have hq : p.reverse ≠ [] := by simpa using hp
  induction x with
  | nil => cases h : p.reverse with
    | nil => exact absurd h hq
    | cons => simp [lexCmp]
  | cons k ks ih =>
    simp only [List.cons_append, lexCmp]
    rw [(lexCmp_eq (fun _ _ => byteCmp_eq) k k).mpr rfl]
    exact ih

/-- C04. For all legal names (NUL octets included) the comparison is a total preorder that
agrees with byte order of the lookup keys; it never misbehaves. -/
theorem C04_cmp_total (a b c : Name) (r : List UInt8) (ha : Valid a) (hb : Valid b) (hc : Valid c) :
    (∃ o, cmp (wire a ++ r) (wire b ++ r) = .ok o ∧ cmp (wire b ++ r) (wire a ++ r) = .ok o.swap) ∧
    (cmp (wire a ++ r) (wire b ++ r) = .ok .lt → cmp (wire b ++ r) (wire c ++ r) = .ok .lt →
      cmp (wire a ++ r) (wire c ++ r) = .ok .lt) := by
  rw [cmp_wire_lex r r ha hb, cmp_wire_lex r r hb ha, cmp_wire_lex r r hb hc, cmp_wire_lex r r ha hc]
  refine ⟨⟨_, rfl, by rw [lexCmp_swap byteCmp_swap]⟩, ?_⟩
  simp only [Res.ok.injEq]
  exact lexCmp_trans (fun _ _ => byteCmp_eq) byteCmp_trans _ _ _

/-- C04. The restriction is needed: the label `a\000b` and the two labels `b.a` compare
equal although the names differ. -/
theorem C04_nul_collision :
    ∃ a b : Name, Valid a ∧ Valid b ∧ a ≠ b ∧ cmp (wire a) (wire b) = .ok .eq := by
  refine ⟨[[97, 0, 98]], [[98], [97]], ⟨by simp, by simp [nameLen]⟩, ⟨by simp, by simp [nameLen]⟩,
    by simp, ?_⟩
  have := cmp_wire_lex (a := [[97, 0, 98]]) (b := [[98], [97]]) [] [] ⟨by simp, by simp [nameLen]⟩
    ⟨by simp, by simp [nameLen]⟩
  simpa [lfBody, lexCmp, byteCmp] using this

/-- C04. Case-sensitive and case-insensitive equality of names. -/
theorem C04_equality (a b : Name) (r s : List UInt8) (ha : Valid a) (hb : Valid b) :
    isEqual (wire a ++ r) (wire b ++ s) = .ok (decide (a = b)) ∧
    isCaseEqual (wire a ++ r) (wire b ++ s) = .ok (decide (lowerName a = lowerName b)) := by
  constructor
  · unfold isEqual; rw [isEqualGen_wire r s false ha.1 hb.1]
    simp only [Bool.false_eq_true, if_false, Res.ok.injEq]; rw [Bool.eq_iff_iff]; simp
  · unfold isCaseEqual; rw [isEqualGen_wire r s true ha.1 hb.1]
    simp only [if_true, Res.ok.injEq]; rw [Bool.eq_iff_iff]; simp

/-- C04. Lower-casing changes octets of labels only. -/
theorem C04_to_lower (a : Name) (r : List UInt8) (ha : Valid a) :
    copyLower (wire a ++ r) = .ok (wire (lowerName a)) ∧ Valid (lowerName a) ∧
    lowerName (lowerName a) = lowerName a := by
  refine ⟨copyLower_wire r ha.1, ⟨?_, ?_⟩, ?_⟩
  · intro l hl
    simp only [lowerName, List.mem_map] at hl
    obtain ⟨k, hk, rfl⟩ := hl
    simpa using ha.1 k hk
  · have : ∀ ls : Name, nameLen (lowerName ls) = nameLen ls := by
      intro ls; induction ls with
      | nil => rfl
      | cons l ls ih => simp [lowerName, nameLen] at *; omega
    rw [this]; exact ha.2
  · have : ∀ c, lowerByte (lowerByte c) = lowerByte c := by
      intro c
      unfold lowerByte
      split
      · rename_i h
        rw [ofNat_toNat (by omega), if_neg (by omega)]
      · rfl
    simp [lowerName, this]

example : Valid [[119], [99, 122]] ∧ NulFree [[119], [99, 122]] ∧
    canonCmp [[99, 122]] [[119], [99, 122]] = .lt ∧ canonCmp [[119], [99, 122]] [[97], [100]] = .lt :=
  ⟨⟨by simp, by simp [nameLen]⟩, by simp [NulFree], by decide, by decide⟩

/-! ## C05: ancestry -/

/-- C05. The number of common trailing labels. -/
theorem C05_matched_labels (a b : Name) (r s : List UInt8) (ha : Valid a) (hb : Valid b) :
    matchedLabels (wire a ++ r) (wire b ++ s) = .ok (commonSuffixLen a b) :=
  matchedLabels_wire r s ha.1 hb.1

/-- C05. The specification of the common suffix: the last `k` labels agree, and no longer
common suffix exists. -/
theorem C05_common_suffix_spec (a b : Name) :
    commonSuffixLen a b ≤ a.length ∧ commonSuffixLen a b ≤ b.length ∧
    a.drop (a.length - commonSuffixLen a b) = b.drop (b.length - commonSuffixLen a b) ∧
    ∀ c : Name, c <:+ a → c <:+ b → c.length ≤ commonSuffixLen a b := by
  have main : ∀ x y : Name, ∃ k, k = ((x.zip y).takeWhile (fun p => p.1 == p.2)).length ∧
      k ≤ x.length ∧ k ≤ y.length ∧ x.take k = y.take k ∧
      ∀ c : Name, c <+: x → c <+: y → c.length ≤ k := by
    intro x
    induction x with
    | nil =>
      intro y
      refine ⟨0, by simp, by simp, by simp, by simp, ?_⟩
      intro c hc _; simpa using hc.length_le
    | cons p x ih =>
      intro y
      cases y with
      | nil =>
        refine ⟨0, by simp, by simp, by simp, by simp, ?_⟩
        intro c _ hc; simpa using hc.length_le
      | cons q y =>
        obtain ⟨k, h1, h2, h3, h4, h5⟩ := ih y
        by_cases hpq : p = q
        · subst hpq
          refine ⟨k + 1, by simp [h1], by simp [h2], by simp [h3], by simp [h4], ?_⟩
          intro c hc1 hc2
          cases c with
          | nil => simp
          | cons u c =>
            rw [List.cons_prefix_cons] at hc1 hc2
            simpa using h5 c hc1.2 hc2.2
        · refine ⟨0, by simp [hpq], by simp, by simp, by simp, ?_⟩
          intro c hc1 hc2
          cases c with
          | nil => simp
          | cons u c =>
            rw [List.cons_prefix_cons] at hc1 hc2
            exact absurd (hc1.1.symm.trans hc2.1) hpq
  obtain ⟨k, h1, h2, h3, h4, h5⟩ := main a.reverse b.reverse
  have hk : commonSuffixLen a b = k := by unfold commonSuffixLen; exact h1.symm
  rw [hk]
  simp only [List.length_reverse] at h2 h3
  refine ⟨h2, h3, ?_, ?_⟩
  · have := congrArg List.reverse h4
    rw [List.reverse_take, List.reverse_take] at this
    simpa using this
  · intro c hc1 hc2
    have := h5 c.reverse (by rwa [List.reverse_prefix]) (by rwa [List.reverse_prefix])
    simpa using this

/-- C05. A name is in bailiwick of another exactly if it is a descendant of it or equal,
and the result is the number of additional labels. -/
theorem C05_in_bailiwick (a b : Name) (r s : List UInt8) (ha : Valid a) (hb : Valid b) :
    inBailiwick (wire a ++ r) (wire b ++ s) =
      if b <:+ a then .ok (a.length - b.length) else .err .eoutofzone :=
  inBailiwick_wire r s ha.1 hb.1

/-- C05. Replacing the last `n` labels (the DNAME substitution). A copy is produced unless
nothing would remain of the original name; the copy is the substituted name. -/
theorem C05_replace_suffix (a b : Name) (r s : List UInt8) (n : Nat) (ha : Valid a) (hb : Valid b) :
    replaceSuffix (wire a ++ r) n (wire b ++ s) =
      .ok (if n < a.length then some (wire (a.take (a.length - n) ++ b)) else none) :=
  replaceSuffix_wire r s ha.1 hb.1 n

/-- C05. The substituted name has legal labels, but may exceed 255 octets: its length is
that of the two parts, and the caller has to check it. -/
theorem C05_replace_suffix_length (a b : Name) (n : Nat) (ha : Valid a) (hb : Valid b) :
    (∀ l ∈ a.take (a.length - n) ++ b, 1 ≤ l.length ∧ l.length ≤ 63) ∧
    nameLen (a.take (a.length - n) ++ b) + 1 = nameLen (a.take (a.length - n)) + nameLen b := by
  refine ⟨?_, nameLen_append _ _⟩
  intro l hl
  rw [List.mem_append] at hl
  rcases hl with hl | hl
  · exact ha.1 l (List.mem_of_mem_take hl)
  · exact hb.1 l hl

/-- C05. Prefix length: octets of the first `k` labels. -/
theorem C05_prefixlen (a : Name) (r : List UInt8) (k : Nat) (ha : Valid a) :
    prefixlen (wire a ++ r) k = .ok (nameLen (a.take k) - 1) := prefixlen_wire r ha.1 k

example : ([[99, 122]] : Name) <:+ [[119], [99, 122]] ∧
    commonSuffixLen [[119], [99, 122]] [[120], [99, 122]] = 1 ∧
    commonSuffixLen [[119], [97], [99, 122]] [[119], [98], [99, 122]] = 1 := by decide

end Knot
