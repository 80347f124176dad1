import Verif.Bitmap.Model
import Verif.Bitmap.Spec
/-!
# C18: NSEC type bitmaps are exact
-/
namespace Knot
open Bitmap

namespace Bitmap

/-- Membership of a list of types as a characteristic function. -/
def memb (types : List Nat) (t : Nat) : Bool := decide (t ∈ types)

/-- The value of an octet of eight bits. -/
def octN (a b c d e f g h : Bool) : Nat :=
  cond a 128 0 + cond b 64 0 + cond c 32 0 + cond d 16 0 + cond e 8 0 + cond f 4 0 + cond g 2 0 + cond h 1 0

theorem octet_eq (a b c d e f g h : Bool) : octet a b c d e f g h = UInt8.ofNat (octN a b c d e f g h) := by
  cases a <;> cases b <;> cases c <;> cases d <;> cases e <;> cases f <;> cases g <;> cases h <;> rfl

theorem octN_lt (a b c d e f g h : Bool) : octN a b c d e f g h < 256 := by
  cases a <;> cases b <;> cases c <;> cases d <;> cases e <;> cases f <;> cases g <;> cases h <;> decide

theorem octet_or (k : Nat) (hk : k < 8) (a b c d e f g h : Bool) :
    octet a b c d e f g h ||| ((0x80 : UInt8) >>> UInt8.ofNat k) =
      octet (a || k == 0) (b || k == 1) (c || k == 2) (d || k == 3) (e || k == 4) (f || k == 5) (g || k == 6)
        (h || k == 7) := by
  have key : ∀ a b c d e f g h : Bool, ∀ k : Fin 8,
      (octN a b c d e f g h ||| 2 ^ (7 - k.val)) =
      octN (a || k.val == 0) (b || k.val == 1) (c || k.val == 2) (d || k.val == 3) (e || k.val == 4)
        (f || k.val == 5) (g || k.val == 6) (h || k.val == 7) := by decide +kernel
  have hs : ∀ k : Fin 8, (0x80 : UInt8) >>> UInt8.ofNat k.val = UInt8.ofNat (2 ^ (7 - k.val)) := by
    decide +kernel
  rw [hs ⟨k, hk⟩, octet_eq, octet_eq, ← UInt8.ofNat_or]
  exact congrArg UInt8.ofNat (key a b c d e f g h ⟨k, hk⟩)

theorem octet_bit (k : Nat) (hk : k < 8) (a b c d e f g h : Bool) :
    (octet a b c d e f g h &&& ((1 : UInt8) <<< UInt8.ofNat (7 - k)) != 0) =
      ([a, b, c, d, e, f, g, h][k]?).getD false := by
  have key : ∀ a b c d e f g h : Bool, ∀ k : Fin 8,
      (octN a b c d e f g h &&& 2 ^ (7 - k.val)) =
      cond (([a, b, c, d, e, f, g, h][k.val]?).getD false) (2 ^ (7 - k.val)) 0 := by decide +kernel
  have hs : ∀ k : Fin 8, (1 : UInt8) <<< UInt8.ofNat (7 - k.val) = UInt8.ofNat (2 ^ (7 - k.val)) := by
    decide +kernel
  have hne : ∀ k : Fin 8, (UInt8.ofNat (2 ^ (7 - k.val)) != 0) = true := by decide +kernel
  rw [hs ⟨k, hk⟩, octet_eq, ← UInt8.ofNat_and, key a b c d e f g h ⟨k, hk⟩]
  cases ([a, b, c, d, e, f, g, h][k]?).getD false
  · rfl
  · exact hne ⟨k, hk⟩

theorem octet_zero (a b c d e f g h : Bool) : octet a b c d e f g h = 0 ↔
    a = false ∧ b = false ∧ c = false ∧ d = false ∧ e = false ∧ f = false ∧ g = false ∧ h = false := by
  cases a <;> cases b <;> cases c <;> cases d <;> cases e <;> cases f <;> cases g <;> cases h <;> decide

/-- Testing one bit of an octet of the set. -/
theorem octetOf_bit (S : Nat → Bool) (w i k : Nat) (hk : k < 8) :
    (octetOf S w i &&& ((1 : UInt8) <<< UInt8.ofNat (7 - k)) != 0) = S (256 * w + 8 * i + k) := by
  unfold octetOf
  rw [octet_bit k hk]
  have : k = 0 ∨ k = 1 ∨ k = 2 ∨ k = 3 ∨ k = 4 ∨ k = 5 ∨ k = 6 ∨ k = 7 := by omega
  rcases this with rfl | rfl | rfl | rfl | rfl | rfl | rfl | rfl <;> rfl

theorem octetOf_zero (S : Nat → Bool) (w i : Nat) :
    octetOf S w i = 0 ↔ ∀ k < 8, S (256 * w + 8 * i + k) = false := by
  unfold octetOf
  rw [octet_zero]
  constructor
  · rintro ⟨h0, h1, h2, h3, h4, h5, h6, h7⟩ k hk
    have : k = 0 ∨ k = 1 ∨ k = 2 ∨ k = 3 ∨ k = 4 ∨ k = 5 ∨ k = 6 ∨ k = 7 := by omega
    rcases this with rfl | rfl | rfl | rfl | rfl | rfl | rfl | rfl <;> assumption
  · intro h
    exact ⟨h 0 (by omega), h 1 (by omega), h 2 (by omega), h 3 (by omega), h 4 (by omega), h 5 (by omega),
      h 6 (by omega), h 7 (by omega)⟩

theorem octetOf_add (S : Nat → Bool) (t w i : Nat) (hi : i < 32) :
    octetOf (fun x => S x || x == t) w i =
      if w = t / 256 ∧ i = t % 256 / 8 then octetOf S w i ||| ((0x80 : UInt8) >>> UInt8.ofNat (t % 256 % 8))
      else octetOf S w i := by
  split
  · rename_i h
    obtain ⟨rfl, rfl⟩ := h
    have hk : ∀ j < 8, (t % 256 % 8 == j) = (256 * (t / 256) + 8 * (t % 256 / 8) + j == t) := by
      intro j hj
      rw [Bool.eq_iff_iff, beq_iff_eq, beq_iff_eq]
      omega
    have h0 := hk 0 (by omega)
    rw [Nat.add_zero] at h0
    unfold octetOf
    simp only
    rw [octet_or _ (by omega), h0, hk 1 (by omega), hk 2 (by omega), hk 3 (by omega), hk 4 (by omega),
      hk 5 (by omega), hk 6 (by omega), hk 7 (by omega)]
  · rename_i h
    unfold octetOf
    simp only
    have hn : ∀ k < 8, ((256 * w + 8 * i + k) == t) = false := by
      intro k hk
      rw [beq_eq_false_iff_ne]
      intro he
      apply h
      subst he
      omega
    have h0 := hn 0 (by omega)
    simp only [Nat.add_zero] at h0
    rw [h0, hn 1 (by omega), hn 2 (by omega), hn 3 (by omega), hn 4 (by omega), hn 5 (by omega),
      hn 6 (by omega), hn 7 (by omega)]
    simp only [Bool.or_false]

/-- Stripping trailing zeros of a tabulated function. -/
theorem strip_map (f : Nat → UInt8) (n m : Nat) (hnm : n ≤ m) (h0 : ∀ j, n ≤ j → j < m → f j = 0)
    (h1 : n = 0 ∨ f (n - 1) ≠ 0) : strip ((List.range m).map f) = (List.range n).map f := by
  induction m with
  | zero =>
    have : n = 0 := by omega
    subst this; rfl
  | succ m ih =>
    by_cases hn : n = m + 1
    · subst hn
      unfold strip
      rw [List.range_succ, List.map_append, List.reverse_append]
      simp only [List.map_cons, List.map_nil, List.reverse_cons, List.reverse_nil, List.nil_append,
        List.cons_append]
      have : f m ≠ 0 := by simpa using h1
      rw [List.dropWhile_cons_of_neg (by simpa using this)]
      simp
    · have : f m = 0 := h0 m (by omega) (by omega)
      rw [List.range_succ, List.map_append]
      unfold strip
      rw [List.reverse_append]
      simp only [List.map_cons, List.map_nil, List.reverse_cons, List.reverse_nil, List.nil_append,
        List.cons_append, this]
      rw [List.dropWhile_cons_of_pos (by simp)]
      exact ih (by omega) (fun j h h' => h0 j h (by omega))

/-- The invariant of the context: it stores the set `S`. -/
structure Stores (bm : Bm) (S : Nat → Bool) : Prop where
  data : ∀ w i, i < 32 → (bm.windows w).data i = octetOf S w i
  used32 : ∀ w, (bm.windows w).used ≤ 32
  zero : ∀ w j, (bm.windows w).used ≤ j → j < 32 → octetOf S w j = 0
  last : ∀ w, (bm.windows w).used = 0 ∨ octetOf S w ((bm.windows w).used - 1) ≠ 0
  top : ∀ w, bm.used ≤ w → (bm.windows w).used = 0
  bound : bm.used ≤ 256

theorem stores_new : Stores new (fun _ => false) where
  data := by intro w i _; rfl
  used32 := by intro w; exact Nat.zero_le _
  zero := by intro w j _ _; rfl
  last := by intro w; left; rfl
  top := by intro w _; rfl
  bound := Nat.zero_le _

theorem stores_add (bm : Bm) (S : Nat → Bool) (h : Stores bm S) (t : Nat) (ht : t < 65536) :
    Stores (add bm t) (fun x => S x || x == t) where
  data := by
    intro w i hi
    rw [octetOf_add S t w i hi]
    simp only [add]
    by_cases hw : w = t / 256
    · subst hw
      simp only [if_true, true_and]
      by_cases hb : i = t % 256 / 8
      · rw [if_pos hb, if_pos hb, h.data _ _ hi]
      · rw [if_neg hb, if_neg hb, h.data _ _ hi]
    · rw [if_neg hw, if_neg (fun x => hw x.1), h.data _ _ hi]
  used32 := by
    intro w
    have := h.used32
    simp only [add]
    split
    · simp only
      split
      · omega
      · exact this _
    · exact this w
  zero := by
    intro w j hj hj2
    rw [octetOf_add S t w j hj2]
    simp only [add] at hj
    by_cases hw : w = t / 256
    · subst hw
      simp only [if_true] at hj
      rw [if_neg (by rintro ⟨_, rfl⟩; split at hj <;> omega)]
      exact h.zero _ _ (by split at hj <;> omega) hj2
    · rw [if_neg hw] at hj
      rw [if_neg (fun x => hw x.1)]
      exact h.zero _ _ hj hj2
  last := by
    intro w
    have hbit : octetOf (fun x => S x || x == t) (t / 256) (t % 256 / 8) ≠ 0 := by
      rw [Ne, octetOf_zero]
      intro hall
      have := hall (t % 256 % 8) (by omega)
      have he : 256 * (t / 256) + 8 * (t % 256 / 8) + t % 256 % 8 = t := by omega
      rw [he] at this
      simp at this
    simp only [add]
    by_cases hw : w = t / 256
    · subst hw
      simp only [if_true]
      right
      split
      · simpa using hbit
      · rename_i hu
        rcases h.last (t / 256) with h0 | h0
        · omega
        · rw [octetOf_add _ _ _ _ (by have := h.used32 (t / 256); omega)]
          split
          · rename_i hc
            rw [← hc.2] at hbit
            rw [octetOf_add _ _ _ _ (by have := h.used32 (t / 256); omega), if_pos hc] at hbit
            exact hbit
          · exact h0
    · rw [if_neg hw]
      rcases h.last w with h0 | h0
      · exact .inl h0
      · by_cases hz : (bm.windows w).used = 0
        · exact .inl hz
        · right
          rw [octetOf_add _ _ _ _ (by have := h.used32 w; omega), if_neg (fun x => hw x.1)]
          exact h0
  top := by
    intro w hw
    simp only [add] at hw ⊢
    rw [if_neg (by split at hw <;> omega)]
    exact h.top w (by split at hw <;> omega)
  bound := by
    have := h.bound
    simp only [add]
    split <;> omega

theorem stores_all (types : List Nat) (ht : ∀ t ∈ types, t < 65536) :
    Stores (types.foldl add new) (memb types) := by
  have gen : ∀ (types done : List Nat) (bm : Bm), (∀ t ∈ types, t < 65536) → Stores bm (memb done) →
      Stores (types.foldl add bm) (memb (done ++ types)) := by
    intro types
    induction types with
    | nil => intro done bm _ h; simpa using h
    | cons t types ih =>
      intro done bm ht h
      have h2 := stores_add bm _ h t (ht t (by simp))
      have he : (fun x => memb done x || x == t) = memb (done ++ [t]) := by
        funext x
        rw [Bool.eq_iff_iff]
        simp [memb]
      rw [he] at h2
      have := ih (done ++ [t]) (add bm t) (fun x hx => ht x (by simp [hx])) h2
      simpa using this
  have := gen types [] new ht (by
    have : memb [] = fun _ => false := by funext x; simp [memb]
    rw [this]; exact stores_new)
  simpa using this

theorem write_spec (bm : Bm) (S : Nat → Bool) (h : Stores bm S) : write bm = encode S := by
  have hblock : ∀ w, (if (bm.windows w).used = 0 then [] else
      UInt8.ofNat w :: UInt8.ofNat (bm.windows w).used ::
        (List.range (bm.windows w).used).map (bm.windows w).data) = block S w := by
    intro w
    have hs := strip_map (octetOf S w) (bm.windows w).used 32 (h.used32 w) (h.zero w) (h.last w)
    have hd : (List.range (bm.windows w).used).map (bm.windows w).data =
        (List.range (bm.windows w).used).map (octetOf S w) := by
      apply List.map_congr_left
      intro i hi
      have := h.used32 w
      exact h.data w i (by have := List.mem_range.mp hi; omega)
    unfold block
    simp only [hs, hd, List.length_map, List.length_range, List.map_eq_nil_iff, List.range_eq_nil]
  unfold write encode
  simp only
  have h1 : (List.range bm.used).flatMap (block S) = (List.range 256).flatMap (block S) := by
    obtain ⟨k, hk⟩ : ∃ k, 256 = bm.used + k := ⟨256 - bm.used, by have := h.bound; omega⟩
    rw [hk, List.range_add, List.flatMap_append]
    have : ((List.range k).map (bm.used + ·)).flatMap (block S) = [] := by
      rw [List.flatMap_eq_nil_iff]
      intro w hw
      obtain ⟨j, _, rfl⟩ := List.mem_map.mp hw
      rw [← hblock, if_pos (h.top _ (by omega))]
    rw [this, List.append_nil]
  rw [← h1]
  congr 1
  funext w
  exact hblock w

theorem strip_length_le (l : List UInt8) : (strip l).length ≤ l.length := by
  unfold strip
  rw [List.length_reverse]
  have := (List.dropWhile_sublist (· == (0 : UInt8)) (l := l.reverse)).length_le
  rw [List.length_reverse] at this
  exact this

/-- Position-wise description of a stripped list. -/
theorem strip_getD (l : List UInt8) (i : Nat) : ((strip l)[i]?).getD 0 = (l[i]?).getD 0 := by
  have key : ∀ r : List UInt8, ∃ z, (r.dropWhile (· == (0 : UInt8))).reverse ++ List.replicate z 0 = r.reverse := by
    intro r
    induction r with
    | nil => exact ⟨0, rfl⟩
    | cons a r ih =>
      by_cases h : a = 0
      · subst h
        obtain ⟨z, hz⟩ := ih
        refine ⟨z + 1, ?_⟩
        rw [List.dropWhile_cons_of_pos (by simp), List.reverse_cons, ← hz, List.append_assoc,
          List.replicate_succ']
      · refine ⟨0, ?_⟩
        rw [List.dropWhile_cons_of_neg (by simpa using h)]
        simp
  obtain ⟨z, hz⟩ := key l.reverse
  rw [List.reverse_reverse] at hz
  have hz' : strip l ++ List.replicate z 0 = l := hz
  generalize strip l = s at hz'
  subst hz'
  by_cases h : i < s.length
  · rw [List.getElem?_append_left h]
  · rw [List.getElem?_eq_none (by omega), List.getElem?_append_right (by omega)]
    by_cases hj : i - s.length < z
    · rw [List.getElem?_replicate_of_lt hj]; rfl
    · rw [List.getElem?_eq_none (by simp; omega)]

theorem rd_append (p l : Bytes) (n : Nat) : Res.rd (p ++ l) (p.length + n) = Res.rd l n := by
  unfold Res.rd
  rw [List.getElem?_append_right (by omega)]
  congr 1
  congr 1
  omega

/-- A block is empty, or has a header and 1 to 32 octets. -/
theorem block_cases (S : Nat → Bool) (w : Nat) :
    (block S w = [] ∧ ∀ i < 32, octetOf S w i = 0) ∨
    ∃ dd, block S w = UInt8.ofNat w :: UInt8.ofNat dd.length :: dd ∧ 0 < dd.length ∧ dd.length ≤ 32 ∧
      ∀ i < 32, (dd[i]?).getD 0 = octetOf S w i := by
  have hget := strip_getD ((List.range 32).map (octetOf S w))
  have hlen := strip_length_le ((List.range 32).map (octetOf S w))
  simp only [List.length_map, List.length_range] at hlen
  have hoct : ∀ i < 32, (((List.range 32).map (octetOf S w))[i]?).getD 0 = octetOf S w i := by
    intro i hi
    simp [List.getElem?_range hi]
  unfold block
  simp only
  generalize strip ((List.range 32).map (octetOf S w)) = dd at *
  by_cases h : dd = []
  · left
    rw [if_pos h]
    refine ⟨rfl, fun i hi => ?_⟩
    rw [← hoct i hi, ← hget i, h]
    rfl
  · right
    rw [if_neg h]
    exact ⟨dd, rfl, List.length_pos_iff.mpr h, hlen, fun i hi => by rw [hget, hoct i hi]⟩

/-- One round of the membership loop over a well-formed block. -/
theorem containsLoop_step (pre dd rest : Bytes) (k hi lo : Nat) (hk : k < 256) (hpos : 0 < dd.length)
    (hlen : dd.length ≤ 32) :
    containsLoop (pre ++ (UInt8.ofNat k :: UInt8.ofNat dd.length :: dd ++ rest))
      (pre ++ (UInt8.ofNat k :: UInt8.ofNat dd.length :: dd ++ rest)).length hi lo pre.length =
    if k = hi then .ok ((dd[lo / 8]?).getD 0 &&& ((1 : UInt8) <<< UInt8.ofNat (7 - lo % 8)) != 0)
    else containsLoop ((pre ++ (UInt8.ofNat k :: UInt8.ofNat dd.length :: dd)) ++ rest)
      ((pre ++ (UInt8.ofNat k :: UInt8.ofNat dd.length :: dd)) ++ rest).length hi lo
      (pre ++ (UInt8.ofNat k :: UInt8.ofNat dd.length :: dd)).length := by
  rw [containsLoop, if_pos (by simp; omega)]
  have e0 := rd_append pre (UInt8.ofNat k :: UInt8.ofNat dd.length :: dd ++ rest) 0
  have e1 := rd_append pre (UInt8.ofNat k :: UInt8.ofNat dd.length :: dd ++ rest) 1
  have e2 := rd_append pre (UInt8.ofNat k :: UInt8.ofNat dd.length :: dd ++ rest) (lo / 8 + 1 + 1)
  rw [Nat.add_zero] at e0
  rw [e0, e1]
  have hj8 : (UInt8.ofNat k).toNat = k := by rw [UInt8.toNat_ofNat']; omega
  have hl8 : (UInt8.ofNat dd.length).toNat = dd.length := by rw [UInt8.toNat_ofNat']; omega
  simp only [List.cons_append, Res.rd, List.getElem?_cons_zero, List.getElem?_cons_succ] at e2 ⊢
  rw [hj8, hl8, if_neg (by simp only [List.length_append, List.length_cons]; omega)]
  by_cases hkh : k = hi
  · rw [if_pos hkh, if_pos hkh]
    by_cases hlt : lo / 8 < dd.length
    · rw [if_pos hlt, show pre.length + 2 + lo / 8 = pre.length + (lo / 8 + 1 + 1) by omega, e2,
        List.getElem?_append_left hlt, List.getElem?_eq_getElem hlt]
      rfl
    · rw [if_neg hlt, List.getElem?_eq_none (by omega)]
      simp
  · rw [if_neg hkh, if_neg hkh]
    simp only [List.append_assoc, List.cons_append, List.length_append, List.length_cons]
    congr 1
    omega

theorem range_cons (n k : Nat) : (List.range (n + 1)).map (k + ·) = k :: (List.range n).map (k + 1 + ·) := by
  rw [List.range_succ_eq_map, List.map_cons, List.map_map, Nat.add_zero]
  congr 1
  apply List.map_congr_left
  intro i _
  simp only [Function.comp]
  omega

/-- Walking over the encoded blocks. -/
theorem containsLoop_blocks (S : Nat → Bool) (hi lo : Nat) (hhi : hi < 256) (hlo : lo < 256) :
    ∀ n k (pre : Bytes), k + n = 256 →
      containsLoop (pre ++ ((List.range n).map (k + ·)).flatMap (block S))
        (pre ++ ((List.range n).map (k + ·)).flatMap (block S)).length hi lo pre.length
        = .ok (decide (k ≤ hi) && S (256 * hi + lo)) := by
  intro n
  induction n with
  | zero =>
    intro k pre hk
    rw [containsLoop, if_neg (by simp)]
    rw [show decide (k ≤ hi) = false by simp; omega]
    rfl
  | succ n ih =>
    intro k pre hk
    rw [range_cons, List.flatMap_cons]
    have hbit := octetOf_bit S hi (lo / 8) (lo % 8) (by omega)
    rw [show 256 * hi + 8 * (lo / 8) + lo % 8 = 256 * hi + lo by omega] at hbit
    have hdec : k ≠ hi → decide (k + 1 ≤ hi) = decide (k ≤ hi) := by
      intro h; rw [decide_eq_decide]; omega
    rcases block_cases S k with ⟨hb, hz⟩ | ⟨dd, hb, h1, h2, h3⟩
    · rw [hb, List.nil_append, ih (k + 1) pre (by omega)]
      by_cases hkh : k = hi
      · subst hkh
        rw [hz _ (by omega)] at hbit
        rw [← hbit]
        simp
      · rw [hdec hkh]
    · rw [hb, containsLoop_step pre dd _ k hi lo (by omega) h1 h2]
      by_cases hkh : k = hi
      · subst hkh
        rw [if_pos rfl, h3 _ (by omega), hbit]
        simp
      · rw [if_neg hkh, ih (k + 1) _ (by omega), hdec hkh]

theorem contains_encode (S : Nat → Bool) (t : Nat) (ht : t < 65536) :
    contains (encode S) (encode S).length t = .ok (S t) := by
  have := containsLoop_blocks S (t / 256) (t % 256) (by omega) (by omega) 256 0 [] rfl
  have hid : ((List.range 256).map (0 + ·)) = List.range 256 := by
    rw [show ((0 + ·) : Nat → Nat) = id by funext x; simp, List.map_id]
  rw [hid] at this
  simp only [List.nil_append, List.length_nil, Nat.zero_le, decide_true, Bool.true_and] at this
  rw [show 256 * (t / 256) + t % 256 = t by omega] at this
  unfold contains
  by_cases h0 : (encode S).length = 0
  · rw [if_pos h0]
    unfold encode at *
    rw [containsLoop, if_neg (by omega)] at this
    exact this
  · rw [if_neg h0]
    exact this

end Bitmap

/-- C18. Adding types in any order and writing the bitmap gives exactly the RFC 4034 encoding of
the set of added types: ordered, minimal window blocks, independent of insertion order and
repetition. -/
theorem C18_write (types : List Nat) (ht : ∀ t ∈ types, t < 65536) :
    write (types.foldl add new) = encode (fun t => decide (t ∈ types)) :=
  write_spec _ _ (stores_all types ht)

/-- C18. The announced size is the number of bytes written. -/
theorem C18_size (types : List Nat) : size (types.foldl add new) = (write (types.foldl add new)).length := by
  unfold size write
  rw [List.length_flatMap]
  congr 1
  apply List.map_congr_left
  intro i _
  simp only
  split
  · rfl
  · simp; omega

/-- C18. Testing membership in the written bitmap returns exactly the types added. -/
theorem C18_contains (types : List Nat) (ht : ∀ t ∈ types, t < 65536) (t : Nat) (h : t < 65536) :
    contains (write (types.foldl add new)) (size (types.foldl add new)) t = .ok (decide (t ∈ types)) := by
  rw [C18_size, C18_write types ht]
  exact contains_encode _ t h

/-- C18. The written bitmap always fits the 16-bit size parameter of the membership test. -/
theorem C18_fits (types : List Nat) (ht : ∀ t ∈ types, t < 65536) :
    (write (types.foldl add new)).length ≤ 8704 := by
  have h := stores_all types ht
  unfold write
  rw [List.length_flatMap]
  have hb : ∀ x ∈ (List.range (types.foldl add new).used).map (fun win =>
      (if ((types.foldl add new).windows win).used = 0 then ([] : List UInt8) else
        UInt8.ofNat win :: UInt8.ofNat ((types.foldl add new).windows win).used ::
          (List.range ((types.foldl add new).windows win).used).map
            ((types.foldl add new).windows win).data).length), x ≤ 34 := by
    intro x hx
    obtain ⟨w, _, rfl⟩ := List.mem_map.mp hx
    have := h.used32 w
    split
    · simp
    · simp; omega
  have hsum : ∀ (l : List Nat), (∀ x ∈ l, x ≤ 34) → l.sum ≤ 34 * l.length := by
    intro l
    induction l with
    | nil => simp
    | cons a l ih =>
      intro hl
      have h1 := hl a (by simp)
      have h2 := ih (fun x hx => hl x (by simp [hx]))
      simp only [List.sum_cons, List.length_cons]
      omega
  have := hsum _ hb
  have hu := h.bound
  simp only [List.length_map, List.length_range] at this
  simp only
  omega

/-- C18. The membership test never reads outside of an arbitrary (also malformed) bitmap. -/
theorem C18_contains_safe (bitmap : Bitmap.Bytes) (t : Nat) :
    ∃ b, contains bitmap bitmap.length t = .ok b := by
  unfold contains
  split
  · exact ⟨false, rfl⟩
  · generalize 0 = pos
    fun_induction containsLoop bitmap bitmap.length (t / 256) (t % 256) pos with
    | case1 => exact ⟨_, rfl⟩
    | case2 pos hp idx len h1 h2 h3 h4 h5 =>
      rw [Res.rd, List.getElem?_eq_getElem (by omega)]
      exact ⟨_, rfl⟩
    | case3 => exact ⟨_, rfl⟩
    | case4 pos hp idx len h1 h2 h3 h4 ih => exact ih
    | case5 pos hp h =>
      exfalso
      refine h (bitmap[pos]'(by omega)) (bitmap[pos + 1]'(by omega)) ?_ ?_
      · rw [Res.rd, List.getElem?_eq_getElem (by omega)]
      · rw [Res.rd, List.getElem?_eq_getElem (by omega)]
    | case6 => exact ⟨_, rfl⟩

example : write ([46, 1, 257, 46].foldl add new) = [0, 6, 64, 0, 0, 0, 0, 2, 1, 1, 64] := by decide +kernel
example : block (fun t => decide (t ∈ [1, 46, 257])) 1 = [1, 1, 64] := by decide +kernel

end Knot
