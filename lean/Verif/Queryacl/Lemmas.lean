import Verif.Queryacl.Spec
import Verif.Sockaddr.Props
namespace Knot.Queryacl
open Sockaddr (Addr netMatch rangeMatch bit bitLen num)

theorem bit_eq (a : Addr) (i : Nat) : addrBit a i = bit a.raw i := by
  simp [addrBit, bit, List.getD_eq_getElem?_getD]

theorem ip_width {a : Addr} (h : Ip a) : width a = bitLen a.fam ∧ a.fam ≠ .unix ∧ bitLen a.fam ≤ 128 := by
  obtain ⟨hw, hf⟩ := h
  unfold Addr.WF at hw
  rcases hf with hf | hf <;> rw [hf] at hw ⊢ <;> simp [width, bitLen] at hw ⊢ <;> omega

theorem byte_ext {x y : UInt8} (h : ∀ j < 8, x.toNat.testBit (7 - j) = y.toNat.testBit (7 - j)) : x = y := by
  rw [← UInt8.toNat_inj]
  apply Nat.eq_of_testBit_eq
  intro i
  by_cases hi : i < 8
  · have := h (7 - i) (by omega)
    rwa [show 7 - (7 - i) = i by omega] at this
  · have hx := x.toNat_lt
    have hy := y.toNat_lt
    have hp : 2 ^ 8 ≤ 2 ^ i := Nat.pow_le_pow_right (by omega) (by omega)
    rw [Nat.testBit_lt_two_pow (by omega), Nat.testBit_lt_two_pow (by omega)]

theorem raw_ext {a b : List UInt8} (hl : a.length = b.length) (h : ∀ i < 8 * a.length, bit a i = bit b i) : a = b := by
  apply List.ext_getElem hl
  intro n h1 h2
  apply byte_ext
  intro j hj
  have := h (8 * n + j) (by omega)
  unfold bit at this
  rw [show (8 * n + j) / 8 = n by omega, show (8 * n + j) % 8 = j by omega] at this
  simpa [List.getD_eq_getElem?_getD, h1, h2] using this

theorem wf_len {a b : Addr} (ha : Ip a) (hb : b.WF) (hf : a.fam = b.fam) : a.raw.length = b.raw.length := by
  obtain ⟨hw, hi⟩ := ha
  unfold Addr.WF at hw hb
  rw [← hf] at hb
  rcases hi with hi | hi <;> rw [hi] at hw hb <;> simp at hw hb <;> omega

theorem net_ok {a b : Addr} (ha : Ip a) (hb : b.WF) (p : Option Nat) :
    ∃ r, netMatch a b (p.getD 4294967295) = .ok r ∧ (r = true ↔ In a (.net b p)) := by
  obtain ⟨r, h1, h2⟩ := C30_net_match a b ha.1 hb (p.getD 4294967295)
  obtain ⟨hw, hu, hle⟩ := ip_width ha
  refine ⟨r, h1, ?_⟩
  rw [h2, if_neg hu]
  cases p with
  | some p =>
    simp only [In, Option.getD_some, bit_eq, hw]
    constructor
    · rintro ⟨hf, h⟩; exact ⟨hf, fun i h1 h2 => h i (by omega)⟩
    · rintro ⟨hf, h⟩; exact ⟨hf, fun i hi => h i (by omega) (by omega)⟩
  | none =>
    simp only [In, Option.getD_none]
    constructor
    · rintro ⟨hf, h⟩
      refine ⟨hf, raw_ext (wf_len ha hb hf) (fun i hi => h i ?_)⟩
      have : 8 * a.raw.length = bitLen a.fam := hw
      omega
    · rintro ⟨hf, h⟩; exact ⟨hf, fun i _ => by rw [h]⟩

theorem range_ok {le : Bool} {a lo hi : Addr} (ha : Ip a) (hl : lo.WF) (hh : hi.WF) (ho : le = false ∨ a.fam = .inet6) :
    rangeMatch le a lo hi = true ↔ In a (.range lo hi) := by
  by_cases h6 : a.fam = .inet6
  · exact Sockaddr.range_v6 le a lo hi ha.1 hl hh h6
  · have h4 : a.fam = .inet := by rcases ha.2 with h | h; exact h; exact absurd h h6
    have hle : le = false := by rcases ho with h | h; exact h; exact absurd h h6
    subst hle
    exact Sockaddr.range_v4 false a lo hi h4

theorem match_ok {le : Bool} {a : Addr} (ha : Ip a) : ∀ {items : List Item}, (∀ x ∈ items, x.WF) → RangesOk le items a →
    ∃ r, confMatch le a items = .ok r ∧ (r = true ↔ ∃ x ∈ items, In a x) := by
  intro items
  induction items with
  | nil => intro _ _; exact ⟨false, rfl, by simp⟩
  | cons x xs ih =>
    intro hw hr
    have hr' : RangesOk le xs a := by
      rcases hr with h | h | h
      · exact .inl h
      · exact .inr (.inl h)
      · exact .inr (.inr fun y hy => h y (by simp [hy]))
    obtain ⟨r, h1, h2⟩ := ih (fun y hy => hw y (by simp [hy])) hr'
    have hx := hw x (by simp)
    cases x with
    | net b p =>
      obtain ⟨s, g1, g2⟩ := net_ok ha hx p
      cases s with
      | true => exact ⟨true, by simp [confMatch, g1], by simp [g2.1 rfl]⟩
      | false =>
        refine ⟨r, by simp [confMatch, g1, h1], ?_⟩
        have : ¬ In a (.net b p) := fun h => by have := g2.2 h; cases this
        simp [h2, this]
    | range lo hi =>
      have hro : le = false ∨ a.fam = .inet6 := by
        rcases hr with h | h | h
        · exact .inl h
        · exact .inr h
        · have := h (.range lo hi) (by simp); cases this
      have hm := range_ok ha hx.1 hx.2 hro
      by_cases hR : rangeMatch le a lo hi = true
      · exact ⟨true, by simp [confMatch, hR], by simp [hm.1 hR]⟩
      · refine ⟨r, by simp [confMatch, hR, h1], ?_⟩
        have : ¬ In a (.range lo hi) := fun h => hR (hm.2 h)
        simp [h2, this]

theorem allowed_ok {le : Bool} {a : Addr} (ha : Ip a) {items : List Item} (hw : ∀ x ∈ items, x.WF) (hr : RangesOk le items a) :
    ∃ r, allowed le items a = .ok r ∧ (r = true ↔ Allowed items a) := by
  unfold allowed Allowed
  cases items with
  | nil => exact ⟨true, rfl, by simp⟩
  | cons x xs =>
    obtain ⟨r, h1, h2⟩ := match_ok ha hw hr
    exact ⟨r, by simp [h1], by simp only [reduceCtorEq, false_or]; exact h2⟩

theorem process_ok {le normal : Bool} {addrs ifaces : List Item} {remote loc : Addr} (hr : Ip remote) (hl : Ip loc)
    (ha : ∀ x ∈ addrs, x.WF) (hi : ∀ x ∈ ifaces, x.WF) (ra : RangesOk le addrs remote) (ri : RangesOk le ifaces loc) :
    ∃ r, process le normal addrs ifaces remote loc = .ok r ∧
      (r = true ↔ (normal = true → Allowed addrs remote ∧ Allowed ifaces loc)) := by
  obtain ⟨r, h1, h2⟩ := allowed_ok hr ha ra
  obtain ⟨s, g1, g2⟩ := allowed_ok hl hi ri
  cases normal with
  | false => exact ⟨true, rfl, by simp⟩
  | true =>
    cases r with
    | false => exact ⟨false, by simp [process, h1], by simp [← h2]⟩
    | true => exact ⟨s, by simp [process, h1, g1], by simp [← h2, ← g2]⟩

end Knot.Queryacl
