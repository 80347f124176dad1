import Verif.Pkt.Model
import Verif.Dname.LemmasText
import Verif.Rrwire.Lemmas
/-!
# Lemmas about writing names
-/
namespace Knot.Pkt
open Knot
open Knot.Dname (Name NameAt Valid wire nameLen lowerName lowerByte LabelsOk)

/-! ## Outcomes -/

/-- The outcome is defined, with a property of a successful and of a failed outcome. -/
def Out.Post {α : Type} (x : Out α) (Q : α → W → Prop) (E : Err → W → Prop) : Prop :=
  match x with
  | .ok a w => Q a w
  | .fail e w => E e w
  | .ub => False

theorem Post.mono {α : Type} {x : Out α} {Q Q' : α → W → Prop} {E E' : Err → W → Prop} (h : x.Post Q E)
    (hq : ∀ a w, Q a w → Q' a w) (he : ∀ e w, E e w → E' e w) : x.Post Q' E' := by
  cases x with
  | ok a w => exact hq a w h
  | fail e w => exact he e w h
  | ub => exact h

theorem Post.bind {α β : Type} {x : Out α} {f : α → W → Out β} {Q : α → W → Prop} {Q' : β → W → Prop} {E : Err → W → Prop}
    (h : x.Post Q E) (hf : ∀ a w, Q a w → (f a w).Post Q' E) : (x.bind f).Post Q' E := by
  cases x with
  | ok a w => exact hf a w h
  | fail e w => exact h
  | ub => exact h

theorem ask_ok {α : Type} {w : W} {r : Res α} {a : α} (h : r = .ok a) : ask w r = .ok a w := by subst h; rfl

theorem bind_ok {α β : Type} (a : α) (w : W) (f : α → W → Out β) : (Out.ok a w).bind f = f a w := rfl
theorem bind_fail {α β : Type} (e : Err) (w : W) (f : α → W → Out β) : (Out.fail e w : Out α).bind f = .fail e w := rfl

/-! ## Bytes in a buffer -/

/-- The bytes `d` are at `pos`. -/
def BytesAt (buf : Bytes) (pos : Nat) (d : Bytes) : Prop := ∀ i, i < d.length → buf[pos + i]? = d[i]?

theorem BytesAt.nil (buf : Bytes) (pos : Nat) : BytesAt buf pos [] := by intro i h; simp at h

theorem BytesAt.append {buf : Bytes} {pos : Nat} {a b : Bytes} :
    BytesAt buf pos (a ++ b) ↔ BytesAt buf pos a ∧ BytesAt buf (pos + a.length) b := by
  constructor
  · intro h
    refine ⟨fun i hi => ?_, fun i hi => ?_⟩
    · rw [h i (by simp only [List.length_append]; omega), List.getElem?_append_left hi]
    · have := h (a.length + i) (by simp only [List.length_append]; omega)
      rw [Nat.add_assoc, this, List.getElem?_append_right (by omega)]
      congr 1; omega
  · rintro ⟨h1, h2⟩ i hi
    by_cases hl : i < a.length
    · rw [h1 i hl, List.getElem?_append_left hl]
    · have := h2 (i - a.length) (by simp only [List.length_append] at hi; omega)
      rw [List.getElem?_append_right (by omega), ← this]
      congr 1; omega

theorem BytesAt.cons {buf : Bytes} {pos : Nat} {a : UInt8} {b : Bytes} :
    BytesAt buf pos (a :: b) ↔ buf[pos]? = some a ∧ BytesAt buf (pos + 1) b := by
  rw [show a :: b = [a] ++ b from rfl, BytesAt.append]
  constructor
  · rintro ⟨h1, h2⟩; exact ⟨by simpa using h1 0 (by simp), h2⟩
  · rintro ⟨h1, h2⟩; exact ⟨fun i hi => by simp only [List.length_cons, List.length_nil] at hi; obtain rfl : i = 0 := by omega
                                           simpa using h1, h2⟩

theorem BytesAt.congr {b b' : Bytes} {pos : Nat} {d : Bytes} (h : BytesAt b pos d)
    (hb : ∀ i, pos ≤ i → i < pos + d.length → b'[i]? = b[i]?) : BytesAt b' pos d := by
  intro i hi
  rw [hb _ (by omega) (by omega), h i hi]

theorem BytesAt.slice {b : Bytes} {pos : Nat} {d : Bytes} (h : BytesAt b pos d) : Rrwire.slice b pos d.length = d := by
  unfold Rrwire.slice
  apply List.ext_getElem?
  intro i
  by_cases hi : i < d.length
  · rw [List.getElem?_take_of_lt hi, List.getElem?_drop, h i hi]
  · rw [List.getElem?_eq_none (by simp only [List.length_take]; omega), List.getElem?_eq_none (by omega)]

theorem BytesAt.of_slice {b : Bytes} {pos : Nat} {d : Bytes} (h : Rrwire.slice b pos d.length = d) : BytesAt b pos d := by
  intro i hi
  conv => rhs; rw [← h]
  unfold Rrwire.slice
  rw [List.getElem?_take_of_lt hi, List.getElem?_drop]

/-- The buffers differ only in `[lo, hi)`. -/
def Fr (lo hi : Nat) (b b' : Bytes) : Prop := b'.length = b.length ∧ ∀ i, (i < lo ∨ hi ≤ i) → b'[i]? = b[i]?

theorem Fr.refl (lo hi : Nat) (b : Bytes) : Fr lo hi b b := ⟨rfl, fun _ _ => rfl⟩
theorem Fr.trans {lo hi : Nat} {a b c : Bytes} (h : Fr lo hi a b) (h' : Fr lo hi b c) : Fr lo hi a c :=
  ⟨h'.1.trans h.1, fun i hi => (h'.2 i hi).trans (h.2 i hi)⟩
theorem Fr.mono {lo hi lo' hi' : Nat} {a b : Bytes} (h : Fr lo hi a b) (h1 : lo' ≤ lo) (h2 : hi ≤ hi') : Fr lo' hi' a b :=
  ⟨h.1, fun i hi => h.2 i (by omega)⟩

theorem store_spec {mem : Bytes} {pos : Nat} {d : Bytes} (h : pos + d.length ≤ mem.length) :
    ∃ b, WireCtx.store mem pos d = .ok b ∧ Fr pos (pos + d.length) mem b ∧ BytesAt b pos d := by
  unfold WireCtx.store
  rw [if_pos h]
  refine ⟨_, rfl, ⟨by simp only [List.length_append, List.length_take, List.length_drop]; omega, ?_⟩, ?_⟩
  · intro i hi
    rcases hi with hi | hi
    · rw [List.getElem?_append_left (by simp only [List.length_append, List.length_take]; omega),
        List.getElem?_append_left (by simp only [List.length_take]; omega), List.getElem?_take_of_lt hi]
    · rw [List.getElem?_append_right (by simp only [List.length_append, List.length_take]; omega), List.getElem?_drop]
      congr 1
      simp only [List.length_append, List.length_take]; omega
  · intro i hi
    rw [List.getElem?_append_left (by simp only [List.length_append, List.length_take]; omega),
        List.getElem?_append_right (by simp only [List.length_take]; omega)]
    congr 1
    simp only [List.length_take]; omega

theorem put_spec {w : W} {pos : Nat} {d : Bytes} (h : pos + d.length ≤ w.buf.length) :
    ∃ b, put w pos d = .ok () { w with buf := b } ∧ Fr pos (pos + d.length) w.buf b ∧ BytesAt b pos d := by
  obtain ⟨b, h1, h2, h3⟩ := store_spec h
  exact ⟨b, by unfold put; rw [h1], h2, h3⟩

/-! ## Names in a buffer of which only some bytes are settled -/

/-- Like `NameAt`, every byte used being in the set `G`. -/
inductive At (buf : Bytes) (G : Nat → Prop) : Nat → Name → Nat → Prop
  | root {pos} : G pos → buf[pos]? = some 0 → At buf G pos [] 1
  | label {pos l ls n} : (∀ i, pos ≤ i → i < pos + (l.length + 1) → G i) → 1 ≤ l.length → l.length ≤ 63 →
      BytesAt buf pos (UInt8.ofNat l.length :: l) → At buf G (pos + (l.length + 1)) ls n →
      At buf G pos (l :: ls) (l.length + 1 + n)
  | ptr {pos ls n b1 b2} : G pos → G (pos + 1) → buf[pos]? = some b1 → buf[pos + 1]? = some b2 → 192 ≤ b1.toNat →
      (b1.toNat - 192) * 256 + b2.toNat < pos → At buf G ((b1.toNat - 192) * 256 + b2.toNat) ls n → At buf G pos ls 2

theorem At.mem {buf G pos ls n} (h : At buf G pos ls n) : G pos := by
  cases h with
  | root h => exact h
  | label h => exact h _ (by omega) (by omega)
  | ptr h => exact h

theorem At.congr {buf buf' : Bytes} {G G' : Nat → Prop} {pos ls n} (h : At buf G pos ls n) (hG : ∀ i, G i → G' i)
    (hb : ∀ i, G i → buf'[i]? = buf[i]?) : At buf' G' pos ls n := by
  induction h with
  | root h1 h2 => exact .root (hG _ h1) (by rw [hb _ h1, h2])
  | label h1 h2 h3 h4 _ ih =>
    refine .label (fun i a b => hG _ (h1 i a b)) h2 h3 (h4.congr ?_) ih
    intro i a b
    simp only [List.length_cons] at b
    exact hb _ (h1 i a (by omega))
  | ptr h1 h2 h3 h4 h5 h6 _ ih => exact .ptr (hG _ h1) (hG _ h2) (by rw [hb _ h1, h3]) (by rw [hb _ h2, h4]) h5 h6 ih

theorem At.nameAt {buf : Bytes} {G : Nat → Prop} {e pos ls n} (h : At buf G pos ls n) (hG : ∀ i, G i → i < e) :
    NameAt buf e true pos ls n := by
  induction h with
  | root h1 h2 => exact .root (hG _ h1) h2
  | @label pos l ls n h1 h2 h3 h4 _ ih =>
    have h4' := BytesAt.cons.mp h4
    exact .label h4'.1 h2 h3 h4'.2.slice ih
  | ptr h1 h2 h3 h4 h5 h6 _ ih => exact .ptr rfl (by have := hG _ h2; omega) h3 h4 h5 h6 ih

theorem At.labels_ok {buf G pos ls n} (h : At buf G pos ls n) : LabelsOk ls := by
  induction h with
  | root => intro l hl; simp at hl
  | label _ h1 h2 _ _ ih =>
    intro l hl
    rcases List.mem_cons.mp hl with rfl | hl
    · exact ⟨h1, h2⟩
    · exact ih l hl
  | ptr _ _ _ _ _ _ _ ih => exact ih

theorem At.pos {buf G pos ls n} (h : At buf G pos ls n) : 1 ≤ n := by
  cases h <;> omega

/-- The byte at `pos` begins a label. -/
def Plain (buf : Bytes) (pos : Nat) : Prop := ∃ b, buf[pos]? = some b ∧ b.toNat ≤ 63

theorem Plain.congr {buf buf' : Bytes} {pos : Nat} (h : Plain buf pos) (hb : buf'[pos]? = buf[pos]?) : Plain buf' pos := by
  obtain ⟨b, h1, h2⟩ := h
  exact ⟨b, by rw [hb, h1], h2⟩

theorem At.seek {buf G pos ls n} (h : At buf G pos ls n) :
    ∃ p n', Dname.seekLabel buf pos = .ok p ∧ At buf G p ls n' ∧ Plain buf p := by
  induction h with
  | @root pos h1 h2 =>
    refine ⟨pos, 1, ?_, .root h1 h2, 0, h2, by simp⟩
    unfold Dname.seekLabel
    rw [h2]
    rfl
  | @label pos l ls n h1 h2 h3 h4 h5 ih =>
    have h4' := BytesAt.cons.mp h4
    have ht : (UInt8.ofNat l.length).toNat = l.length := Dname.ofNat_toNat (by omega)
    refine ⟨pos, _, ?_, .label h1 h2 h3 h4 h5, _, h4'.1, by omega⟩
    unfold Dname.seekLabel
    rw [h4'.1]
    simp only
    rw [if_neg (by rw [Dname.isPtr_iff]; omega)]
  | @ptr pos ls n b1 b2 h1 h2 h3 h4 h5 h6 h7 ih =>
    obtain ⟨p, n', e1, e2, e3⟩ := ih
    refine ⟨p, n', ?_, e2, e3⟩
    unfold Dname.seekLabel
    rw [h3]
    simp only
    rw [if_pos ((Dname.isPtr_iff _).mpr h5), h4]
    simp only
    rw [Dname.getPtr_eq b2 h5, dif_neg (by omega)]
    exact e1

theorem Plain.label {buf G pos l ls n} (h : At buf G pos (l :: ls) n) (hp : Plain buf pos) :
    ∃ m, (∀ i, pos ≤ i → i < pos + (l.length + 1) → G i) ∧ 1 ≤ l.length ∧ l.length ≤ 63 ∧
      BytesAt buf pos (UInt8.ofNat l.length :: l) ∧ At buf G (pos + (l.length + 1)) ls m := by
  cases h with
  | label h1 h2 h3 h4 h5 => exact ⟨_, h1, h2, h3, h4, h5⟩
  | ptr h1 h2 h3 h4 h5 =>
    obtain ⟨b, hb, hb'⟩ := hp
    rw [h3] at hb
    cases hb
    omega

theorem At.next {buf G pos l ls n} (h : At buf G pos (l :: ls) n) (hp : Plain buf pos) :
    ∃ p n', Dname.wireNext buf pos = .ok p ∧ At buf G p ls n' ∧ Plain buf p := by
  obtain ⟨m, h1, h2, h3, h4, h5⟩ := hp.label h
  obtain ⟨p, n', e1, e2, e3⟩ := h5.seek
  refine ⟨p, n', ?_, e2, e3⟩
  unfold Dname.wireNext
  rw [(BytesAt.cons.mp h4).1]
  simp only
  rw [Dname.ofNat_toNat (by omega), if_neg (by omega)]
  exact e1

theorem At.nil_plain {buf G pos n} (h : At buf G pos [] n) (hp : Plain buf pos) : buf[pos]? = some 0 := by
  cases h with
  | root _ h => exact h
  | ptr h1 h2 h3 h4 h5 =>
    obtain ⟨b, hb, hb'⟩ := hp
    rw [h3] at hb
    cases hb
    omega

/-! ## Labels as bytes -/

/-- The labels without the final root label. -/
def labs (ls : Name) : Bytes := ls.flatMap (fun l => UInt8.ofNat l.length :: l)

theorem labs_cons (l : Dname.Label) (ls : Name) : labs (l :: ls) = UInt8.ofNat l.length :: l ++ labs ls := by
  simp [labs]

theorem labs_append (a b : Name) : labs (a ++ b) = labs a ++ labs b := by simp [labs]

theorem wire_labs (a : Name) : wire a = labs a ++ [0] := by
  induction a with
  | nil => rfl
  | cons l a ih => rw [labs_cons, wire, ih]; simp

theorem wire_append_labs (a b : Name) : wire (a ++ b) = labs a ++ wire b := by
  rw [wire_labs, wire_labs b, labs_append, List.append_assoc]

theorem labs_length (a : Name) : (labs a).length + 1 = nameLen a := by
  rw [← Dname.wire_length, wire_labs]; simp

theorem At.prepend {buf : Bytes} {G : Nat → Prop} {pos : Nat} (pre : Name) {ls : Name} {n : Nat} (hok : LabelsOk pre)
    (hG : ∀ i, pos ≤ i → i < pos + (labs pre).length → G i) (hb : BytesAt buf pos (labs pre))
    (h : At buf G (pos + (labs pre).length) ls n) : At buf G pos (pre ++ ls) ((labs pre).length + n) := by
  induction pre generalizing pos with
  | nil => simpa [labs] using h
  | cons l pre ih =>
    rw [labs_cons] at *
    rw [BytesAt.append] at hb
    simp only [List.length_append, List.length_cons] at hG h hb ⊢
    have e := ih (pos := pos + (l.length + 1)) hok.tail (fun i a b => hG i (by omega) (by omega)) hb.2
      (by rw [Nat.add_assoc]; exact h)
    have := At.label (fun i a b => hG i a (by omega)) hok.head.1 hok.head.2 hb.1 e
    rw [Nat.add_assoc]
    exact this

end Knot.Pkt
