import Verif.Ctl.Spec
import Verif.WireCtx.Props
/-!
# Control protocol: sending
-/
namespace Knot.Ctl
open WireCtx (Ctx load store beBytes beVal)

/-- All that was written. -/
def total (s : St) : Bytes := s.sent ++ s.out.mem.take s.out.pos

theorem len_beBytes (n v : Nat) : (beBytes n v).length = n := Knot.WireCtx.length_beBytes n v

theorem ensureOutput_spec {N : Nat} {s : St} (h : Sane N s) {len : Nat} (hl : len ≤ N) :
    Sane N (ensureOutput N s len) ∧ total (ensureOutput N s len) = total s ∧ len ≤ N - (ensureOutput N s len).out.pos ∧
    (ensureOutput N s len).inp = s.inp ∧ (ensureOutput N s len).net = s.net ∧ (ensureOutput N s len).data = s.data := by
  unfold ensureOutput
  split
  · next hc =>
    refine ⟨h, rfl, ?_, rfl, rfl, rfl⟩
    unfold WireCtx.available at hc; rw [h.outSize] at hc; omega
  · refine ⟨⟨?_, ?_, ?_, ?_, ?_, h.inMem, h.inSize, h.inPos, h.inErr, h.chunks⟩, ?_, ?_, rfl, rfl, rfl⟩
    all_goals simp only [flush, WireCtx.init, total]
    all_goals first | exact h.outMem | rfl | (simp; done) | omega

theorem write_spec {N : Nat} {s : St} (h : Sane N s) {d : Bytes} (hd : d.length ≤ N - s.out.pos) :
    ∃ w, WireCtx.write s.out d = .ok w ∧ w.error = none ∧ Sane N { s with out := w } ∧ total { s with out := w } = total s ++ d ∧
      w.pos = s.out.pos + d.length := by
  have hp := h.outPos
  unfold WireCtx.write
  rw [if_neg (by simp [h.outErr])]
  by_cases h0 : d.length = 0
  · rw [if_pos h0]
    refine ⟨_, rfl, h.outErr, h, ?_, by omega⟩
    have : d = [] := List.eq_nil_of_length_eq_zero h0
    simp [this]
  · rw [if_neg h0]
    unfold WireCtx.canWrite WireCtx.available
    simp only [h.outErr, h.outRw, Bool.false_eq_true, if_false, h.outSize]
    rw [if_neg (by omega)]
    unfold store
    have hm := h.outMem
    rw [if_pos (by omega)]
    simp only [Res.bind_ok]
    refine ⟨_, rfl, rfl, ⟨?_, rfl, ?_, rfl, rfl, h.inMem, h.inSize, h.inPos, h.inErr, h.chunks⟩, ?_, rfl⟩
    · simp only [List.length_append, List.length_take, List.length_drop]; omega
    · simp only; omega
    · simp only [total, List.append_assoc]
      congr 1
      rw [List.take_append, List.take_append]
      simp only [List.length_take]
      have e1 : min s.out.pos s.out.mem.length = s.out.pos := by omega
      rw [e1, List.take_of_length_le (l := s.out.mem.take s.out.pos) (by simp; omega)]
      congr 1
      rw [List.take_of_length_le (by omega)]
      simp

/-- What a sending function does. -/
def Sends (N : Nat) (s : St) (r : Res (Option Err × St)) (d : Bytes) : Prop :=
  ∃ s', r = .ok (none, s') ∧ Sane N s' ∧ total s' = total s ++ d ∧ s'.inp = s.inp ∧ s'.net = s.net ∧ s'.data = s.data

theorem sendData_spec {N : Nat} (hN : 65535 ≤ N) {s : St} (h : Sane N s) {d : Bytes} (hd : d.length ≤ 65535) :
    Sends N s (sendData N s (some d)) (beBytes 2 d.length ++ d) := by
  simp only [sendData]
  rw [if_neg (by omega)]
  obtain ⟨h1, h2, h3, h4, h5, h6⟩ := ensureOutput_spec h (len := 2) (by omega)
  obtain ⟨w, g1, g2, g3, g4, _⟩ := write_spec h1 (d := beBytes 2 d.length) (by rw [len_beBytes]; omega)
  simp only [WireCtx.writeU, g1, Res.bind_ok]
  rw [if_neg (by simp [g2])]
  obtain ⟨k1, k2, k3, k4, k5, k6⟩ := ensureOutput_spec g3 (len := d.length) (by omega)
  obtain ⟨w', l1, l2, l3, l4, _⟩ := write_spec k1 (d := d) k3
  simp only [l1, Res.bind_ok, l2]
  refine ⟨_, rfl, l3, ?_, k4.trans h4, k5.trans h5, k6.trans h6⟩
  rw [l4, k2, g4, h2, List.append_assoc]

/-- The length and the value. -/
def valueOctets : Option Bytes → Bytes
  | none => []
  | some d => beBytes 2 d.length ++ d

theorem sendItem_spec {N : Nat} (hN : 65535 ≤ N) {s : St} (h : Sane N s) (code : Nat) {d : Option Bytes}
    (hd : ∀ x, d = some x → x.length ≤ 65535) (fl : Bool) :
    ∃ s', sendItem N s code d fl = .ok (none, s') ∧ Sane N s' ∧
      total s' = total s ++ (beBytes 1 code ++ valueOctets d) ∧
      s'.inp = s.inp ∧ s'.net = s.net ∧ s'.data = s.data ∧ (fl = true → s'.out.pos = 0) := by
  unfold sendItem
  obtain ⟨h1, h2, h3, h4, h5, h6⟩ := ensureOutput_spec h (len := 1) (by omega)
  obtain ⟨w, g1, g2, g3, g4, _⟩ := write_spec h1 (d := beBytes 1 code) (by rw [len_beBytes]; omega)
  simp only [WireCtx.writeU, g1, Res.bind_ok]
  rw [if_neg (by simp [g2])]
  have hs : ∃ s', sendData N { ensureOutput N s 1 with out := w } d = .ok (none, s') ∧ Sane N s' ∧
      total s' = total { ensureOutput N s 1 with out := w } ++ (valueOctets d) ∧
      s'.inp = (ensureOutput N s 1).inp ∧ s'.net = (ensureOutput N s 1).net ∧ s'.data = (ensureOutput N s 1).data := by
    cases d with
    | none => exact ⟨_, rfl, g3, by simp [valueOctets], rfl, rfl, rfl⟩
    | some d => exact sendData_spec hN g3 (hd d rfl)
  obtain ⟨s', k1, k2, k3, k4, k5, k6⟩ := hs
  rw [k1]
  simp only [Res.bind_ok]
  refine ⟨_, rfl, ?_⟩
  have ht : total s' = total s ++ (beBytes 1 code ++ valueOctets d) := by
    rw [k3, g4, h2, List.append_assoc]
  split
  · refine ⟨⟨?_, rfl, ?_, rfl, rfl, k2.inMem, k2.inSize, k2.inPos, k2.inErr, k2.chunks⟩, ?_, k4.trans h4, k5.trans h5, k6.trans h6, fun _ => rfl⟩
    · exact k2.outMem
    · exact Nat.zero_le _
    · rw [← ht]; simp [total, flush, WireCtx.init]
  · next hc =>
    refine ⟨k2, ht, k4.trans h4, k5.trans h5, k6.trans h6, fun hf => ?_⟩
    simp only [hf, true_and] at hc
    omega

theorem sendItems_spec {N : Nat} (hN : 65535 ≤ N) : ∀ (l : List (Option Bytes)) (s : St) (i : Nat), Sane N s →
    (∀ d, some d ∈ l → d.length ≤ 65535) → Sends N s (sendItems N s i l) (itemOctets i l) := by
  intro l
  induction l with
  | nil => intro s i h _; exact ⟨s, rfl, h, by simp [itemOctets], rfl, rfl, rfl⟩
  | cons x l ih =>
    intro s i h hd
    have hd' := fun d hm => hd d (List.mem_cons_of_mem _ hm)
    cases x with
    | none => exact ih s (i + 1) h hd'
    | some d =>
      simp only [sendItems, itemOctets]
      obtain ⟨s1, h1, h2, h3, h4, h5, h6, _⟩ := sendItem_spec hN h (16 + i) (d := some d)
        (fun x hx => by cases hx; exact hd d (List.mem_cons_self ..)) false
      rw [h1]
      simp only [Res.bind_ok]
      obtain ⟨s2, g1, g2, g3, g4, g5, g6⟩ := ih s1 (i + 1) h2 hd'
      refine ⟨s2, g1, g2, ?_, g4.trans h4, g5.trans h5, g6.trans h6⟩
      rw [g3, h3]
      simp [valueOctets]

theorem send_spec {N : Nat} (hN : 65535 ≤ N) {s : St} (h : Sane N s) {u : Unit'} (hu : u.Ok) :
    ∃ s', send N s u.kind u.items = .ok (none, s') ∧ Sane N s' ∧ total s' = total s ++ u.octets ∧ s'.inp = s.inp ∧ s'.net = s.net ∧
      (u.kind.isData = false → s'.out.pos = 0) := by
  unfold send
  obtain ⟨s1, h1, h2, h3, h4, h5, h6, h7⟩ := sendItem_spec hN h u.kind.code (d := none) (by simp) (!u.kind.isData)
  rw [h1]
  simp only [Res.bind_ok]
  by_cases hd : u.kind.isData = true
  · rw [if_pos hd]
    obtain ⟨s2, g1, g2, g3, g4, g5, _⟩ := sendItems_spec hN u.items s1 0 h2 hu.2.1
    refine ⟨s2, g1, g2, ?_, g4.trans h4, g5.trans h5, by simp [hd]⟩
    rw [g3, h3]
    simp [Unit'.octets, valueOctets]
  · rw [if_neg hd]
    have hf : u.kind.isData = false := by simpa using hd
    refine ⟨s1, rfl, h2, ?_, h4, h5, fun _ => h7 (by simp [hf])⟩
    rw [h3]
    have : ∀ (l : List (Option Bytes)) i, (∀ x ∈ l, x = none) → itemOctets i l = [] := by
      intro l
      induction l with
      | nil => intro i _; rfl
      | cons x l ih => intro i hx; rw [hx x (List.mem_cons_self ..)]; exact ih _ (fun y hy => hx y (List.mem_cons_of_mem _ hy))
    simp [Unit'.octets, valueOctets, this _ 0 (hu.2.2 hf)]

theorem sendAll_spec {N : Nat} (hN : 65535 ≤ N) : ∀ (us : List Unit') (s : St), Sane N s → (∀ u ∈ us, u.Ok) →
    ∃ s', sendAll N s us = .ok (none, s') ∧ Sane N s' ∧ total s' = total s ++ (us.map Unit'.octets).flatten ∧ s'.inp = s.inp ∧
      s'.net = s.net ∧ ((∃ u, us.getLast? = some u ∧ u.kind.isData = false) → s'.out.pos = 0) := by
  intro us
  induction us with
  | nil => intro s h _; exact ⟨s, rfl, h, by simp, rfl, rfl, by simp⟩
  | cons u us ih =>
    intro s h hu
    obtain ⟨s1, h1, h2, h3, h4, h5, h6⟩ := send_spec hN h (hu u (List.mem_cons_self ..))
    obtain ⟨s2, g1, g2, g3, g4, g5, g6⟩ := ih s1 h2 (fun v hv => hu v (List.mem_cons_of_mem _ hv))
    refine ⟨s2, ?_, g2, ?_, g4.trans h4, g5.trans h5, ?_⟩
    · simp only [sendAll]; rw [h1]; simp only [Res.bind_ok]; exact g1
    · rw [g3, h3]; simp
    · rintro ⟨v, hv, hk⟩
      cases us with
      | nil =>
        simp only [List.getLast?_singleton, Option.some.injEq] at hv
        subst hv
        simp only [sendAll, Res.ok.injEq, Prod.mk.injEq, true_and] at g1
        rw [← g1]
        exact h6 hk
      | cons a l => exact g6 ⟨v, by simpa using hv, hk⟩

end Knot.Ctl
