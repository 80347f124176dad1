import Verif.Pktparse.Lemmas3
/-! # Parsing of the question, and construction of parsed packets -/
namespace Knot.Pktparse
open Knot
open Knot.Dname (Name NameAt Valid wire nameLen lowerName)
open Knot.Rrwire (RR Rec AcceptAt HeadAt encAll slice num)

theorem name_plain {mem : Bytes} {e pos n : Nat} {ls : Name} (h : NameAt mem e false pos ls n) :
    n = nameLen ls ∧ ∃ r, mem.drop pos = wire ls ++ r := by
  induction h with
  | @root pos h1 h2 =>
    refine ⟨rfl, mem.drop (pos + 1), ?_⟩
    have hl := (List.getElem?_eq_some_iff.mp h2).1
    rw [List.drop_eq_getElem_cons hl, (List.getElem?_eq_some_iff.mp h2).2]
    rfl
  | @label pos l ls n h1 h2 h3 h4 _ ih =>
    obtain ⟨e1, r, e2⟩ := ih
    refine ⟨by rw [e1]; simp [nameLen]; try omega, r, ?_⟩
    have hl := (List.getElem?_eq_some_iff.mp h1).1
    rw [List.drop_eq_getElem_cons hl, (List.getElem?_eq_some_iff.mp h1).2]
    have : mem.drop (pos + 1) = l ++ mem.drop (pos + (l.length + 1)) := by
      conv => lhs; rw [← List.take_append_drop l.length (mem.drop (pos + 1)), h4, List.drop_drop]
      congr 2; omega
    rw [this, e2]
    simp [wire]
  | ptr hc => cases hc

theorem takeWhile_app {a b : Bytes} (h : ∀ x ∈ a, (x != 0) = true) : (a ++ b).takeWhile (· != 0) = a ++ b.takeWhile (· != 0) := by
  induction a with
  | nil => rfl
  | cons x a ih =>
    rw [List.cons_append, List.takeWhile_cons, if_pos (h x List.mem_cons_self), ih (fun y hy => h y (List.mem_cons_of_mem _ hy))]
    rfl

theorem takeWhile_stop {a b : Bytes} (h : ∃ x ∈ a, x = 0) : ((a ++ b).takeWhile (· != 0)).length < a.length := by
  induction a with
  | nil => simp at h
  | cons x a ih =>
    rw [List.cons_append, List.takeWhile_cons]
    by_cases c : x = 0
    · subst c; simp
    · rw [if_pos (by simpa using c)]
      obtain ⟨y, hy, hz⟩ := h
      rcases List.mem_cons.mp hy with rfl | hy
      · exact absurd hz c
      · have := ih ⟨y, hy, hz⟩
        simp only [List.length_cons]; omega

/-- The first zero octet of a name is its end unless there is one in a label. -/
theorem null_iff {ls : Name} (hv : ∀ l ∈ ls, 1 ≤ l.length ∧ l.length ≤ 63) :
    nameLen ls = ((wire ls).takeWhile (· != 0)).length + 1 ↔ ∀ l ∈ ls, (0 : UInt8) ∉ l := by
  have le : ∀ ls : Name, ((wire ls).takeWhile (· != 0)).length ≤ nameLen ls := by
    intro ls
    have h1 := List.IsPrefix.length_le (List.takeWhile_prefix (l := wire ls) (p := fun x => x != 0))
    rw [Dname.wire_length] at h1
    exact h1
  induction ls with
  | nil => simp [wire, nameLen]
  | cons l ls ih =>
    have hl := hv l List.mem_cons_self
    have ih := ih (fun x hx => hv x (List.mem_cons_of_mem _ hx))
    have hb : (UInt8.ofNat l.length != 0) = true := by
      simp only [bne_iff_ne, ne_eq]
      intro h
      have := congrArg UInt8.toNat h
      simp only [UInt8.toNat_ofNat'] at this
      simp at this
      omega
    have hn : nameLen (l :: ls) = 1 + l.length + nameLen ls := by simp [nameLen]; try omega
    rw [wire, List.takeWhile_cons, if_pos hb]
    by_cases c : (0 : UInt8) ∈ l
    · have := takeWhile_stop (a := l) (b := wire ls) ⟨0, c, rfl⟩
      have hp := Dname.nameLen_pos ls
      constructor
      · intro h; simp only [List.length_cons] at h; omega
      · intro h; exact absurd c (h l List.mem_cons_self)
    · rw [takeWhile_app (fun x hx => by simp only [bne_iff_ne]; intro h; subst h; exact c hx)]
      simp only [List.length_cons, List.length_append, List.mem_cons, forall_eq_or_imp, hn]
      constructor
      · intro h; exact ⟨c, ih.mp (by omega)⟩
      · rintro ⟨_, h⟩; have := ih.mpr h; omega

/-- The packet after the question. -/
def asked (mem : Bytes) (size : Nat) (q : Option Name) (stop : Nat) : PP :=
  match q with
  | none => { received mem size with parsed := stop }
  | some ls => { received mem size with
      parsed := stop, qnameSize := nameLen ls, lowerQname := wire (lowerName ls),
      nullByte := nameLen ls != ((wire ls).takeWhile (· != 0)).length + 1 }

theorem parseQuestion_iff {mem : Bytes} {size : Nat} {p : PP} (hs : size ≤ mem.length) :
    parseQuestion (received mem size) = .ok p ↔
      12 ≤ size ∧ ∃ q stop, QuestionAt mem size q stop ∧ p = asked mem size q stop := by
  unfold parseQuestion
  have e1 : (received mem size).size = size := rfl
  have e2 : (received mem size).wire = mem := rfl
  rw [e1, e2]
  by_cases c : size < 12
  · rw [if_pos c]
    simp only [reduceCtorEq, false_iff]
    omega
  rw [if_neg c, get16_eq (by omega)]
  simp only [Res.bind_ok]
  have hq : ∀ ls n, NameAt mem size false 12 ls n → Valid ls → question (received mem size) n =
      if 12 + n + 4 ≤ size then .ok (asked mem size (some ls) (12 + n + 4)) else .err .emalf := by
    intro ls n h hv
    obtain ⟨e3, r, e4⟩ := name_plain h
    have hn : n ≤ 255 := by rw [e3]; exact hv.2
    have hm : (n + 4) % 65536 = n + 4 := by omega
    unfold question
    rw [hm, e1, e2]
    by_cases c2 : 12 + n + 4 ≤ size
    · rw [if_neg (by omega), if_pos c2, e4, Dname.copyLower_wire r hv.1]
      simp only [Res.bind_ok]
      have : WireCtx.load mem 12 n = .ok (wire ls) := by
        unfold WireCtx.load
        rw [if_pos (by omega), e4, e3, ← Dname.wire_length]
        simp
      rw [this]
      simp only [Res.bind_ok, asked, e3]
      rfl
    · rw [if_pos (by omega), if_neg c2]
  by_cases c1 : num (slice mem 4 2) > 1
  · rw [if_pos c1]
    simp only [reduceCtorEq, false_iff]
    rintro ⟨_, q, stop, h, _⟩
    cases q with
    | none => have := h.1; omega
    | some ls => have := h.1; omega
  rw [if_neg c1]
  by_cases c2 : num (slice mem 4 2) = 0
  · rw [if_pos c2]
    constructor
    · intro h
      exact ⟨by omega, none, 12, ⟨c2, rfl⟩, (Res.ok.inj h).symm⟩
    · rintro ⟨_, q, stop, h, hp⟩
      cases q with
      | none => obtain ⟨_, rfl⟩ := h; rw [hp]; rfl
      | some ls => have := h.1; omega
  rw [if_neg c2]
  constructor
  · intro h
    cases hw : Dname.wireCheck mem size false 12 with
    | err e => rw [hw] at h; simp at h
    | ub => rw [hw] at h; simp at h
    | ok n =>
      rw [hw] at h
      obtain ⟨ls, h1, h2⟩ := (C01_wire_check_exact mem size 12 false n (by omega) hs).mp hw
      simp only [hq ls n h1 h2] at h
      by_cases c3 : 12 + n + 4 ≤ size
      · rw [if_pos c3] at h
        exact ⟨by omega, some ls, _, ⟨by omega, n, h1, h2, rfl, c3⟩, (Res.ok.inj h).symm⟩
      · rw [if_neg c3] at h; simp at h
  · rintro ⟨_, q, stop, h, hp⟩
    cases q with
    | none => exact absurd h.1 c2
    | some ls =>
      obtain ⟨_, n, h1, h2, rfl, h3⟩ := h
      rw [(C01_wire_check_exact mem size 12 false n (by omega) hs).mpr ⟨ls, h1, h2⟩]
      simp only [hq ls n h1 h2, if_pos h3, hp]

theorem parseQuestion_safe {mem : Bytes} {size : Nat} (hs : size ≤ mem.length) : parseQuestion (received mem size) ≠ .ub := by
  unfold parseQuestion
  have e1 : (received mem size).size = size := rfl
  have e2 : (received mem size).wire = mem := rfl
  rw [e1, e2]
  split
  · simp
  rw [get16_eq (by omega)]
  simp only [Res.bind_ok]
  split
  · simp
  split
  · simp
  cases hw : Dname.wireCheck mem size false 12 with
  | err e => simp
  | ub => exact absurd hw (C01_wire_check_safe _ _ _ _ (by omega) hs)
  | ok n =>
    obtain ⟨ls, h1, hv⟩ := (C01_wire_check_exact mem size 12 false n (by omega) hs).mp hw
    obtain ⟨e3, r, e4⟩ := name_plain h1
    have hn : n ≤ 255 := by rw [e3]; exact hv.2
    have hm : (n + 4) % 65536 = n + 4 := by omega
    simp only [question]
    rw [hm, e1, e2]
    split
    · simp
    · rw [e4, Dname.copyLower_wire r hv.1]
      simp only [Res.bind_ok]
      unfold WireCtx.load
      rw [if_pos (by omega)]
      simp

/-- Records that are in order can be parsed. -/
theorem steps_build {keep canon : Bool} {p : PP} {rs : List Rec} {stop : Nat}
    (h : RecsAt p.wire p.size p.parsed rs stop) (ht : ∀ r ∈ rs, r.type ≠ 250)
    (ho : ∀ pre r post, rs = pre ++ r :: post → r.type = 41 →
      p.current = 2 ∧ p.opt = none ∧ (∀ x ∈ pre, x.type ≠ 41) ∧ OptRdata (encAll r.rdata)) :
    ∃ p', Steps keep canon p rs p' := by
  induction rs generalizing p with
  | nil => exact ⟨p, .nil⟩
  | cons r rs ih =>
    cases h with
    | @cons _ _ mid _ _ h1 h2 =>
      have hr := ht r List.mem_cons_self
      have hal : Allowed p r := ⟨fun h => absurd h hr, fun h => by
        have := ho [] r rs rfl h
        exact ⟨this.1, this.2.1, this.2.2.2⟩⟩
      have hs : (step keep canon p r mid).wire = p.wire ∧ (step keep canon p r mid).size = p.size ∧ (step keep canon p r mid).parsed = mid := by
        unfold step
        rw [if_neg hr]
        split <;> exact ⟨rfl, rfl, rfl⟩
      obtain ⟨p', hp'⟩ := ih (p := step keep canon p r mid) (by rw [hs.1, hs.2.1, hs.2.2]; exact h2)
        (fun x hx => ht x (List.mem_cons_of_mem _ hx)) (by
          intro pre x post e hx
          have := ho (r :: pre) x post (by rw [e]; rfl) hx
          refine ⟨by rw [step_common.2.1]; exact this.1, ?_, fun y hy => this.2.2.1 y (List.mem_cons_of_mem _ hy), this.2.2.2⟩
          have hne := this.2.2.1 r List.mem_cons_self
          unfold step
          rw [if_neg hr, if_neg hne]
          exact this.2.1)
      exact ⟨p', .cons h1 hal hp'⟩

theorem recsAt_lt {mem : Bytes} {size pos stop : Nat} {rs : List Rec} (h : RecsAt mem size pos rs stop) :
    pos + 11 * rs.length ≤ stop ∧ (rs ≠ [] → stop ≤ size) := by
  induction h with
  | nil => simp
  | @cons pos r mid rs stop h1 h2 ih =>
    have := accept_lt h1
    refine ⟨by simp only [List.length_cons]; omega, fun _ => ?_⟩
    by_cases c : rs = []
    · subst c; cases h2; omega
    · exact ih.2 c

end Knot.Pktparse
