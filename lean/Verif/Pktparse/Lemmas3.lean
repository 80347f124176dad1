import Verif.Pktparse.Lemmas2
/-! # Parsing of sections -/
namespace Knot.Pktparse
open Knot
open Knot.Dname (Name NameAt Valid wire nameLen)
open Knot.Rrwire (RR Rec AcceptAt HeadAt encAll slice num)

/-- Records parsed one after the other. -/
inductive Steps (keep canon : Bool) : PP → List Rec → PP → Prop
  | nil {p} : Steps keep canon p [] p
  | cons {p r stop rs p'} : AcceptAt p.wire p.size p.parsed r stop → Allowed p r →
      Steps keep canon (step keep canon p r stop) rs p' → Steps keep canon p (r :: rs) p'

/-- The buffer has room for the message and a header. -/
def Room (p : PP) : Prop := 12 ≤ p.wire.length ∧ p.size ≤ p.wire.length

theorem decAr_length {mem : Bytes} (h : 12 ≤ mem.length) : (decAr mem).length = mem.length := by
  simp only [decAr, List.length_append, List.length_take, List.length_drop, be16, List.length_cons, List.length_nil]
  omega

theorem step_room {keep canon : Bool} {p : PP} {r : Rec} {stop : Nat} (h : Room p) : Room (step keep canon p r stop) := by
  obtain ⟨h1, h2⟩ := h
  unfold step Room
  have := decAr_length h1
  by_cases c : r.type = 250
  · rw [if_pos c]
    cases keep
    · simp only [Bool.false_eq_true, if_false, this]; exact ⟨h1, by omega⟩
    · simp only [if_true, added]; exact ⟨h1, h2⟩
  · rw [if_neg c]
    split
    · exact ⟨h1, h2⟩
    · exact ⟨h1, h2⟩

theorem parseRrs_iff {keep canon : Bool} {n : Nat} {p p' : PP} (h : Room p) :
    parseRrs keep canon n p = .ok p' ↔ ∃ rs, rs.length = n ∧ Steps keep canon p rs p' := by
  induction n generalizing p with
  | zero =>
    simp only [parseRrs, Res.ok.injEq]
    constructor
    · rintro rfl; exact ⟨[], rfl, .nil⟩
    · rintro ⟨rs, h1, h2⟩
      rw [List.length_eq_zero_iff] at h1
      subst h1
      cases h2
      rfl
  | succ n ih =>
    simp only [parseRrs]
    constructor
    · intro hx
      cases hr : parseRr keep canon p with
      | err e => rw [hr] at hx; simp at hx
      | ub => rw [hr] at hx; simp at hx
      | ok p1 =>
        rw [hr] at hx
        simp only [Res.bind_ok] at hx
        obtain ⟨r, stop, h1, h2, rfl⟩ := (parseRr_iff h.1 h.2).mp hr
        obtain ⟨rs, h3, h4⟩ := (ih (step_room h)).mp hx
        exact ⟨r :: rs, by simp [h3], .cons h1 h2 h4⟩
    · rintro ⟨rs, h1, h2⟩
      cases h2 with
      | nil => simp at h1
      | cons ha hb hc =>
        rw [(parseRr_iff h.1 h.2).mpr ⟨_, _, ha, hb, rfl⟩]
        simp only [Res.bind_ok]
        exact (ih (step_room h)).mpr ⟨_, by simpa using h1, hc⟩

theorem parseRrs_safe {keep canon : Bool} {n : Nat} {p : PP} (h : Room p) : parseRrs keep canon n p ≠ .ub := by
  induction n generalizing p with
  | zero => simp [parseRrs]
  | succ n ih =>
    simp only [parseRrs]
    cases hr : parseRr keep canon p with
    | err e => simp
    | ub => exact absurd hr (parseRr_safe h.1 h.2)
    | ok p1 =>
      simp only [Res.bind_ok]
      obtain ⟨r, stop, h1, h2, rfl⟩ := (parseRr_iff h.1 h.2).mp hr
      exact ih (step_room h)

theorem steps_room {keep canon : Bool} {p p' : PP} {rs : List Rec} (hs : Steps keep canon p rs p') (h : Room p) : Room p' := by
  induction hs with
  | nil => exact h
  | cons _ _ _ ih => exact ih (step_room h)

theorem steps_append {keep canon : Bool} {p p' : PP} {a b : List Rec} :
    Steps keep canon p (a ++ b) p' ↔ ∃ p1, Steps keep canon p a p1 ∧ Steps keep canon p1 b p' := by
  constructor
  · intro h
    induction a generalizing p with
    | nil => exact ⟨p, .nil, h⟩
    | cons x a ih =>
      cases h with
      | cons h1 h2 h3 =>
        obtain ⟨p1, h4, h5⟩ := ih h3
        exact ⟨p1, .cons h1 h2 h4, h5⟩
  · rintro ⟨p1, h1, h2⟩
    induction h1 with
    | nil => exact h2
    | cons a b _ ih => exact .cons a b (ih h2)

theorem recsAt_append {mem : Bytes} {size pos stop : Nat} {a b : List Rec} :
    RecsAt mem size pos (a ++ b) stop ↔ ∃ mid, RecsAt mem size pos a mid ∧ RecsAt mem size mid b stop := by
  constructor
  · intro h
    induction a generalizing pos with
    | nil => exact ⟨pos, .nil, h⟩
    | cons x a ih =>
      cases h with
      | cons h1 h2 =>
        obtain ⟨m, h4, h5⟩ := ih h2
        exact ⟨m, .cons h1 h4, h5⟩
  · rintro ⟨m, h1, h2⟩
    induction h1 with
    | nil => exact h2
    | cons a _ ih => exact .cons a (ih h2)

/-- What does not depend on the kind of record. -/
theorem step_common {keep canon : Bool} {p : PP} {r : Rec} {stop : Nat} :
    let p' := step keep canon p r stop
    p'.rrs = p.rrs ++ [deliver canon r] ∧ p'.current = p.current ∧ p'.secPos = p.secPos ∧
    p'.secCount = (fun i => if i = p.current then p.secCount i + 1 else p.secCount i) ∧
    p'.qnameSize = p.qnameSize ∧ p'.lowerQname = p.lowerQname ∧ p'.nullByte = p.nullByte := by
  intro p'
  show (step keep canon p r stop).rrs = _ ∧ _
  simp only [p']
  unfold step
  split
  · cases keep <;> exact ⟨rfl, rfl, rfl, rfl, rfl, rfl, rfl⟩
  · split <;> exact ⟨rfl, rfl, rfl, rfl, rfl, rfl, rfl⟩

theorem steps_common {keep canon : Bool} {p p' : PP} {rs : List Rec} (h : Steps keep canon p rs p') :
    p'.rrs = p.rrs ++ rs.map (deliver canon) ∧ p'.current = p.current ∧ p'.secPos = p.secPos ∧
    p'.secCount = (fun i => if i = p.current then p.secCount i + rs.length else p.secCount i) ∧
    p'.qnameSize = p.qnameSize ∧ p'.lowerQname = p.lowerQname ∧ p'.nullByte = p.nullByte := by
  induction h with
  | nil => refine ⟨by simp, rfl, rfl, ?_, rfl, rfl, rfl⟩; funext i; simp
  | @cons p r stop rs p' _ _ _ ih =>
    obtain ⟨a1, a2, a3, a4, a5, a6, a7⟩ := ih
    obtain ⟨b1, b2, b3, b4, b5, b6, b7⟩ := @step_common keep canon p r stop
    refine ⟨by rw [a1, b1]; simp, a2.trans b2, a3.trans b3, ?_, a5.trans b5, a6.trans b6, a7.trans b7⟩
    rw [a4]
    funext i
    simp only [b2, b4, List.length_cons]
    split <;> omega

/-- As long as no TSIG is stripped, the message stays as it is. -/
theorem steps_plain {keep canon : Bool} {p p' : PP} {rs : List Rec} (h : Steps keep canon p rs p')
    (hp : ∀ r ∈ rs, keep = true ∨ r.type ≠ 250) :
    p'.wire = p.wire ∧ p'.size = p.size ∧ RecsAt p.wire p.size p.parsed rs p'.parsed ∧ p'.tsigWire = p.tsigWire := by
  induction h with
  | nil => exact ⟨rfl, rfl, .nil, rfl⟩
  | @cons p r stop rs p' ha _ _ ih =>
    obtain ⟨a1, a2, a3, a4⟩ := ih (fun x hx => hp x (List.mem_cons_of_mem _ hx))
    have : (step keep canon p r stop).wire = p.wire ∧ (step keep canon p r stop).size = p.size ∧ (step keep canon p r stop).parsed = stop
        ∧ (step keep canon p r stop).tsigWire = p.tsigWire := by
      unfold step
      split
      · rename_i c
        rcases hp r List.mem_cons_self with hk | hk
        · subst hk; exact ⟨rfl, rfl, rfl, rfl⟩
        · exact absurd c hk
      · split <;> exact ⟨rfl, rfl, rfl, rfl⟩
    obtain ⟨b1, b2, b3, b4⟩ := this
    refine ⟨a1.trans b1, a2.trans b2, .cons ha ?_, a4.trans b4⟩
    rw [b1, b2, b3] at a3
    exact a3

theorem steps_rdata {keep canon : Bool} {p p' : PP} {rs : List Rec} (h : Steps keep canon p rs p') :
    ∀ r ∈ rs, (r.type = 250 → p.current = 2 ∧ TsigRdata (encAll r.rdata)) ∧ (r.type = 41 → p.current = 2 ∧ OptRdata (encAll r.rdata)) := by
  induction h with
  | nil => simp
  | @cons p r stop rs p' _ hal _ ih =>
    intro x hx
    rcases List.mem_cons.mp hx with rfl | hx
    · exact ⟨fun t => ⟨(hal.1 t).1, (hal.1 t).2.2⟩, fun t => ⟨(hal.2 t).1, (hal.2 t).2.2⟩⟩
    · have := ih x hx
      rwa [(@step_common keep canon p r stop).2.1] at this

/-- Bookkeeping of OPT and TSIG: the index of the only record of that type. -/
def Found (t : Nat) (rrs : List RR) (o : Option Nat) : Prop :=
  ∀ i, o = some i ↔ ∃ rr, rrs[i]? = some rr ∧ rr.type = t

theorem Found.add {t : Nat} {rrs : List RR} {o : Option Nat} {rr : RR} (h : Found t rrs o) (hn : rr.type ≠ t) :
    Found t (rrs ++ [rr]) o := by
  intro i
  rw [h i]
  constructor
  · rintro ⟨x, h1, h2⟩
    have hlt := (List.getElem?_eq_some_iff.mp h1).1
    exact ⟨x, by rw [List.getElem?_append_left hlt]; exact h1, h2⟩
  · rintro ⟨x, h1, h2⟩
    rw [List.getElem?_append] at h1
    split at h1
    · exact ⟨x, h1, h2⟩
    · have := List.mem_of_getElem? h1
      simp only [List.mem_singleton] at this
      subst this
      exact absurd h2 hn

theorem Found.new {t : Nat} {rrs : List RR} {rr : RR} (h : Found t rrs none) (hn : rr.type = t) :
    Found t (rrs ++ [rr]) (some rrs.length) := by
  intro i
  constructor
  · rintro h'
    cases h'
    exact ⟨rr, by simp, hn⟩
  · rintro ⟨x, h1, h2⟩
    rw [List.getElem?_append] at h1
    split at h1
    · have := (h i).mpr ⟨x, h1, h2⟩
      cases this
    · have hl := (List.getElem?_eq_some_iff.mp h1).1
      simp only [List.length_singleton] at hl
      congr 1; omega

/-- The special records are found, and the options are those of OPT. -/
def Marks (p : PP) : Prop :=
  Found 41 p.rrs p.opt ∧ Found 250 p.rrs p.tsig ∧
  (p.opt = none → p.ednsOpts = none) ∧ ∀ i rr, p.opt = some i → p.rrs[i]? = some rr → p.ednsOpts = optsOf rr.rdata

theorem step_marks {keep canon : Bool} {p : PP} {r : Rec} {stop : Nat} (h : Marks p) (hal : Allowed p r) :
    Marks (step keep canon p r stop) := by
  obtain ⟨h1, h2, h3, h4⟩ := h
  obtain ⟨a1, a2⟩ := hal
  have dt := deliver_type canon r
  have old : ∀ i rr, p.opt = some i → (p.rrs ++ [deliver canon r])[i]? = some rr → p.ednsOpts = optsOf rr.rdata := by
    intro i rr e1 e2
    obtain ⟨x, e3, _⟩ := (h1 i).mp e1
    have hlt := (List.getElem?_eq_some_iff.mp e3).1
    rw [List.getElem?_append_left hlt] at e2
    exact h4 i rr e1 e2
  unfold step
  by_cases c1 : r.type = 250
  · rw [if_pos c1]
    have ht := (a1 c1).2.1
    rw [ht] at h2
    have f1 := h1.add (rr := deliver canon r) (by rw [dt]; omega)
    have f2 := h2.new (rr := deliver canon r) (by rw [dt]; omega)
    cases keep
    · exact ⟨f1, f2, h3, old⟩
    · exact ⟨f1, f2, h3, old⟩
  · rw [if_neg c1]
    by_cases c2 : r.type = 41
    · rw [if_pos c2]
      have ht := (a2 c2).2.1
      rw [ht] at h1
      have f1 := h1.new (rr := deliver canon r) (by rw [dt]; omega)
      have f2 := h2.add (rr := deliver canon r) (by rw [dt]; omega)
      refine ⟨f1, f2, ?_, ?_⟩
      · intro h; cases h
      · intro i rr e1 e2
        cases e1
        have e3 : (p.rrs ++ [deliver canon r])[p.rrs.length]? = some rr := e2
        simp only [List.getElem?_append_right (Nat.le_refl _), Nat.sub_self, List.getElem?_cons_zero, Option.some.injEq] at e3
        subst e3
        show optsOf (encAll r.rdata) = _
        rw [deliver_special _ _ (.inr c2)]
    · rw [if_neg c2]
      exact ⟨h1.add (by rw [dt]; omega), h2.add (by rw [dt]; omega), h3, old⟩

theorem steps_marks {keep canon : Bool} {p p' : PP} {rs : List Rec} (hs : Steps keep canon p rs p') (h : Marks p) : Marks p' := by
  induction hs with
  | nil => exact h
  | cons _ hal _ ih => exact ih (step_marks h hal)

theorem step_parsed {keep canon : Bool} {p : PP} {r : Rec} {stop : Nat} (h : AcceptAt p.wire p.size p.parsed r stop) :
    p.parsed ≤ (step keep canon p r stop).parsed := by
  have := accept_lt h
  have e : (step keep canon p r stop).parsed = p.parsed ∨ (step keep canon p r stop).parsed = stop := by
    unfold step
    split
    · cases keep
      · exact .inl rfl
      · exact .inr rfl
    · split <;> exact .inr rfl
  omega

theorem steps_parsed {keep canon : Bool} {p p' : PP} {rs : List Rec} (hs : Steps keep canon p rs p') : p.parsed ≤ p'.parsed := by
  induction hs with
  | nil => exact Nat.le_refl _
  | cons h _ _ ih => exact Nat.le_trans (step_parsed h) ih

/-! ## After a stripped TSIG -/

theorem decAr_get {mem : Bytes} (h : 12 ≤ mem.length) {i : Nat} (hi : 12 ≤ i) : (decAr mem)[i]? = mem[i]? := by
  have l : (mem.take 10 ++ be16 ((num (slice mem 10 2) + 65535) % 65536)).length = 12 := by
    simp only [List.length_append, List.length_take, be16, List.length_cons, List.length_nil]; omega
  unfold decAr
  rw [List.getElem?_append_right (by omega), l, List.getElem?_drop]
  congr 1; omega

/-- The octets a name takes where it is stored depend on these octets only. -/
theorem name_size {mem mem' : Bytes} {e e' : Nat} {c c' : Bool} {pos n n' : Nat} {ls ls' : Name}
    (hm : ∀ i, pos ≤ i → mem'[i]? = mem[i]?) (h : NameAt mem e c pos ls n) (h' : NameAt mem' e' c' pos ls' n') : n = n' := by
  induction h generalizing ls' n' with
  | @root pos _ h1 =>
    cases h' with
    | root => rfl
    | label g1 g2 g3 =>
      rw [hm _ (Nat.le_refl _), h1] at g1
      have := congrArg UInt8.toNat (Option.some.inj g1)
      simp only [UInt8.toNat_ofNat'] at this
      simp at this
      omega
    | ptr _ _ g1 _ g2 =>
      rw [hm _ (Nat.le_refl _), h1] at g1
      cases g1
      simp at g2
  | @label pos l ls n h1 h2 h3 _ _ ih =>
    cases h' with
    | root _ g1 =>
      rw [hm _ (Nat.le_refl _), h1] at g1
      have := congrArg UInt8.toNat (Option.some.inj g1)
      simp only [UInt8.toNat_ofNat'] at this
      simp at this
      omega
    | @label _ l' ls' n'' g1 g2 g3 _ g5 =>
      rw [hm _ (Nat.le_refl _), h1] at g1
      have := congrArg UInt8.toNat (Option.some.inj g1)
      simp only [UInt8.toNat_ofNat'] at this
      have e : l.length = l'.length := by omega
      rw [← e] at g5
      rw [ih (fun i hi => hm i (by omega)) g5, e]
    | ptr _ _ g1 _ g2 =>
      rw [hm _ (Nat.le_refl _), h1] at g1
      cases g1
      simp only [UInt8.toNat_ofNat'] at g2
      omega
  | @ptr pos ls n b1 b2 _ _ h1 _ h2 =>
    cases h' with
    | root _ g1 =>
      rw [hm _ (Nat.le_refl _), h1] at g1
      cases g1
      simp at h2
    | label g1 g2 g3 =>
      rw [hm _ (Nat.le_refl _), h1] at g1
      cases g1
      simp only [UInt8.toNat_ofNat'] at h2
      omega
    | ptr => rfl

theorem slice_congr {mem mem' : Bytes} {pos k : Nat} (hm : ∀ i, pos ≤ i → mem'[i]? = mem[i]?) : slice mem' pos k = slice mem pos k := by
  unfold slice
  congr 1
  apply List.ext_getElem?
  intro i
  simp only [List.getElem?_drop]
  exact hm _ (by omega)

theorem stuck {canon : Bool} {p : PP} {t r : Rec} {stop stop' : Nat} (hr : Room p) (hp : 12 ≤ p.parsed)
    (h : AcceptAt p.wire p.size p.parsed t stop) (ht : t.type = 250)
    (h' : AcceptAt (step false canon p t stop).wire (step false canon p t stop).size (step false canon p t stop).parsed r stop')
    (hal : Allowed (step false canon p t stop) r) : False := by
  have es : step false canon p t stop = { added canon p t stop with
            parsed := p.parsed, size := p.size - (stop - p.parsed), wire := decAr p.wire,
            tsigWire := some (p.parsed, stop - p.parsed), tsig := some p.rrs.length } := by
    unfold step; rw [if_pos ht]; rfl
  rw [es] at h' hal
  obtain ⟨k, q, ⟨n, h1, _, _, h2, _⟩, _⟩ := h
  obtain ⟨k', q', ⟨n', g1, _, _, g2, _⟩, _⟩ := h'
  have hm : ∀ i, p.parsed ≤ i → (decAr p.wire)[i]? = p.wire[i]? := fun i hi => decAr_get hr.1 (by omega)
  have hn := name_size hm h1 g1
  have : r.type = 250 := by
    rw [g2, ← hn, ← ht, h2]
    congr 1
    exact slice_congr (fun i hi => hm i (by show p.parsed ≤ i; have : p.parsed + n ≤ i := hi; omega))
  have := (hal.1 this).2.1
  cases this

theorem tsig_last {canon : Bool} {p p' : PP} {pre post : List Rec} {t : Rec} (hr : Room p) (hp : 12 ≤ p.parsed)
    (h : Steps false canon p (pre ++ t :: post) p') (ht : t.type = 250) : post = [] := by
  obtain ⟨p1, h1, h2⟩ := steps_append.mp h
  have hr1 := steps_room h1 hr
  have hp1 := steps_parsed h1
  cases h2 with
  | cons a b c =>
    cases c with
    | nil => rfl
    | cons a' b' _ => exact (stuck hr1 (by omega) a ht a' b').elim

end Knot.Pktparse
