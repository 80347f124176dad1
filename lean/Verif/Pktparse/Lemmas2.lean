import Verif.Pktparse.Lemmas
/-! # Parsing of one record of a message -/
namespace Knot.Pktparse
open Knot
open Knot.Dname (Name NameAt Valid wire nameLen)
open Knot.Rrwire (RR Rec AcceptAt RdAt encAll slice num parseDesc)

/-- The record delivered for one in the message: as it is, or in the canonical form. -/
def deliver (canon : Bool) (r : Rec) : RR :=
  let c := if canon then r.canon else r
  ⟨wire c.owner, c.type, c.rclass, c.ttl, encAll c.rdata⟩

theorem deliver_type (canon : Bool) (r : Rec) : (deliver canon r).type = r.type := by
  cases canon <;> rfl

theorem deliver_special (canon : Bool) (r : Rec) (h : r.type = 250 ∨ r.type = 41) : (deliver canon r).rdata = encAll r.rdata := by
  cases canon
  · rfl
  · simp only [deliver, if_true, Rec.canon]
    rw [if_neg (by rcases h with h | h <;> simp [h, Rrwire.rfc4034Types])]

theorem fromWire_iff {canon : Bool} {mem : Bytes} {pos size stop : Nat} {o : Option RR}
    (he : size ≤ mem.length) (hp : pos ≤ size) :
    Rrwire.fromWire mem pos size canon = .ok (o, stop) ↔ ∃ r, AcceptAt mem size pos r stop ∧ o = some (deliver canon r) := by
  cases canon
  · exact C38_parse_exact mem pos size stop o he hp
  · exact C38_parse_canonical mem pos size stop o he hp

theorem name_pos {mem : Bytes} {e : Nat} {c : Bool} {pos : Nat} {ls : Name} {n : Nat} (h : NameAt mem e c pos ls n) : 1 ≤ n := by
  cases h <;> omega

theorem accept_lt {mem : Bytes} {size pos stop : Nat} {r : Rec} (h : AcceptAt mem size pos r stop) :
    pos + 11 ≤ stop ∧ stop ≤ size := by
  obtain ⟨k, p, ⟨n, h1, _, h2, _, _, _, _, h3⟩, h4, _⟩ := h
  have := name_pos h1
  omega

theorem accept_tsig {mem : Bytes} {size pos stop : Nat} {r : Rec} (h : AcceptAt mem size pos r stop) (ht : r.type = 250) :
    ∃ b, tsigOk (encAll r.rdata) = .ok b ∧ (b = true ↔ TsigRdata (encAll r.rdata)) := by
  obtain ⟨k, p, _, _, h⟩ := h
  rcases h with ⟨_, hr, _⟩ | ⟨_, ⟨q, hr⟩, _⟩
  · rw [hr]
    refine ⟨false, rfl, ?_⟩
    simp only [Bool.false_eq_true, false_iff]
    rintro ⟨alg, time, mac, err, other, _, h1, _, _, _, h⟩
    have := congrArg List.length h
    simp only [encAll, List.flatMap_nil, List.length_nil, List.length_append] at this
    omega
  · have hd : (parseDesc 250).blocks = [.fixedName, .remainder] := by decide
    rw [ht, hd] at hr
    obtain ⟨ls, fs, e, hv⟩ : ∃ (ls : Name) (fs : List Rrwire.Field), r.rdata = .name ls :: fs ∧ Valid ls := by
      generalize [Rrwire.Block.remainder] = bs' at hr
      generalize hbs : Rrwire.Block.fixedName :: bs' = bs at hr
      generalize r.rdata = fs at hr
      cases hr with
      | name _ _ hv _ => exact ⟨_, _, rfl, hv⟩
      | _ => simp at hbs
    rw [e]
    have : encAll (.name ls :: fs) = wire ls ++ encAll fs := rfl
    rw [this]
    exact tsigOk_spec ls _ hv

/-- What is asked of special records, in terms of the packet so far. -/
def Allowed (p : PP) (r : Rec) : Prop :=
  (r.type = 250 → p.current = 2 ∧ p.tsig = none ∧ TsigRdata (encAll r.rdata)) ∧
  (r.type = 41 → p.current = 2 ∧ p.opt = none ∧ OptRdata (encAll r.rdata))

/-- The message with its ARCOUNT decreased. -/
def decAr (mem : Bytes) : Bytes := mem.take 10 ++ be16 ((num (slice mem 10 2) + 65535) % 65536) ++ mem.drop 12

/-- The options of OPT RDATA. -/
def optsOf (d : Bytes) : Option (Nat → Option Nat) :=
  match Edns.getOptions d with
  | .ok o => o
  | _ => none

/-- The packet with a record added. -/
def added (canon : Bool) (p : PP) (r : Rec) (stop : Nat) : PP :=
  { p with parsed := stop, rrs := p.rrs ++ [deliver canon r],
           secCount := fun i => if i = p.current then p.secCount i + 1 else p.secCount i }

/-- The packet after a record. -/
def step (keep canon : Bool) (p : PP) (r : Rec) (stop : Nat) : PP :=
  if r.type = 250 then
    if keep then { added canon p r stop with tsig := some p.rrs.length }
    else { added canon p r stop with
            parsed := p.parsed, size := p.size - (stop - p.parsed), wire := decAr p.wire,
            tsigWire := some (p.parsed, stop - p.parsed), tsig := some p.rrs.length }
  else if r.type = 41 then { added canon p r stop with opt := some p.rrs.length, ednsOpts := optsOf (encAll r.rdata) }
  else added canon p r stop

theorem set16_dec {mem : Bytes} (h : 12 ≤ mem.length) :
    Pkt.set16 mem 10 ((num (slice mem 10 2) + 65535) % 65536) = .ok (decAr mem) := by
  unfold Pkt.set16 WireCtx.store
  rw [← be16_eq]
  have hl : ∀ v, (be16 v).length = 2 := fun _ => rfl
  rw [hl, if_pos (by omega)]
  rfl

theorem get16_eq {mem : Bytes} {pos : Nat} (h : pos + 2 ≤ mem.length) : Pkt.get16 mem pos = .ok (num (slice mem pos 2)) :=
  Rrwire.readBE_eq h

theorem check_spec {keep canon : Bool} {p : PP} {r : Rec} {stop : Nat} (hw : 12 ≤ p.wire.length)
    (h : AcceptAt p.wire p.size p.parsed r stop) :
    (Allowed p r ∧ checkConstraints keep (added canon p r stop) (deliver canon r) (stop - p.parsed) = .ok (step keep canon p r stop)) ∨
    (¬ Allowed p r ∧ ∃ e, checkConstraints keep (added canon p r stop) (deliver canon r) (stop - p.parsed) = .err e) := by
  have hlt := accept_lt h
  unfold checkConstraints
  rw [deliver_type]
  have hlast : (added canon p r stop).rrs.length - 1 = p.rrs.length := by simp [added]
  by_cases c1 : r.type = 250
  · rw [if_pos c1]
    unfold checkTsig
    have hc : (added canon p r stop).current = p.current := rfl
    have ht : (added canon p r stop).tsig = p.tsig := rfl
    have hwr : (added canon p r stop).wire = p.wire := rfl
    rw [hc, ht]
    by_cases c2 : p.current = 2
    case neg => rw [if_pos c2]; exact .inr ⟨fun a => c2 (a.1 c1).1, _, rfl⟩
    rw [if_neg (by simpa using c2)]
    by_cases c3 : p.tsig = none
    case neg => rw [if_pos c3]; exact .inr ⟨fun a => c3 (a.1 c1).2.1, _, rfl⟩
    rw [if_neg (by simpa using c3), deliver_special _ _ (.inl c1)]
    obtain ⟨b, hb, hiff⟩ := accept_tsig h c1
    rw [hb]
    simp only [Res.bind_ok]
    cases b
    · rw [if_pos rfl]
      exact .inr ⟨fun a => by simpa using hiff.mpr (a.1 c1).2.2, _, rfl⟩
    · rw [if_neg (by simp)]
      left
      refine ⟨⟨fun _ => ⟨c2, c3, hiff.mp rfl⟩, by omega⟩, ?_⟩
      unfold step
      rw [if_pos c1]
      cases keep
      · simp only [Bool.false_eq_true, if_false]
        rw [hwr, get16_eq (by omega)]
        simp only [Res.bind_ok]
        rw [set16_dec hw]
        have : (added canon p r stop).parsed - (stop - p.parsed) = p.parsed := by
          show stop - (stop - p.parsed) = p.parsed; omega
        simp only [Res.bind_ok, this, hlast]
        rfl
      · simp only [if_true, hlast]
        rfl
  · rw [if_neg c1]
    by_cases c2 : r.type = 41
    · rw [if_pos c2]
      unfold checkOpt
      have hc : (added canon p r stop).current = p.current := rfl
      have ht : (added canon p r stop).opt = p.opt := rfl
      rw [hc, ht]
      by_cases c3 : p.current = 2
      case neg => rw [if_pos c3]; exact .inr ⟨fun a => c3 (a.2 c2).1, _, rfl⟩
      rw [if_neg (by simpa using c3)]
      by_cases c4 : p.opt = none
      case neg => rw [if_pos c4]; exact .inr ⟨fun a => c4 (a.2 c2).2.1, _, rfl⟩
      rw [if_neg (by simpa using c4), deliver_special _ _ (.inr c2)]
      rcases getOptions_spec (encAll r.rdata) with ⟨o, g, ho⟩ | ⟨e, g, ho⟩
      · left
        refine ⟨⟨by omega, fun _ => ⟨c3, c4, ho⟩⟩, ?_⟩
        unfold step optsOf
        rw [if_neg c1, if_pos c2, g]
        simp only [hlast]
        rfl
      · rw [g]
        exact .inr ⟨fun a => ho (a.2 c2).2.2, _, rfl⟩
    · rw [if_neg c2]
      left
      refine ⟨⟨by omega, by omega⟩, ?_⟩
      unfold step
      rw [if_neg c1, if_neg c2]

theorem parseRr_iff {keep canon : Bool} {p p' : PP} (hw : 12 ≤ p.wire.length) (hs : p.size ≤ p.wire.length) :
    parseRr keep canon p = .ok p' ↔
      ∃ r stop, AcceptAt p.wire p.size p.parsed r stop ∧ Allowed p r ∧ p' = step keep canon p r stop := by
  unfold parseRr
  by_cases c : p.parsed ≥ p.size
  · rw [if_pos c]
    simp only [reduceCtorEq, false_iff]
    rintro ⟨r, stop, h, _⟩
    have := accept_lt h
    omega
  rw [if_neg c]
  have hp : p.parsed ≤ p.size := by omega
  constructor
  · intro h
    cases hf : Rrwire.fromWire p.wire p.parsed p.size canon with
    | err e => rw [hf] at h; simp at h
    | ub => rw [hf] at h; simp at h
    | ok os =>
      obtain ⟨o, stop⟩ := os
      obtain ⟨r, ha, rfl⟩ := (fromWire_iff hs hp).mp hf
      rw [hf] at h
      simp only [Res.bind_ok, Option.getD_some] at h
      rcases check_spec (keep := keep) (canon := canon) hw ha with ⟨a, e⟩ | ⟨_, _, e⟩
      · refine ⟨r, stop, ha, a, ?_⟩
        have := e.symm.trans h
        simpa using this.symm
      · have := e.symm.trans h
        simp at this
  · rintro ⟨r, stop, ha, hal, rfl⟩
    have hf := (fromWire_iff (canon := canon) hs hp).mpr ⟨r, ha, rfl⟩
    rw [hf]
    simp only [Res.bind_ok, Option.getD_some]
    rcases check_spec (keep := keep) (canon := canon) hw ha with ⟨a, e⟩ | ⟨a, _⟩
    · exact e
    · exact absurd hal a

theorem parseRr_safe {keep canon : Bool} {p : PP} (hw : 12 ≤ p.wire.length) (hs : p.size ≤ p.wire.length) :
    parseRr keep canon p ≠ .ub := by
  unfold parseRr
  split
  · simp
  · rename_i c
    have hp : p.parsed ≤ p.size := by omega
    cases hf : Rrwire.fromWire p.wire p.parsed p.size canon with
    | err e => simp
    | ub => exact absurd hf (C38_parse_safe _ _ _ _ hs)
    | ok os =>
      obtain ⟨o, stop⟩ := os
      obtain ⟨r, ha, rfl⟩ := (fromWire_iff hs hp).mp hf
      simp only [Res.bind_ok, Option.getD_some]
      rcases check_spec (keep := keep) (canon := canon) hw ha with ⟨a, e⟩ | ⟨_, _, e⟩
      · intro h
        have := e.symm.trans h
        simp at this
      · intro h
        have := e.symm.trans h
        simp at this

end Knot.Pktparse
