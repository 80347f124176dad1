import Verif.Tsig.Lemmas2
/-!
# TSIG: the data covered by the MAC
-/
namespace Knot.Tsig
open Dname (Name wire Valid lowerName nameLen)
open WireCtx (Ctx beBytes beVal load store)

theorem fill (f d : Bytes) (k : Nat) {p : Nat} (hp : p = f.length) :
    store (f ++ List.replicate (d.length + k) 0) p d = .ok (f ++ d ++ List.replicate k 0) := by
  rw [store_fill f d _ hp (by omega)]
  congr 3; omega

theorem lowerName_ok {n : Name} (h : Valid n) : Valid (lowerName n) := by
  obtain ⟨h1, h2⟩ := h
  have e : nameLen (lowerName n) = nameLen n := by
    clear h1 h2
    induction n with
    | nil => rfl
    | cons l n ih =>
      have : lowerName (l :: n) = l.map Dname.lowerByte :: lowerName n := rfl
      rw [this]; simp [nameLen, ih]
  refine ⟨fun l hl => ?_, by omega⟩
  simp only [lowerName, List.mem_map] at hl
  obtain ⟨m, hm, rfl⟩ := hl
  simpa using h1 m hm

theorem lowerName_len (n : Name) : (wire (lowerName n)).length = (wire n).length := by
  rw [Dname.wire_length, Dname.wire_length]
  induction n with
  | nil => rfl
  | cons l n ih =>
    have : lowerName (l :: n) = l.map Dname.lowerByte :: lowerName n := rfl
    rw [this]; simp [nameLen, ih]

theorem variables_length (t : Tsig) : t.variables.length = (wire t.key).length + (wire t.alg).length + t.other.length + 18 := by
  simp only [Tsig.variables, List.length_append, beBytes_length, lowerName_len]
  omega

theorem variablesLength_eq {t : Tsig} (h : t.Ok) : variablesLength t.rr = .ok t.variables.length := by
  unfold variablesLength Tsig.rr
  have hk := Dname.size_wire [] h.key.1
  rw [List.append_nil] at hk
  have v := t.values h
  simp only [hk, v.alg, v.otherLen, Res.bind_ok, variables_length, Dname.wire_length]

theorem writeVariables_eq {t : Tsig} (h : t.Ok) (f : Bytes) {p : Nat} (hp : p = f.length) :
    writeVariables (f ++ List.replicate t.variables.length 0) p t.rr = .ok (f ++ t.variables) := by
  have v := t.values h
  unfold writeVariables
  have hk := Dname.copyAll_wire [] h.key.1
  rw [List.append_nil] at hk
  have hkl := h.key.2
  have hal := h.alg.2
  have h1 : ¬ (wire t.key).length > 255 := by rw [Dname.wire_length]; omega
  have h2 : ¬ (wire t.alg).length > 255 := by rw [Dname.wire_length]; omega
  simp only [Tsig.rr, hk, v.algIs, v.time, v.fudge, v.error, v.otherLen, v.other, v.otherIs, Res.bind_ok, h1, h2, if_false]
  subst hp
  have e : t.variables.length = (wire t.key).length + ((beBytes 2 t.cls).length + ((beBytes 4 t.ttl).length + ((wire t.alg).length +
      ((beBytes 6 t.time).length + ((beBytes 2 t.fudge).length + ((beBytes 2 t.error).length + ((beBytes 2 t.other.length).length +
        (t.other.length + 0)))))))) := by
    rw [variables_length]; simp only [beBytes_length]; omega
  rw [e, fill f _ _ rfl]
  simp only [Res.bind_ok]
  rw [fill _ _ _ (by simp)]
  simp only [Res.bind_ok]
  rw [fill _ _ _ (by simp only [List.length_append, beBytes_length])]
  simp only [Res.bind_ok]
  rw [fill _ _ _ (by simp only [List.length_append, beBytes_length])]
  simp only [Res.bind_ok]
  rw [List.append_assoc _ (wire t.alg) _]
  have hd : ((f ++ wire t.key ++ beBytes 2 t.cls ++ beBytes 4 t.ttl) ++ (wire t.alg ++ List.replicate ((beBytes 6 t.time).length +
      ((beBytes 2 t.fudge).length + ((beBytes 2 t.error).length + ((beBytes 2 t.other.length).length + (t.other.length + 0))))) 0)).drop
        (f.length + (wire t.key).length + 6) = wire t.alg ++ List.replicate ((beBytes 6 t.time).length +
      ((beBytes 2 t.fudge).length + ((beBytes 2 t.error).length + ((beBytes 2 t.other.length).length + (t.other.length + 0))))) 0 := by
    apply List.drop_left'
    simp only [List.length_append, beBytes_length]
  rw [hd, Dname.copyLower_wire _ h.alg.1]
  simp only [Res.bind_ok]
  rw [← List.append_assoc _ (wire t.alg) _, store_mid _ _ _ _ (by simp only [List.length_append, beBytes_length]) (lowerName_len _)]
  simp only [Res.bind_ok]
  rw [fill _ _ _ (by simp only [List.length_append, beBytes_length, lowerName_len])]
  simp only [Res.bind_ok]
  rw [fill _ _ _ (by simp only [List.length_append, beBytes_length, lowerName_len])]
  simp only [Res.bind_ok]
  rw [fill _ _ _ (by simp only [List.length_append, beBytes_length, lowerName_len])]
  simp only [Res.bind_ok]
  rw [fill _ _ _ (by simp only [List.length_append, beBytes_length, lowerName_len])]
  simp only [Res.bind_ok]
  rw [fill _ _ _ (by simp only [List.length_append, beBytes_length, lowerName_len])]
  simp [Tsig.variables, List.append_assoc]

theorem signWire_eq {t : Tsig} (h : t.Ok) (msg mac : Bytes) :
    signWire msg mac t.rr = .ok ((if mac = [] then [] else beBytes 2 mac.length ++ mac) ++ msg ++ t.variables) := by
  unfold signWire
  simp only [variablesLength_eq h, Res.bind_ok]
  by_cases hm : mac = []
  · subst hm
    have := fill [] msg t.variables.length (p := 0) rfl
    simp only [List.nil_append] at this
    simp [this, writeVariables_eq h]
  · have hpos : mac.length > 0 := List.length_pos_iff.mpr hm
    simp only [hpos, if_true, hm, if_false]
    have e : msg.length + mac.length + 2 + t.variables.length = (beBytes 2 mac.length).length + (mac.length + (msg.length + t.variables.length)) := by
      simp only [beBytes_length]; omega
    have := fill [] (beBytes 2 mac.length) (mac.length + (msg.length + t.variables.length)) (p := 0) rfl
    simp only [List.nil_append] at this
    rw [e, this]
    simp only [Res.bind_ok]
    rw [fill _ _ _ (by simp [beBytes_length])]
    simp only [Res.bind_ok]
    rw [fill _ _ _ (by simp [beBytes_length])]
    simp only [Res.bind_ok]
    rw [writeVariables_eq h _ (by simp only [List.length_append, beBytes_length])]

theorem writeTimers_eq {rr : Rr} {time fudge : Nat} (ht : get rr.rdata .time 6 = .ok time) (hf : get rr.rdata .fudge 2 = .ok fudge)
    (f : Bytes) {p : Nat} (hp : p = f.length) :
    writeTimers (f ++ List.replicate 8 0) p rr = .ok (f ++ (beBytes 6 time ++ beBytes 2 fudge)) := by
  unfold writeTimers
  simp only [ht, hf, Res.bind_ok]
  have := fill f (beBytes 6 time) 2 hp
  simp only [beBytes_length] at this
  rw [this]
  simp only [Res.bind_ok]
  have := fill (f ++ beBytes 6 time) (beBytes 2 fudge) 0 (p := p + 6) (by simp [beBytes_length, hp])
  simp only [beBytes_length] at this
  rw [this]
  simp [List.append_assoc]

theorem signWireNext_gen {rr : Rr} {time fudge : Nat} (ht : get rr.rdata .time 6 = .ok time) (hf : get rr.rdata .fudge 2 = .ok fudge)
    (msg mac : Bytes) :
    signWireNext msg mac rr = .ok (beBytes 2 mac.length ++ mac ++ msg ++ (beBytes 6 time ++ beBytes 2 fudge)) := by
  unfold signWireNext
  have e : msg.length + mac.length + 8 + 2 = (beBytes 2 mac.length).length + (mac.length + (msg.length + 8)) := by
    simp only [beBytes_length]; omega
  have := fill [] (beBytes 2 mac.length) (mac.length + (msg.length + 8)) (p := 0) rfl
  simp only [List.nil_append] at this
  simp only [e]
  rw [this]
  simp only [Res.bind_ok]
  rw [fill _ _ _ (by simp [beBytes_length])]
  simp only [Res.bind_ok]
  rw [fill _ _ _ (by simp only [List.length_append, beBytes_length]; omega)]
  simp only [Res.bind_ok]
  rw [writeTimers_eq ht hf _ (by simp only [List.length_append, beBytes_length]; omega)]

/-! ## Algorithms -/

theorem dname_wire (a : Alg) : a.dname = wire (algName a) := by cases a <;> rfl

theorem algName_ok (a : Alg) : Valid (algName a) := by
  cases a <;> (constructor <;> decide)

theorem algName_low (a : Alg) : lowerName (algName a) = algName a := by cases a <;> decide

theorem algName_inj {a b : Alg} (h : algName a = algName b) : a = b := by
  cases a <;> cases b <;> first | rfl | (exact absurd h (by decide))

theorem size_inj {a b : Alg} (h : a.size = b.size) : a = b := by
  cases a <;> cases b <;> first | rfl | (exact absurd h (by decide))

theorem dnameEqual_wire : ∀ (a b : Name) (r s : Bytes), (∀ l ∈ a, 1 ≤ l.length ∧ l.length ≤ 63) → (∀ l ∈ b, 1 ≤ l.length ∧ l.length ≤ 63) →
    dnameEqual (wire a ++ r) (wire b ++ s) = .ok (decide (lowerName a = lowerName b)) := by
  intro a
  induction a with
  | nil =>
    intro b r s _ hb
    cases b with
    | nil => unfold dnameEqual; simp [wire, lowerName]
    | cons l b =>
      have := hb l (List.mem_cons_self ..)
      unfold dnameEqual
      simp only [wire, List.cons_append, List.nil_append]
      rw [if_pos (by simp; omega)]
      simp [lowerName]
  | cons k a ih =>
    intro b r s ha hb
    have hk := ha k (List.mem_cons_self ..)
    cases b with
    | nil =>
      unfold dnameEqual
      simp only [wire, List.cons_append, List.nil_append]
      rw [if_pos (by simp; omega)]
      simp [lowerName]
    | cons l b =>
      have hl := hb l (List.mem_cons_self ..)
      unfold dnameEqual
      simp only [wire, List.cons_append, List.append_assoc]
      have e1 : (UInt8.ofNat k.length).toNat = k.length := by simp; omega
      have e2 : (UInt8.ofNat l.length).toNat = l.length := by simp; omega
      simp only [e1, e2]
      by_cases hkl : k.length = l.length
      · simp only [hkl, ne_eq, not_true_eq_false, if_false]
        rw [if_neg (by omega), if_neg (by omega), if_neg (by simp only [List.length_append]; omega)]
        have t1 : (k ++ (wire a ++ r)).take l.length = k := by rw [← hkl]; simp
        have t2 : (l ++ (wire b ++ s)).take l.length = l := by simp
        have d1 : (k ++ (wire a ++ r)).drop l.length = wire a ++ r := by rw [← hkl]; simp
        have d2 : (l ++ (wire b ++ s)).drop l.length = wire b ++ s := by simp
        rw [t1, t2, d1, d2, ih b r s (fun m hm => ha m (List.mem_cons_of_mem _ hm)) (fun m hm => hb m (List.mem_cons_of_mem _ hm))]
        have tl : Dname.toLower = Dname.lowerByte := funext Dname.toLower_eq
        rw [tl]
        have c1 : lowerName (k :: a) = k.map Dname.lowerByte :: lowerName a := rfl
        have c2 : lowerName (l :: b) = l.map Dname.lowerByte :: lowerName b := rfl
        by_cases hx : k.map Dname.lowerByte = l.map Dname.lowerByte
        · simp [hx, c1, c2]
        · simp [hx, c1, c2]
      · rw [if_pos hkl]
        have : lowerName (k :: a) ≠ lowerName (l :: b) := by
          intro h
          have c1 : lowerName (k :: a) = k.map Dname.lowerByte :: lowerName a := rfl
          have c2 : lowerName (l :: b) = l.map Dname.lowerByte :: lowerName b := rfl
          rw [c1, c2] at h
          have := congrArg List.length (List.cons.inj h).1
          simp at this
          exact hkl this
        simp [this]

theorem dnameEqual_alg {n : Name} (h : Valid n) (r : Bytes) (a : Alg) :
    dnameEqual (wire n ++ r) a.dname = .ok (decide (lowerName n = algName a)) := by
  have := dnameEqual_wire n (algName a) r [] h.1 (algName_ok a).1
  rw [List.append_nil, ← dname_wire, algName_low] at this
  exact this

theorem lookup_spec {n : Name} (h : Valid n) (r : Bytes) (l : List Alg) :
    (∃ a ∈ l, lowerName n = algName a ∧ lookup (wire n ++ r) l = .ok (some a)) ∨
      ((∀ a ∈ l, lowerName n ≠ algName a) ∧ lookup (wire n ++ r) l = .ok none) := by
  induction l with
  | nil => exact .inr ⟨by simp, rfl⟩
  | cons b l ih =>
    unfold lookup
    simp only [dnameEqual_alg h, Res.bind_ok]
    by_cases hb : lowerName n = algName b
    · left
      exact ⟨b, by simp, hb, by simp [hb]⟩
    · simp only [hb, decide_false, Bool.false_eq_true, if_false]
      rcases ih with ⟨a, h1, h2, h3⟩ | ⟨h1, h2⟩
      · exact .inl ⟨a, by simp [h1], h2, h3⟩
      · refine .inr ⟨?_, h2⟩
        intro a ha
        rcases List.mem_cons.mp ha with rfl | ha
        · exact hb
        · exact h1 a ha

theorem algFrom_spec {n : Name} (h : Valid n) (r : Bytes) :
    (∃ a, lowerName n = algName a ∧ algFrom (wire n ++ r) = .ok (some a)) ∨
      ((∀ a, lowerName n ≠ algName a) ∧ algFrom (wire n ++ r) = .ok none) := by
  rcases lookup_spec h r table with ⟨a, _, h2, h3⟩ | ⟨h1, h2⟩
  · exact .inl ⟨a, h2, h3⟩
  · exact .inr ⟨fun a => h1 a (by cases a <;> decide), h2⟩

end Knot.Tsig
