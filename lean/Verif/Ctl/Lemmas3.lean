import Verif.Ctl.Lemmas2
/-!
# Control protocol: the round trip, and safety for every peer
-/
namespace Knot.Ctl
open WireCtx (Ctx load store beBytes beVal)

theorem beBytes_one {n : Nat} (h : n < 256) : ∃ c : UInt8, beBytes 1 n = [c] ∧ c.toNat = n := by
  have hl := len_beBytes 1 n
  match hb : beBytes 1 n, hl with
  | [c], _ =>
    refine ⟨c, rfl, ?_⟩
    have := Knot.WireCtx.beVal_beBytes 1 n
    rw [hb] at this
    simp only [beVal, List.length_nil, Nat.pow_zero, Nat.mul_one, Nat.add_zero, Nat.pow_one] at this
    omega

theorem set_mid {pre : List (Option Bytes)} {n : Nat} {d : Option Bytes} :
    (pre ++ List.replicate (n + 1) none).set pre.length d = (pre ++ [d]) ++ List.replicate n none := by
  rw [List.set_append_right _ _ (Nat.le_refl _)]
  simp [List.replicate_succ]

/-- The rest of the octets starts with a type. -/
def Begins (rest : Bytes) : Prop := ∃ c r k, rest = c :: r ∧ kindOf c.toNat = some k

theorem parse_items {t : Kind} {rest : Bytes} (hr : Begins rest) : ∀ (l : List (Option Bytes)) (pre : List (Option Bytes)) (fuel : Nat),
    pre.length + l.length = 12 → (∀ d, some d ∈ l → d.length ≤ 65535) →
    (itemOctets pre.length l ++ rest).length < fuel →
    parse fuel (some t) (pre ++ List.replicate l.length none) (itemOctets pre.length l ++ rest) = .unit t (pre ++ l) rest := by
  intro l
  induction l with
  | nil =>
    intro pre fuel _ _ hf
    obtain ⟨c, r, k, rfl, hk⟩ := hr
    cases fuel with
    | zero => omega
    | succ fuel => simp [parse, itemOctets, hk]
  | cons x l ih =>
    intro pre fuel hp hd hf
    simp only [List.length_cons] at hp
    have ih' := fun f => ih (pre ++ [x]) f (by simp only [List.length_append, List.length_cons, List.length_nil]; omega)
      (fun d hx => hd d (List.mem_cons_of_mem _ hx))
    simp only [List.length_append, List.length_cons, List.length_nil, Nat.zero_add] at ih'
    cases x with
    | none =>
      simp only [itemOctets] at hf ⊢
      have := ih' fuel (by simpa using hf)
      rw [List.append_assoc] at this
      simpa [List.replicate_succ] using this
    | some d =>
      have hdl := hd d (List.mem_cons_self ..)
      simp only [itemOctets] at hf ⊢
      obtain ⟨c, hc, hcn⟩ := beBytes_one (n := 16 + pre.length) (by omega)
      rw [hc] at hf ⊢
      cases fuel with
      | zero => omega
      | succ fuel =>
        simp only [List.cons_append, List.nil_append, List.append_assoc, parse]
        have hk : kindOf c.toNat = none := by rw [hcn, ← toKind_eq]; unfold toKind; simp only [if_neg (show ¬(16 + pre.length = 0) by omega),
          if_neg (show ¬(16 + pre.length = 1) by omega), if_neg (show ¬(16 + pre.length = 2) by omega), if_neg (show ¬(16 + pre.length = 3) by omega)]
        have hi : itemOf c.toNat = some pre.length := by
          rw [hcn, ← toIdx_eq]; unfold toIdx; rw [if_neg (by omega)]; congr 1; omega
        rw [hk, hi]
        simp only
        have hb2 : (beBytes 2 d.length).length = 2 := len_beBytes 2 _
        have ht : (beBytes 2 d.length ++ (d ++ (itemOctets (pre.length + 1) l ++ rest))).take 2 = beBytes 2 d.length := by
          rw [List.take_append_of_le_length (by omega), List.take_of_length_le (by omega)]
        have hdr : (beBytes 2 d.length ++ (d ++ (itemOctets (pre.length + 1) l ++ rest))).drop 2 =
            d ++ (itemOctets (pre.length + 1) l ++ rest) := by
          rw [List.drop_append_of_le_length (by omega), List.drop_of_length_le (by omega), List.nil_append]
        have hv : beVal (beBytes 2 d.length) = d.length := by
          rw [Knot.WireCtx.beVal_beBytes, Nat.mod_eq_of_lt (by omega)]
        rw [ht, hdr, hv, if_neg (by simp only [List.length_append, hb2]; omega), if_neg (by simp only [List.length_append]; omega)]
        rw [List.take_left' rfl, List.drop_left' rfl, List.length_cons, set_mid]
        have := ih' fuel (by simp only [List.length_append, List.length_cons, List.length_nil] at hf ⊢; omega)
        rw [this]
        simp

theorem toKind_code (k : Kind) : kindOf k.code = some k := by cases k <;> rfl
theorem code_lt (k : Kind) : k.code < 256 := by cases k <;> decide

theorem octets_begins (u : Unit') (r : Bytes) : Begins (u.octets ++ r) := by
  unfold Unit'.octets
  obtain ⟨c, hc, hcn⟩ := beBytes_one (code_lt u.kind)
  rw [hc]
  exact ⟨c, _, u.kind, rfl, by rw [hcn, toKind_code]⟩

theorem itemOctets_none : ∀ (l : List (Option Bytes)) (i : Nat), (∀ x ∈ l, x = none) → itemOctets i l = [] := by
  intro l
  induction l with
  | nil => intro _ _; rfl
  | cons x l ih =>
    intro i h
    rw [h x (List.mem_cons_self ..)]
    exact ih _ fun y hy => h y (List.mem_cons_of_mem _ hy)

theorem parse_octets {u : Unit'} (hu : u.Ok) {rest : Bytes} (hr : u.kind.isData = false ∨ Begins rest) {fuel : Nat}
    (hf : (u.octets ++ rest).length < fuel) :
    parse fuel none (List.replicate 12 none) (u.octets ++ rest) = .unit u.kind u.items rest := by
  unfold Unit'.octets at hf ⊢
  obtain ⟨c, hc, hcn⟩ := beBytes_one (code_lt u.kind)
  rw [hc] at hf ⊢
  cases fuel with
  | zero => omega
  | succ fuel =>
    simp only [List.cons_append, List.nil_append, parse, hcn, toKind_code]
    by_cases hd : u.kind.isData = true
    · rw [if_pos hd]
      rcases hr with hr | hr
      · rw [hr] at hd; exact absurd hd (by decide)
      · have := parse_items (t := u.kind) hr u.items [] fuel (by simpa using hu.1) hu.2.1
          (by simp only [List.cons_append, List.length_cons, List.nil_append, List.length_append, List.length_nil] at hf ⊢; omega)
        simpa [hu.1] using this
    · rw [if_neg hd]
      have hn := hu.2.2 (by simpa using hd)
      rw [itemOctets_none _ _ hn, List.nil_append]
      congr 1
      exact (List.eq_replicate_iff.2 ⟨hu.1, hn⟩).symm

/-- Data units are followed by another unit. -/
def Closed : List Unit' → Prop
  | [] => True
  | [u] => u.kind.isData = false
  | _ :: u :: us => Closed (u :: us)

theorem receive_spec {N : Nat} (hN : 65535 ≤ N) {s : St} (h : Sane N s) :
    Gives N s (parse ((pending s).length + 1) none (List.replicate 12 none) (pending s))
      (receiveLoop N ((pending s).length + 1) { s with data := List.replicate 12 none } none) := by
  have h' : Sane N { s with data := List.replicate 12 none } :=
    ⟨h.outMem, h.outSize, h.outPos, h.outErr, h.outRw, h.inMem, h.inSize, h.inPos, h.inErr, h.chunks⟩
  have := receiveLoop_spec hN ((pending s).length + 1) _ none h' (by simp) (Nat.lt_succ_self _)
  exact this.mono ⟨rfl, rfl⟩

theorem receiveAll_spec {N : Nat} (hN : 65535 ≤ N) : ∀ (us : List Unit') (s : St) (tail : Bytes), Sane N s → (∀ u ∈ us, u.Ok) → Closed us →
    pending s = (us.map Unit'.octets).flatten ++ tail →
    ∃ s', receiveAll N s us.length = .ok (none, us, s') ∧ Sane N s' ∧ pending s' = tail ∧ SameOut s s' := by
  intro us
  induction us with
  | nil => intro s tail h _ _ hp; exact ⟨s, rfl, h, by simpa using hp, rfl, rfl⟩
  | cons u us ih =>
    intro s tail h hu hc hp
    simp only [List.map_cons, List.flatten_cons, List.append_assoc] at hp
    have hend : u.kind.isData = false ∨ Begins ((us.map Unit'.octets).flatten ++ tail) := by
      cases us with
      | nil => exact .inl hc
      | cons v us => exact .inr (by simp only [List.map_cons, List.flatten_cons, List.append_assoc]; exact octets_begins _ _)
    have hg := receive_spec hN h
    rw [hp, parse_octets (hu u (List.mem_cons_self ..)) hend (Nat.lt_succ_self _), ← hp] at hg
    obtain ⟨s1, g1, g2, g3, g4, g5⟩ := hg
    have hc' : Closed us := by cases us with
      | nil => trivial
      | cons v us => exact hc
    obtain ⟨s2, k1, k2, k3, k4⟩ := ih s1 tail g4 (fun v hv => hu v (List.mem_cons_of_mem _ hv)) hc' g3
    refine ⟨s2, ?_, k2, k3, k4.1.trans g5.1, k4.2.trans g5.2⟩
    simp only [List.length_cons, receiveAll, receive]
    rw [g1]
    simp only [Res.bind_ok]
    rw [k1]
    simp only [Res.bind_ok, g2]

/-! ## Safety for every peer -/

/-- The buffers only, with any network. -/
structure Buf (N : Nat) (s : St) : Prop where
  inMem : s.inp.mem.length = N
  inSize : s.inp.size ≤ N
  inPos : s.inp.pos ≤ s.inp.size
  inErr : s.inp.error = none

theorem recvLoop_safe {N len : Nat} : ∀ (net : List Bytes) (mem : Bytes) (avail : Nat), mem.length = N → avail ≤ N →
    ∃ e mem' n net', recvLoop N len mem avail net = .ok (e, mem', n, net') ∧ mem'.length = N ∧ n ≤ N ∧
      (e = none → len ≤ n ∧ n + net'.flatten.length = avail + net.flatten.length) := by
  intro net
  induction net with
  | nil => intro mem avail hm ha; exact ⟨_, _, _, _, rfl, hm, ha, by simp⟩
  | cons c net ih =>
    intro mem avail hm ha
    simp only [recvLoop]
    split
    · exact ⟨_, _, _, _, rfl, hm, ha, by simp⟩
    · split
      · next h0 hb =>
        obtain ⟨m, g1, g2, _⟩ := store_at (mem := mem) (d := c.take (N - avail)) (p := avail) (by simp only [List.length_take]; omega)
        rw [g1]
        simp only [Res.bind_ok]
        split
        · exact ⟨_, _, _, _, rfl, by omega, Nat.le_refl _, by simp⟩
        · refine ⟨_, _, _, _, rfl, by omega, Nat.le_refl _, fun _ => ⟨by omega, ?_⟩⟩
          simp only [List.flatten_cons, List.length_append, List.length_drop]; omega
      · next h0 hb =>
        obtain ⟨m, g1, g2, _⟩ := store_at (mem := mem) (d := c) (p := avail) (by omega)
        rw [g1]
        simp only [Res.bind_ok]
        split
        · obtain ⟨e, m', n, net', k1, k2, k3, k4⟩ := ih m (avail + c.length) (by omega) (by omega)
          refine ⟨e, m', n, net', k1, k2, k3, fun he => ⟨(k4 he).1, ?_⟩⟩
          have := (k4 he).2
          simp only [List.flatten_cons, List.length_append]; omega
        · refine ⟨_, _, _, _, rfl, by omega, by omega, fun _ => ⟨by omega, ?_⟩⟩
          simp only [List.flatten_cons, List.length_append]; omega

theorem Buf.pending_length {N : Nat} {s : St} (h : Buf N s) : (pending s).length = WireCtx.available s.inp + s.net.flatten.length := by
  unfold pending
  have h1 := h.inMem; have h2 := h.inSize; have h3 := h.inPos
  simp only [List.length_append, List.length_take, List.length_drop, WireCtx.available]
  omega

theorem ensureInput_safe {N : Nat} {s : St} (h : Buf N s) (len : Nat) :
    ∃ e s', ensureInput N s len = .ok (e, s') ∧ Buf N s' ∧ s'.data = s.data ∧
      (e = none → len ≤ WireCtx.available s'.inp ∧ (pending s').length = (pending s).length) := by
  unfold ensureInput
  have h1 := h.inMem; have h2 := h.inSize; have h3 := h.inPos
  have hav : WireCtx.available s.inp = s.inp.size - s.inp.pos := rfl
  split
  · next hc => exact ⟨_, _, rfl, h, rfl, fun _ => ⟨hc, rfl⟩⟩
  · have hld : load s.inp.mem s.inp.pos (WireCtx.available s.inp) =
        .ok ((s.inp.mem.drop s.inp.pos).take (WireCtx.available s.inp)) := by
      unfold load; rw [if_pos (by omega)]
    rw [hld]
    simp only [Res.bind_ok]
    obtain ⟨m, g1, g2, _⟩ := store_at (mem := s.inp.mem) (p := 0) (d := (s.inp.mem.drop s.inp.pos).take (WireCtx.available s.inp))
      (by simp only [List.length_take, List.length_drop]; omega)
    rw [g1]
    simp only [Res.bind_ok]
    obtain ⟨e, m', n, net', k1, k2, k3, k4⟩ := recvLoop_safe (N := N) (len := len) s.net m (WireCtx.available s.inp) (by omega) (by omega)
    rw [k1]
    simp only [Res.bind_ok]
    cases e with
    | some e => exact ⟨_, _, rfl, ⟨k2, h2, h3, h.inErr⟩, rfl, by simp⟩
    | none =>
      have hB : Buf N { s with inp := WireCtx.init m' n, net := net' } := ⟨k2, k3, Nat.zero_le _, rfl⟩
      refine ⟨none, { s with inp := WireCtx.init m' n, net := net' }, rfl, hB, rfl, fun _ => ⟨?_, ?_⟩⟩
      · exact (k4 rfl).1
      · rw [hB.pending_length, h.pending_length]
        have := (k4 rfl).2
        simp only [WireCtx.init, WireCtx.available] at this ⊢
        omega

theorem read_safe {N : Nat} {s : St} (h : Buf N s) {n : Nat} (hn : n ≤ WireCtx.available s.inp) :
    ∃ d w, WireCtx.read s.inp n = .ok (d, w) ∧ w.error = none ∧ w.pos = s.inp.pos + n ∧ Buf N { s with inp := w } ∧
      (pending { s with inp := w }).length + n = (pending s).length := by
  have h1 := h.inMem; have h2 := h.inSize; have h3 := h.inPos
  have hav : WireCtx.available s.inp = s.inp.size - s.inp.pos := rfl
  unfold WireCtx.read WireCtx.canRead
  rw [if_neg (by simp [h.inErr]), h.inErr]
  simp only
  rw [if_neg (by omega)]
  unfold load
  rw [if_pos (by omega)]
  simp only [Res.bind_ok]
  have hB : Buf N { s with inp := { s.inp with pos := s.inp.pos + n, error := none } } := ⟨h1, h2, by show s.inp.pos + n ≤ s.inp.size; omega, rfl⟩
  refine ⟨_, _, rfl, rfl, rfl, hB, ?_⟩
  have e1 := hB.pending_length
  have e2 := h.pending_length
  simp only [WireCtx.available] at e1 e2
  omega

theorem receiveCode_safe {N : Nat} {s : St} (h : Buf N s) : ∃ e c s', receiveCode N s = .ok (e, c, s') ∧ Buf N s' ∧ s'.data = s.data ∧
    (e = none → 1 ≤ s'.inp.pos ∧ (pending s').length < (pending s).length) := by
  unfold receiveCode
  obtain ⟨e, s1, h1, h2, h0, h3⟩ := ensureInput_safe h 1
  rw [h1]
  simp only [Res.bind_ok]
  cases e with
  | some e => exact ⟨_, _, _, rfl, h2, h0, by simp⟩
  | none =>
    obtain ⟨h3, h4⟩ := h3 rfl
    obtain ⟨d, w, g1, g2, g3, g4, g5⟩ := read_safe h2 h3
    simp only [WireCtx.readU, g1, Res.bind_ok]
    exact ⟨_, _, _, rfl, g4, h0, fun _ => ⟨by show 1 ≤ w.pos; omega, by omega⟩⟩

theorem receiveValue_safe {N : Nat} {s : St} (h : Buf N s) : ∃ e d s', receiveValue N s = .ok (e, d, s') ∧ Buf N s' ∧ s'.data = s.data ∧
    (e = none → (pending s').length ≤ (pending s).length) := by
  unfold receiveValue
  obtain ⟨e, s1, h1, h2, h0, h3⟩ := ensureInput_safe h 2
  rw [h1]
  simp only [Res.bind_ok]
  cases e with
  | some e => exact ⟨_, _, _, rfl, h2, h0, by simp⟩
  | none =>
    obtain ⟨h3, h4⟩ := h3 rfl
    obtain ⟨d, w, g1, g2, g3, g4, g5⟩ := read_safe h2 h3
    simp only [WireCtx.readU, g1, Res.bind_ok]
    rw [if_neg (by simp [g2])]
    unfold receiveBody
    obtain ⟨e, s2, k1, k2, k0, k3⟩ := ensureInput_safe g4 (beVal d)
    rw [k1]
    simp only [Res.bind_ok]
    cases e with
    | some e => exact ⟨_, _, _, rfl, k2, k0.trans h0, by simp⟩
    | none =>
      obtain ⟨k3, k4⟩ := k3 rfl
      obtain ⟨d', w', l1, l2, l3, l4, l5⟩ := read_safe k2 k3
      rw [l1]
      simp only [Res.bind_ok]
      exact ⟨_, _, _, rfl, l4, k0.trans h0, fun _ => by omega⟩

theorem receiveLoop_safe {N : Nat} : ∀ (fuel : Nat) (s : St) (hv : Option Kind), Buf N s → s.data.length = 12 → (pending s).length < fuel →
    ∃ e k s', receiveLoop N fuel s hv = .ok (e, k, s') ∧ Buf N s' := by
  intro fuel
  induction fuel with
  | zero => intro s hv _ _ h; omega
  | succ fuel ih =>
    intro s hv h hd hf
    simp only [receiveLoop]
    obtain ⟨e, c, s1, h1, h2, h0, h3⟩ := receiveCode_safe h
    rw [h1]
    simp only [Res.bind_ok]
    cases e with
    | some e => exact ⟨_, _, _, rfl, h2⟩
    | none =>
      obtain ⟨h3, h4⟩ := h3 rfl
      simp only
      cases toKind c with
      | some k =>
        simp only
        cases hv with
        | none =>
          simp only
          split
          · exact ih s1 _ h2 (by rw [h0]; exact hd) (by omega)
          · exact ⟨_, _, _, rfl, h2⟩
        | some t =>
          simp only
          have hsk : WireCtx.skip s1.inp (-1) = { s1.inp with pos := s1.inp.pos - 1 } := by
            unfold WireCtx.skip
            have he : s1.inp.error = none := h2.inErr
            simp only [he, ne_eq, not_true_eq_false, if_false]
            rw [if_neg (by omega), if_neg (by simp; omega)]
            have : ((s1.inp.pos : Int) + -1).toNat = s1.inp.pos - 1 := by omega
            simp [this, ← he]
          rw [hsk, if_neg (by simp [h2.inErr])]
          exact ⟨_, _, _, rfl, h2.inMem, h2.inSize, by have := h2.inPos; show s1.inp.pos - 1 ≤ s1.inp.size; omega, h2.inErr⟩
      | none =>
        simp only
        cases hi : toIdx c with
        | none => exact ⟨_, _, _, rfl, h2⟩
        | some i =>
          simp only
          obtain ⟨e, d, s2, g1, g2, g0, g3⟩ := receiveValue_safe h2
          rw [g1]
          simp only [Res.bind_ok]
          cases e with
          | some e => exact ⟨_, _, _, rfl, g2⟩
          | none =>
            have := g3 rfl
            have hil := toIdx_lt hi
            have hdl : s2.data.length = 12 := by rw [g0, h0]; exact hd
            simp only
            rw [if_pos (by omega)]
            exact ih _ hv ⟨g2.inMem, g2.inSize, g2.inPos, g2.inErr⟩ (by simpa using hdl) (by show (pending s2).length < fuel; omega)

end Knot.Ctl
