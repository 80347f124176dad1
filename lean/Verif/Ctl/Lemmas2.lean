import Verif.Ctl.Lemmas
/-!
# Control protocol: receiving
-/
namespace Knot.Ctl
open WireCtx (Ctx load store beBytes beVal)

theorem toKind_eq (c : Nat) : toKind c = kindOf c := by
  unfold toKind kindOf
  match c with
  | 0 => rfl
  | 1 => rfl
  | 2 => rfl
  | 3 => rfl
  | n + 4 => simp

theorem toIdx_eq (c : Nat) : toIdx c = itemOf c := by
  unfold toIdx itemOf
  by_cases h : 16 ≤ c ∧ c ≤ 27
  · rw [if_neg (by omega), if_pos h]
  · rw [if_pos (by omega), if_neg h]

theorem toIdx_lt {c i : Nat} (h : toIdx c = some i) : i < 12 := by
  rw [toIdx_eq] at h
  unfold itemOf at h
  split at h
  · simp only [Option.some.injEq] at h; omega
  · exact absurd h (by simp)

theorem store_at {mem d : Bytes} {p : Nat} (h : p + d.length ≤ mem.length) :
    ∃ m, store mem p d = .ok m ∧ m.length = mem.length ∧ m.take (p + d.length) = mem.take p ++ d := by
  unfold store
  rw [if_pos h]
  refine ⟨_, rfl, by simp only [List.length_append, List.length_take, List.length_drop]; omega, ?_⟩
  rw [List.take_append_of_le_length (by simp only [List.length_append, List.length_take]; omega)]
  exact List.take_of_length_le (by simp only [List.length_append, List.length_take]; omega)

theorem recvLoop_spec {N len : Nat} (hl : len ≤ N) : ∀ (net : List Bytes) (mem : Bytes) (avail : Nat), mem.length = N → avail ≤ N →
    avail < len → (∀ c ∈ net, c ≠ []) →
    (len ≤ avail + net.flatten.length ∧ ∃ mem' n net', recvLoop N len mem avail net = .ok (none, mem', n, net') ∧ mem'.length = N ∧
      n ≤ N ∧ len ≤ n ∧ mem'.take n ++ net'.flatten = mem.take avail ++ net.flatten ∧ (∀ c ∈ net', c ≠ [])) ∨
    (avail + net.flatten.length < len ∧ ∃ x, recvLoop N len mem avail net = .ok (some .econn, x)) := by
  intro net
  induction net with
  | nil => intro mem avail _ _ h3 _; exact .inr ⟨by simpa using h3, _, rfl⟩
  | cons c net ih =>
    intro mem avail hm ha hlt hc
    have hc0 : c ≠ [] := hc c (List.mem_cons_self ..)
    have hc' := fun x hx => hc x (List.mem_cons_of_mem _ hx)
    have hcl : c.length ≠ 0 := by simpa using hc0
    simp only [recvLoop, if_neg hcl]
    by_cases hbig : c.length > N - avail
    · rw [if_pos hbig]
      obtain ⟨m, h1, h2, h3⟩ := store_at (mem := mem) (d := c.take (N - avail)) (p := avail)
        (by simp only [List.length_take]; omega)
      have hlen : (c.take (N - avail)).length = N - avail := by simp only [List.length_take]; omega
      rw [h1]
      simp only [Res.bind_ok]
      rw [if_neg (by omega)]
      left
      refine ⟨by simp only [List.flatten_cons, List.length_append]; omega, m, N, _, rfl, by omega, Nat.le_refl _, hl, ?_, ?_⟩
      · rw [hlen, show avail + (N - avail) = N by omega] at h3
        rw [h3]
        simp only [List.flatten_cons, List.append_assoc]
        rw [← List.append_assoc (c.take _), List.take_append_drop]
      · intro x hx
        rcases List.mem_cons.1 hx with rfl | hx
        · intro e
          have : (c.drop (N - avail)).length = 0 := by rw [e]; rfl
          simp only [List.length_drop] at this
          omega
        · exact hc' x hx
    · rw [if_neg hbig]
      obtain ⟨m, h1, h2, h3⟩ := store_at (mem := mem) (d := c) (p := avail) (by omega)
      rw [h1]
      simp only [Res.bind_ok]
      by_cases hmore : avail + c.length < len
      · rw [if_pos hmore]
        rcases ih m (avail + c.length) (by omega) (by omega) hmore hc' with ⟨g1, m', n, net', g2, g3, g4, g5, g6, g7⟩ | ⟨g1, g2⟩
        · left
          refine ⟨by simp only [List.flatten_cons, List.length_append]; omega, m', n, net', g2, g3, g4, g5, ?_, g7⟩
          rw [g6, h3]
          simp
        · exact .inr ⟨by simp only [List.flatten_cons, List.length_append]; omega, g2⟩
      · rw [if_neg hmore]
        left
        refine ⟨by simp only [List.flatten_cons, List.length_append]; omega, m, _, net, rfl, by omega, by omega, by omega, ?_, hc'⟩
        rw [h3]
        simp

/-- The parts of the state that receiving leaves alone. -/
def SameOut (s s' : St) : Prop := s'.out = s.out ∧ s'.sent = s.sent

theorem pending_length {N : Nat} {s : St} (h : Sane N s) : (pending s).length = WireCtx.available s.inp + s.net.flatten.length := by
  unfold pending
  have h1 := h.inMem; have h2 := h.inSize; have h3 := h.inPos
  simp only [List.length_append, List.length_take, List.length_drop, WireCtx.available]
  omega

theorem ensureInput_spec {N : Nat} {s : St} (h : Sane N s) {len : Nat} (hl : len ≤ N) :
    (len ≤ (pending s).length ∧ ∃ s', ensureInput N s len = .ok (none, s') ∧ Sane N s' ∧ pending s' = pending s ∧
      len ≤ WireCtx.available s'.inp ∧ s'.data = s.data ∧ SameOut s s') ∨
    ((pending s).length < len ∧ ∃ s', ensureInput N s len = .ok (some .econn, s')) := by
  have hpl := pending_length h
  unfold ensureInput
  by_cases ha : WireCtx.available s.inp ≥ len
  · rw [if_pos ha]
    exact .inl ⟨by omega, s, rfl, h, rfl, ha, rfl, rfl, rfl⟩
  · rw [if_neg ha]
    have h1 := h.inMem; have h2 := h.inSize; have h3 := h.inPos
    have hav : WireCtx.available s.inp = s.inp.size - s.inp.pos := rfl
    have hld : load s.inp.mem s.inp.pos (WireCtx.available s.inp) =
        .ok ((s.inp.mem.drop s.inp.pos).take (WireCtx.available s.inp)) := by
      unfold load; rw [if_pos (by omega)]
    rw [hld]
    simp only [Res.bind_ok]
    have hdl : ((s.inp.mem.drop s.inp.pos).take (WireCtx.available s.inp)).length = WireCtx.available s.inp := by
      simp only [List.length_take, List.length_drop]; omega
    obtain ⟨m, g1, g2, g3⟩ := store_at (mem := s.inp.mem) (p := 0) (d := (s.inp.mem.drop s.inp.pos).take (WireCtx.available s.inp))
      (by omega)
    rw [g1]
    simp only [Res.bind_ok]
    rw [hdl, Nat.zero_add] at g3
    simp only [List.take_zero, List.nil_append] at g3
    rcases recvLoop_spec hl s.net m (WireCtx.available s.inp) (by omega) (by omega) (by omega) h.chunks with
      ⟨k1, m', n, net', k2, k3, k4, k5, k6, k7⟩ | ⟨k1, ⟨x1, x2, x3⟩, k2⟩
    · left
      rw [k2]
      refine ⟨by omega, _, rfl, ⟨h.outMem, h.outSize, h.outPos, h.outErr, h.outRw, k3, k4, Nat.zero_le _, rfl, k7⟩, ?_, k5, rfl, rfl, rfl⟩
      show (m'.drop 0).take (n - 0) ++ net'.flatten = _
      rw [List.drop_zero, Nat.sub_zero, k6, g3]
      rfl
    · right
      rw [k2]
      exact ⟨by omega, _, rfl⟩

theorem read_spec {N : Nat} {s : St} (h : Sane N s) {n : Nat} (hn : n ≤ WireCtx.available s.inp) :
    ∃ w, WireCtx.read s.inp n = .ok ((pending s).take n, w) ∧ w.error = none ∧ Sane N { s with inp := w } ∧
      pending { s with inp := w } = (pending s).drop n ∧ w.pos = s.inp.pos + n ∧ w.mem = s.inp.mem ∧ w.size = s.inp.size ∧
      w = { s.inp with pos := s.inp.pos + n } := by
  have h1 := h.inMem; have h2 := h.inSize; have h3 := h.inPos
  have hav : WireCtx.available s.inp = s.inp.size - s.inp.pos := rfl
  unfold WireCtx.read WireCtx.canRead
  rw [if_neg (by simp [h.inErr]), h.inErr]
  simp only
  rw [if_neg (by omega)]
  unfold load
  rw [if_pos (by omega)]
  simp only [Res.bind_ok]
  have hlt : ((s.inp.mem.drop s.inp.pos).take (WireCtx.available s.inp)).length = WireCtx.available s.inp := by
    simp only [List.length_take, List.length_drop]; omega
  refine ⟨{ s.inp with pos := s.inp.pos + n }, ?_, h.inErr, ⟨h.outMem, h.outSize, h.outPos, h.outErr, h.outRw, h.inMem, h.inSize, ?_, h.inErr, h.chunks⟩, ?_, rfl, rfl, rfl, rfl⟩
  · unfold pending
    rw [List.take_append_of_le_length (by omega), List.take_take, Nat.min_eq_left hn]
    simp [h.inErr]
  · show s.inp.pos + n ≤ s.inp.size; omega
  · unfold pending
    rw [List.drop_append_of_le_length (by omega), List.drop_take, List.drop_drop]
    congr 2
    show s.inp.size - (s.inp.pos + n) = s.inp.size - s.inp.pos - n
    omega

/-- What a receiving step gives: a value and the rest, or a disconnect. -/
theorem receiveCode_spec {N : Nat} (hN : 1 ≤ N) {s : St} (h : Sane N s) :
    (∃ c r s', pending s = c :: r ∧ receiveCode N s = .ok (none, c.toNat, s') ∧ Sane N s' ∧ pending s' = r ∧ s'.data = s.data ∧
      SameOut s s' ∧ ∃ s0, Sane N s0 ∧ pending s0 = c :: r ∧ s0.data = s.data ∧ SameOut s s0 ∧
        s' = { s0 with inp := { s0.inp with pos := s0.inp.pos + 1 } }) ∨
    (pending s = [] ∧ ∃ s', receiveCode N s = .ok (some .econn, 0, s')) := by
  unfold receiveCode
  rcases ensureInput_spec h (len := 1) hN with ⟨h1, s1, h2, h3, h4, h5, h6, h7⟩ | ⟨h1, s1, h2⟩
  · rw [h2]
    simp only [Res.bind_ok]
    obtain ⟨w, g1, g2, g3, g4, _, _, _, g5⟩ := read_spec h3 h5
    cases hp : pending s with
    | nil => rw [hp] at h1; simp at h1
    | cons c r =>
      left
      refine ⟨c, r, { s1 with inp := w }, rfl, ?_, g3, ?_, h6, h7, s1, h3, by rw [h4, hp], h6, h7, by rw [g5]⟩
      · unfold WireCtx.readU
        rw [g1, h4, hp]
        simp [beVal, g2]
      · rw [g4, h4, hp]; rfl
  · right
    rw [h2]
    exact ⟨List.eq_nil_of_length_eq_zero (by omega), s1, rfl⟩

theorem receiveValue_spec {N : Nat} (hN : 65535 ≤ N) {s : St} (h : Sane N s) :
    (2 ≤ (pending s).length ∧ beVal ((pending s).take 2) ≤ ((pending s).drop 2).length ∧
      ∃ s', receiveValue N s = .ok (none, ((pending s).drop 2).take (beVal ((pending s).take 2)), s') ∧ Sane N s' ∧
        pending s' = ((pending s).drop 2).drop (beVal ((pending s).take 2)) ∧ s'.data = s.data ∧ SameOut s s') ∨
    (((pending s).length < 2 ∨ ((pending s).drop 2).length < beVal ((pending s).take 2)) ∧
      ∃ s', receiveValue N s = .ok (some .econn, [], s')) := by
  unfold receiveValue
  rcases ensureInput_spec h (len := 2) (by omega) with ⟨h1, s1, h2, h3, h4, h5, h6, h7⟩ | ⟨h1, s1, h2⟩
  · rw [h2]
    simp only [Res.bind_ok]
    obtain ⟨w, g1, g2, g3, g4, _⟩ := read_spec h3 h5
    unfold WireCtx.readU
    rw [g1, h4]
    simp only [Res.bind_ok]
    rw [if_neg (by simp [g2])]
    have hlt : beVal ((pending s).take 2) ≤ N := by
      have : ∀ b : Bytes, beVal b < 256 ^ b.length := by
        intro b
        induction b with
        | nil => simp [beVal]
        | cons y b ih =>
          simp only [beVal, List.length_cons, Nat.pow_succ]
          have := y.toNat_lt
          have h1 : y.toNat * 256 ^ b.length ≤ 255 * 256 ^ b.length := Nat.mul_le_mul_right _ (by omega)
          omega
      have := this ((pending s).take 2)
      rw [show ((pending s).take 2).length = 2 by simp; omega] at this
      omega
    rw [h4] at g4
    unfold receiveBody
    rcases ensureInput_spec g3 hlt with ⟨k1, s2, k2, k3, k4, k5, k6, k7⟩ | ⟨k1, s2, k2⟩
    · left
      rw [g4] at k1
      rw [k2]
      simp only [Res.bind_ok]
      obtain ⟨w', l1, l2, l3, l4, _⟩ := read_spec k3 k5
      rw [l1]
      simp only [Res.bind_ok]
      refine ⟨h1, k1, { s2 with inp := w' }, ?_, l3, ?_, k6.trans h6, k7.1.trans h7.1, k7.2.trans h7.2⟩
      · rw [l2, k4, g4]
      · rw [l4, k4, g4]
    · right
      rw [g4] at k1
      rw [k2]
      exact ⟨.inr k1, s2, rfl⟩
  · right
    rw [h2]
    exact ⟨.inl h1, s1, rfl⟩

/-- The outcome of receiving against the octets that arrive. -/
def Gives (N : Nat) (s : St) (p : Parsed) (r : Res (Option Err × Kind × St)) : Prop :=
  match p with
  | .unit k items rest => ∃ s', r = .ok (none, k, s') ∧ s'.data = items ∧ pending s' = rest ∧ Sane N s' ∧ SameOut s s'
  | .invalid => ∃ k s', r = .ok (some .einval, k, s')
  | .short => ∃ k s', r = .ok (some .econn, k, s')

theorem Gives.mono {N : Nat} {s s1 : St} (h : SameOut s s1) {p : Parsed} {r : Res (Option Err × Kind × St)} (g : Gives N s1 p r) :
    Gives N s p r := by
  cases p with
  | unit k items rest =>
    obtain ⟨s', g1, g2, g3, g4, g5⟩ := g
    exact ⟨s', g1, g2, g3, g4, g5.1.trans h.1, g5.2.trans h.2⟩
  | invalid => exact g
  | short => exact g

theorem receiveLoop_spec {N : Nat} (hN : 65535 ≤ N) : ∀ (fuel : Nat) (s : St) (hv : Option Kind), Sane N s → s.data.length = 12 →
    (pending s).length < fuel → Gives N s (parse fuel hv s.data (pending s)) (receiveLoop N fuel s hv) := by
  intro fuel
  induction fuel with
  | zero => intro s hv _ _ h; omega
  | succ fuel ih =>
    intro s hv h hd hf
    simp only [receiveLoop]
    rcases receiveCode_spec (by omega) h with ⟨c, r, s1, h1, h2, h3, h4, h5, h6, s0, h7, h8, h9, h10, h11⟩ | ⟨h1, s1, h2⟩
    · rw [h1] at hf ⊢
      rw [h2]
      simp only [Res.bind_ok, parse, ← toKind_eq, ← toIdx_eq]
      simp only [List.length_cons] at hf
      cases hk : toKind c.toNat with
      | some k =>
        simp only
        cases hv with
        | some t =>
          simp only
          have hsk : WireCtx.skip s1.inp (-1) = s0.inp := by
            rw [h11]
            unfold WireCtx.skip
            have he : s0.inp.error = none := h7.inErr
            simp only [he, ne_eq, not_true_eq_false, if_false]
            rw [if_neg (by omega), if_neg (by simp)]
            simp [← he]
          rw [hsk, if_neg (by simp [h7.inErr])]
          refine ⟨_, rfl, ?_, ?_, ?_, ?_⟩
          · exact h5
          · rw [h11]; exact h8
          · rw [h11]; exact h7
          · exact h6
        | none =>
          simp only
          split
          · have := ih s1 (some k) h3 (by rw [h5]; exact hd) (by rw [h4]; omega)
            rw [h4, h5] at this
            exact this.mono h6
          · exact ⟨s1, rfl, h5, h4, h3, h6⟩
      | none =>
        simp only
        cases hi : toIdx c.toNat with
        | none => exact ⟨_, s1, rfl⟩
        | some i =>
          simp only
          rcases receiveValue_spec hN h3 with ⟨g1, g2, s2, g3, g4, g5, g6, g7⟩ | ⟨g1, s2, g3⟩
          · rw [h4] at g1 g2 g3 g5
            rw [g3]
            simp only [Res.bind_ok]
            rw [if_neg (by omega), if_neg (by omega)]
            have hil := toIdx_lt hi
            have hdl : s2.data.length = 12 := by rw [g6, h5]; exact hd
            rw [if_pos (by omega)]
            have hs2 : Sane N { s2 with data := s2.data.set i (some ((r.drop 2).take (beVal (r.take 2)))) } :=
              ⟨g4.outMem, g4.outSize, g4.outPos, g4.outErr, g4.outRw, g4.inMem, g4.inSize, g4.inPos, g4.inErr, g4.chunks⟩
            have := ih _ hv hs2 (by simpa using hdl) (by
              show (pending s2).length < fuel
              rw [g5]; simp only [List.length_drop]; omega)
            have hp : pending { s2 with data := s2.data.set i (some ((r.drop 2).take (beVal (r.take 2)))) } =
              (r.drop 2).drop (beVal (r.take 2)) := g5
            rw [hp] at this
            simp only at this
            rw [g6, h5] at this
            rw [g6, h5]
            exact this.mono ⟨g7.1.trans h6.1, g7.2.trans h6.2⟩
          · rw [h4] at g1
            rw [g3]
            simp only [Res.bind_ok]
            rcases g1 with g1 | g1
            · rw [if_pos g1]; exact ⟨_, s2, rfl⟩
            · by_cases g0 : r.length < 2
              · rw [if_pos g0]; exact ⟨_, s2, rfl⟩
              · rw [if_neg g0, if_pos g1]; exact ⟨_, s2, rfl⟩
    · rw [h1, h2]
      simp only [Res.bind_ok]
      have : parse (fuel + 1) hv s.data [] = .short := by simp [parse]
      rw [this]
      exact ⟨_, s1, rfl⟩

end Knot.Ctl
