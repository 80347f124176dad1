import Verif.Synth.Lemmas3
/-!
# Lemmas: networks, answers
-/
namespace Knot.Synth
open Sockaddr (Addr Fam Bytes bit bitLen netMatch rangeMatch)
open Spec

theorem isAddr_wf {a : Addr} (h : IsAddr a) : a.WF ∧ a.fam ≠ .unix := by
  unfold Addr.WF
  rcases h.2 with ⟨h1, h2⟩ | ⟨h1, h2⟩ <;> rw [h1] <;> exact ⟨h2, by simp⟩

theorem findNet_spec (le : Bool) (a : Addr) (ha : IsAddr a) : ∀ (nets : List Net), (∀ n ∈ nets, n.addr.WF) →
    ∃ b, findNet le a nets = .ok b ∧ (b = true ↔ ∃ n ∈ nets, if n.max.fam = .unspec then
      n.addr.fam = a.fam ∧ ∀ i < min n.mask (bitLen a.fam), bit a.raw i = bit n.addr.raw i
      else rangeMatch le a n.addr n.max = true)
  | [], _ => ⟨false, rfl, by simp⟩
  | n :: ns, h => by
    obtain ⟨b, h1, h2⟩ := findNet_spec le a ha ns (fun x hx => h x (by simp [hx]))
    have hw := isAddr_wf ha
    have hone : ∃ m, oneNet le a n = .ok m ∧
        (m = true ↔ if n.max.fam = .unspec then n.addr.fam = a.fam ∧ ∀ i < min n.mask (bitLen a.fam), bit a.raw i = bit n.addr.raw i
          else rangeMatch le a n.addr n.max = true) := by
      unfold oneNet
      by_cases hf : n.max.fam = .unspec
      · obtain ⟨r, h3, h4⟩ := C30_net_match a n.addr hw.1 (h n (by simp)) n.mask
        refine ⟨r, by simp only [hf, if_true]; exact h3, ?_⟩
        simp only [hf, if_true]
        rw [h4]
        simp only [hw.2, if_false]
        constructor
        · rintro ⟨e, h⟩; exact ⟨e.symm, h⟩
        · rintro ⟨e, h⟩; exact ⟨e.symm, h⟩
      · refine ⟨_, by simp only [hf, if_false]; rfl, by simp only [hf, if_false]⟩
    obtain ⟨m, h3, h4⟩ := hone
    unfold findNet
    rw [h3]
    simp only [Res.bind_ok]
    cases m with
    | true => exact ⟨true, rfl, by simp only [true_iff]; exact ⟨n, by simp, h4.1 rfl⟩⟩
    | false =>
      refine ⟨b, by simp only [Bool.false_eq_true, if_false]; exact h1, ?_⟩
      rw [h2]
      constructor
      · rintro ⟨x, hx, h⟩; exact ⟨x, by simp [hx], h⟩
      · rintro ⟨x, hx, h5⟩
        rcases List.mem_cons.1 hx with rfl | hx
        · exact absurd (h4.2 h5) (by simp)
        · exact ⟨x, hx, h5⟩

theorem findNet_yes {le : Bool} {t : Tpl} {a : Addr} (ha : IsAddr a) (hn : GoodNets t) (h : Covered le t a) :
    findNet le a t.nets = .ok true := by
  obtain ⟨b, h1, h2⟩ := findNet_spec le a ha t.nets hn
  rw [h1, h2.2 h]

theorem findNet_no {le : Bool} {t : Tpl} {a : Addr} (ha : IsAddr a) (hn : GoodNets t) (h : ¬Covered le t a) :
    findNet le a t.nets = .ok false := by
  obtain ⟨b, h1, h2⟩ := findNet_spec le a ha t.nets hn
  cases b with
  | true => exact absurd (h2.1 rfl) h
  | false => exact h1

/-! ## Names of addresses -/

theorem hex_reverse (raw : Bytes) : raw.reverse.flatMap (fun b => [[nibble (b.toNat % 16)], [nibble (b.toNat / 16)]]) =
    (raw.flatMap fun b => [nibble (b.toNat / 16), nibble (b.toNat % 16)]).reverse.map fun c => [c] := by
  induction raw with
  | nil => rfl
  | cons x raw ih => simp [List.flatMap_append, ih]

theorem hex_mem {raw : Bytes} {c : UInt8} (h : c ∈ raw.flatMap fun b => [nibble (b.toNat / 16), nibble (b.toNat % 16)]) :
    c ≠ 105 ∧ lower c = c := by
  obtain ⟨b, _, hb⟩ := List.mem_flatMap.1 h
  have := b.toNat_lt
  simp only [List.mem_cons, List.not_mem_nil, or_false] at hb
  rcases hb with rfl | rfl
  · have := nibble_facts (b.toNat / 16) (by omega)
    exact ⟨this.2.2.2.2.2.2.1, this.2.2.2.2.2.2.2⟩
  · have := nibble_facts (b.toNat % 16) (by omega)
    exact ⟨this.2.2.2.2.2.2.1, this.2.2.2.2.2.2.2⟩

theorem hex_length (raw : Bytes) : (raw.flatMap fun b => [nibble (b.toNat / 16), nibble (b.toNat % 16)]).length = 2 * raw.length := by
  induction raw with
  | nil => rfl
  | cons x raw ih => simp only [List.flatMap_cons, List.length_append, ih, List.length_cons, List.length_nil]; omega

theorem arpa_spec : [octets "in-addr", octets "arpa"] = arpa4 ∧ [octets "ip6", octets "arpa"] = arpa6 := by decide

theorem lower_arpa : arpa4.map (fun l => l.map lower) = arpa4 ∧ arpa6.map (fun l => l.map lower) = arpa6 := by decide

theorem lower_name (a : Addr) : (reverseName a).map (fun l => l.map lower) = reverseName a := by
  have h6 : (a.raw.reverse.flatMap (fun b => [[nibble (b.toNat % 16)], [nibble (b.toNat / 16)]]) ++ arpa6).map (fun l => l.map lower) =
      a.raw.reverse.flatMap (fun b => [[nibble (b.toNat % 16)], [nibble (b.toNat / 16)]]) ++ arpa6 := by
    rw [List.map_append, lower_arpa.2, hex_reverse, List.map_map]
    congr 1
    apply List.map_congr_left
    intro c hc
    simp [(hex_mem (List.mem_reverse.1 hc)).2]
  have h4 : (a.raw.reverse.map decimal ++ arpa4).map (fun l => l.map lower) = a.raw.reverse.map decimal ++ arpa4 := by
    rw [List.map_append, lower_arpa.1, List.map_map]
    congr 1
    apply List.map_congr_left
    intro b _
    simp [(decimal_fact b).2.2.2.2.2.2.2.1]
  unfold reverseName
  rw [arpa_spec.1, arpa_spec.2]
  cases a.fam <;> first | exact h4 | exact h6

/-- The reverse name of an address is read as the text of it. -/
theorem reverse_parsed (t : Tpl) (a : Addr) (ha : IsAddr a) :
    ∃ s, TextOf a.fam a.raw s ∧ reverseParse t (reverseName a) = .ok (some ⟨s ++ [0], a.fam, false⟩) := by
  rcases ha.2 with ⟨hf, hl⟩ | ⟨hf, hl⟩
  · have hn : reverseName a = a.raw.reverse.map decimal ++ arpa4 := by
      unfold reverseName; rw [hf, arpa_spec.1]
    rw [hn, hf, reverse4 t a.raw (by omega), hl]
    rcases hr : a.raw with _ | ⟨x, _ | ⟨y, _ | ⟨z, _ | ⟨w, _ | ⟨v, r⟩⟩⟩⟩⟩ <;> rw [hr] at hl <;>
      simp only [List.length_cons, List.length_nil] at hl <;> try omega
    exact ⟨_, textOf4 x y z w, by simp⟩
  · have hn : reverseName a = (a.raw.flatMap fun b => [nibble (b.toNat / 16), nibble (b.toNat % 16)]).reverse.map (fun c => [c]) ++
        arpa6 := by
      unfold reverseName; rw [hf, arpa_spec.2]; dsimp only; rw [hex_reverse]
    have hlen := hex_length a.raw
    obtain ⟨s, h1, h2⟩ := textOf6 t.short a.raw hl
    rw [hn, hf, reverse6 t _ (fun c hc => (hex_mem hc).1) (by omega), hlen, hl]
    refine ⟨s, h1, ?_⟩
    simp only [Nat.mul_comm, Nat.reduceMul, Nat.sub_self, List.replicate_zero, List.append_nil, h2]
    rfl

/-! ## Answers -/

theorem size_eq (n : Name) : nameSize n = size n := by
  unfold nameSize size
  have : ∀ n : Name, (n.map fun l => l.length + 1).sum = (n.map List.length).sum + n.length := by
    intro n
    induction n with
    | nil => rfl
    | cons l n ih => simp only [List.map_cons, List.sum_cons, ih, List.length_cons]; omega
  rw [this]

theorem size_cons (l : Label) (n : Name) : size (l :: n) = l.length + 1 + size n := by
  unfold size; simp only [List.map_cons, List.sum_cons, List.length_cons]; omega

theorem subst_length (fr to : UInt8) (s : Bytes) : (subst fr to s).length = s.length := by simp [subst]

theorem ptr_name {t : Tpl} {a : Addr} {s : Bytes} (h : TextOf a.fam a.raw s) (hp : t.pfx.length ≤ 24) (hz : t.zone ≠ [])
    (hs : size t.zone + t.pfx.length + 40 ≤ 255) :
    ptrName t ⟨s ++ [0], a.fam, false⟩ = some ((t.pfx ++ subst (sepOf a.fam) 45 s) :: t.zone) := by
  have hc : cstr (s ++ [0]) = s := cstr_end (fun h0 => (h.mem 0 h0).2.1 rfl) []
  unfold ptrName
  dsimp only
  have hl := h.len
  have hn : s.length ≠ 0 := fun e => h.ne (List.eq_nil_of_length_eq_zero e)
  rw [hc, size_eq, size_cons]
  rw [if_neg]
  simp only [List.length_append, subst_length]
  rintro (e | e | e | e)
  · omega
  · omega
  · exact hz e
  · omega

theorem lower_fix {c : UInt8} (h : ¬(65 ≤ c ∧ c ≤ 90)) : lower c = c := by unfold lower; rw [if_neg h]

theorem forward_parsed {t : Tpl} {a : Addr} {s : Bytes} (h : TextOf a.fam a.raw s) (hp : Plain t.pfx) (rest : Name) :
    forwardParse t ((((t.pfx ++ subst (sepOf a.fam) 45 s) :: rest)).map fun l => l.map lower) = some ⟨s ++ [0], a.fam, false⟩ := by
  have hl : (t.pfx ++ subst (sepOf a.fam) 45 s).map lower = t.pfx ++ subst (sepOf a.fam) 45 s := by
    conv => rhs; rw [← List.map_id (t.pfx ++ subst (sepOf a.fam) 45 s)]
    apply List.map_congr_left
    intro c hc
    rcases List.mem_append.1 hc with hc | hc
    · exact lower_fix (hp c hc).1
    · unfold subst at hc
      obtain ⟨d, hd, rfl⟩ := List.mem_map.1 hc
      split
      · decide
      · exact (h.mem d hd).2.2
  have hn : s.length ≠ 0 := fun e => h.ne (List.eq_nil_of_length_eq_zero e)
  unfold forwardParse
  simp only [List.map_cons, List.headD_cons, hl]
  rw [if_neg (by
    rintro (e | e)
    · simp only [List.length_append, subst_length] at e; omega
    · exact e (by simp))]
  rw [List.drop_left]
  have hfam : (if hyphens 0 (subst (sepOf a.fam) 45 s) = 3 then Fam.inet else Fam.inet6) = a.fam := by
    split
    · next e => exact (h.hy.1 e).symm
    · next e =>
      rcases h.fams with hf | hf
      · exact absurd (h.hy.2 hf) e
      · exact hf.symm
  rw [hfam, subst_back (fun h0 => (h.mem 45 h0).1 rfl)]

/-- The answer of a reverse template to the name of an address. -/
theorem reverse_answer (le : Bool) (t : Tpl) (ht : t.reverse = true) (a : Addr) (ha : IsAddr a) (hn : GoodNets t) :
    ∃ s, TextOf a.fam a.raw s ∧ ∀ q, (¬Covered le t a → answer le t (reverseName a) q = .ok .miss) ∧
      (Covered le t a → answer le t (reverseName a) q = .ok (if q = 12 ∨ q = 255 then
        ptrAns t ⟨s ++ [0], a.fam, false⟩ else .nodata)) := by
  obtain ⟨s, h1, h2⟩ := reverse_parsed t a ha
  have hset : sockaddrSet a.fam (s ++ [0]) = some a := by
    rw [h1.set]
    have := ha.1
    cases a; simp at this ⊢; exact this.symm
  refine ⟨s, h1, fun q => ⟨fun hc => ?_, fun hc => ?_⟩⟩
  · unfold answer templateMatch
    rw [lower_name, if_pos ht, h2]
    simp only [Res.bind_ok, hset, findNet_no ha hn hc, Bool.false_eq_true, if_false]
  · unfold answer templateMatch
    rw [lower_name, if_pos ht, h2]
    simp only [Res.bind_ok, hset, findNet_yes ha hn hc, if_true, ht, Bool.false_or]
    by_cases h12 : q = 12
    · simp [h12]
    · by_cases h255 : q = 255
      · simp [h255]
      · simp [h12, h255]

/-- The answer of a forward template to a name made of the text of an address. -/
theorem forward_answer (le : Bool) (t : Tpl) (ht : t.reverse = false) (a : Addr) (ha : IsAddr a) (hn : GoodNets t) (hp : Plain t.pfx)
    {s : Bytes} (h : TextOf a.fam a.raw s) (rest : Name) (q : Nat) :
    (¬Covered le t a → answer le t ((t.pfx ++ subst (sepOf a.fam) 45 s) :: rest) q = .ok .miss) ∧
    (Covered le t a → answer le t ((t.pfx ++ subst (sepOf a.fam) 45 s) :: rest) q =
      .ok (if q = typeOf a.fam ∨ q = 255 then .addr a.fam a.raw else .nodata)) := by
  have hset : sockaddrSet a.fam (s ++ [0]) = some a := by
    rw [h.set]
    have := ha.1
    cases a; simp at this ⊢; exact this.symm
  have hfw := forward_parsed h hp rest
  constructor
  · intro hc
    unfold answer templateMatch
    rw [if_neg (by simp [ht]), hfw]
    simp only [Res.bind_ok, hset, findNet_no ha hn hc, Bool.false_eq_true, if_false]
  · intro hc
    unfold answer templateMatch
    rw [if_neg (by simp [ht]), hfw]
    simp only [Res.bind_ok, hset, findNet_yes ha hn hc, if_true, ht, Bool.false_eq_true, if_false]
    have hs : satisfied q a.fam = decide (q = typeOf a.fam ∨ q = 255) := by
      unfold satisfied typeOf
      rcases h.fams with hf | hf <;> rw [hf] <;> grind
    rw [hs]
    by_cases hq : q = typeOf a.fam ∨ q = 255
    · simp [hq]
    · simp [hq]

end Knot.Synth
