import Verif.Synth.Lemmas6
/-!
# C56: synthetic records of addresses
-/
namespace Knot
open Synth Synth.Spec
open Sockaddr (Addr Fam bit bitLen)

/-- A reverse template for examples: networks 10.0.0.0/8 and 2620:0:b61::/52, prefix "dyn-", origin "test". -/
def Synth.exampleReverse : Tpl :=
  { reverse := true, pfx := octets "dyn-", zone := [octets "test"], short := true
    nets := [⟨⟨.inet, [10, 0, 0, 0], 0⟩, ⟨.unspec, [], 0⟩, 8⟩,
      ⟨⟨.inet6, [0x26, 0x20, 0, 0, 0xb, 0x61, 0, 0, 0, 0, 0, 0, 0, 0, 0, 0], 0⟩, ⟨.unspec, [], 0⟩, 52⟩] }

/-- The forward template that belongs to it. -/
def Synth.exampleForward : Tpl := { exampleReverse with reverse := false, zone := [] }

/-- Addresses for examples. -/
def Synth.example4 : Addr := ⟨.inet, [10, 1, 0, 255], 0⟩
def Synth.example6 : Addr := ⟨.inet6, [0x26, 0x20, 0, 0, 0xb, 0x61, 0, 0, 0, 0, 0, 0, 0, 0, 0, 1], 0⟩

/-- C56. For every IPv4 and IPv6 address in the networks of a reverse and a forward template with the same prefix, the reverse
name of the address has a PTR record whose name is in the origin, and that name has the record with this address; it has no data of
other types, and no records if the networks of the forward template do not have the address. -/
theorem C56_pair_partial (le : Bool) (r f : Tpl) (hr : r.reverse = true) (hf : f.reverse = false) (hpf : f.pfx = r.pfx)
    (hnr : GoodNets r) (hnf : GoodNets f) (hp : Plain r.pfx) (hl : r.pfx.length ≤ 24) (hz : r.zone ≠ [])
    (hs : size r.zone + r.pfx.length + 40 ≤ 255) (a : Addr) (ha : IsAddr a) (hcr : Covered le r a) :
    ∃ n, (∀ q, q = 12 ∨ q = 255 → answer le r (reverseName a) q = .ok (.ptr n)) ∧ n.tail = r.zone ∧ ∀ q,
      (Covered le f a → q = typeOf a.fam ∨ q = 255 → answer le f n q = .ok (.addr a.fam a.raw)) ∧
      (Covered le f a → ¬(q = typeOf a.fam ∨ q = 255) → answer le f n q = .ok .nodata) ∧
      (¬Covered le f a → answer le f n q = .ok .miss) := by
  obtain ⟨s, h1, h2⟩ := reverse_answer le r hr a ha hnr
  refine ⟨(r.pfx ++ subst (sepOf a.fam) 45 s) :: r.zone, ?_, ?_, ?_⟩
  · intro q hq
    rw [(h2 q).2 hcr, if_pos hq]
    simp [ptrAns, ptr_name h1 hl hz hs]
  · rfl
  · intro q
    have := forward_answer le f hf a ha hnf (hpf ▸ hp) h1 r.zone q
    rw [hpf] at this
    exact ⟨fun hc hq => by rw [this.2 hc, if_pos hq], fun hc hq => by rw [this.2 hc, if_neg hq], this.1⟩

/-- The example: a PTR record and its address. -/
example : answer true exampleReverse (reverseName example6) 12 = .ok (.ptr [octets "dyn-2620-0-b61--1", octets "test"]) ∧
    answer true exampleForward [octets "dyn-2620-0-b61--1", octets "test"] 28 = .ok (.addr .inet6 example6.raw) ∧
    answer true exampleReverse (reverseName example4) 12 = .ok (.ptr [octets "dyn-10-1-0-255", octets "test"]) ∧
    answer true exampleForward [octets "DYN-10-1-0-255", octets "test"] 1 = .ok (.addr .inet [10, 1, 0, 255]) := by
  decide +kernel

/-- The hypotheses hold for the example. -/
theorem Synth.example_hyp : GoodNets exampleReverse ∧ Plain exampleReverse.pfx ∧ exampleReverse.pfx.length ≤ 24 ∧
    size exampleReverse.zone + exampleReverse.pfx.length + 40 ≤ 255 ∧ IsAddr example4 ∧ IsAddr example6 ∧
    Covered true exampleReverse example4 ∧ Covered true exampleForward example6 := by
  refine ⟨by unfold GoodNets; decide +kernel, by unfold Plain; decide +kernel, by decide, by decide, ⟨rfl, .inl ⟨rfl, rfl⟩⟩,
    ⟨rfl, .inr ⟨rfl, rfl⟩⟩, ⟨_, List.mem_cons_self, ?_⟩, ⟨_, List.mem_cons_of_mem _ List.mem_cons_self, ?_⟩⟩
  · rw [if_pos rfl]; exact ⟨rfl, by decide +kernel⟩
  · rw [if_pos rfl]; exact ⟨rfl, by decide +kernel⟩

/-- C56. The reverse name of an address has a record exactly if the address is in a network, and only of type PTR: other types
have no data, and without a network the answer of the zone stays. -/
theorem C56_reverse_types (le : Bool) (t : Tpl) (ht : t.reverse = true) (hn : GoodNets t) (a : Addr) (ha : IsAddr a) (q : Nat) :
    (answer le t (reverseName a) q = .ok .miss ↔ ¬Covered le t a) ∧
    (answer le t (reverseName a) q = .ok .nodata ↔ Covered le t a ∧ q ≠ 12 ∧ q ≠ 255) := by
  obtain ⟨s, _, h2⟩ := reverse_answer le t ht a ha hn
  have hp : ∀ p, ptrAns t p ≠ .miss ∧ ptrAns t p ≠ .nodata := by
    intro p; unfold ptrAns; split <;> simp
  by_cases hc : Covered le t a
  · rw [(h2 q).2 hc]
    by_cases hq : q = 12 ∨ q = 255
    · rw [if_pos hq]
      refine ⟨⟨fun h => ?_, fun h => absurd hc h⟩, ⟨fun h => ?_, fun h => ?_⟩⟩
      · exact absurd (Res.ok.inj h) (hp _).1
      · exact absurd (Res.ok.inj h) (hp _).2
      · rcases hq with e | e
        · exact absurd e h.2.1
        · exact absurd e h.2.2
    · rw [if_neg hq]
      refine ⟨⟨fun h => (by cases h), fun h => absurd hc h⟩, ⟨fun _ => ⟨hc, fun e => hq (.inl e), fun e => hq (.inr e)⟩, fun _ => rfl⟩⟩
  · rw [(h2 q).1 hc]
    exact ⟨⟨fun _ => hc, fun _ => rfl⟩, ⟨fun h => (by cases h), fun h => absurd h.1 hc⟩⟩

/-- C56. For every query name and type: the answer is defined; a synthesized address is in a network of the template, the type of
the query is its type or ANY, and the name begins with the prefix; a synthesized PTR record is of a query for PTR or ANY, and its
name is in the origin and begins with the prefix. -/
theorem C56_sound (le : Bool) (t : Tpl) (hn : GoodNets t) (n : Name) (q : Nat) :
    ∃ x, answer le t n q = .ok x ∧
      (∀ fam raw, x = .addr fam raw → t.reverse = false ∧ Covered le t ⟨fam, raw, 0⟩ ∧ IsAddr ⟨fam, raw, 0⟩ ∧ (q = typeOf fam ∨ q = 255) ∧
        ∃ l rest, n = l :: rest ∧ t.pfx <+: l.map lower ∧ t.pfx.length < l.length) ∧
      (∀ m, x = .ptr m → t.reverse = true ∧ (q = 12 ∨ q = 255) ∧ t.zone ≠ [] ∧ size m ≤ 255 ∧
        ∃ l, m = l :: t.zone ∧ t.pfx <+: l ∧ l.length ≤ 63) := by
  rcases answer_cases le t hn n q with h | ⟨p, a, h1, h2, h3, h4, h | h⟩
  · exact ⟨_, h, by simp, by simp⟩
  · obtain ⟨ht, _, h⟩ := h
    refine ⟨_, h, ?_, ?_⟩
    · intro fam raw e
      split at e
      · cases e
      · unfold ptrAns at e
        split at e <;> cases e
    · intro m e
      split at e
      · cases e
      · next hq =>
        refine ⟨ht, ?_, ?_⟩
        · simp only [Bool.or_eq_true, Bool.and_eq_true, decide_eq_true_eq, not_or, not_and] at hq
          by_cases h12 : q = 12
          · exact .inl h12
          · exact .inr (Decidable.byContradiction fun h => hq.2 h12 h)
        · unfold ptrAns at e
          split at e
          · cases e
          · next m' hm =>
            cases e
            unfold ptrName at hm
            dsimp only at hm
            split at hm
            · cases hm
            · next hz =>
              simp only [not_or] at hz
              cases hm
              exact ⟨hz.2.2.1, by rw [← size_eq]; omega, _, rfl, List.prefix_append _ _, by omega⟩
  · obtain ⟨ht, hfp, h⟩ := h
    refine ⟨_, h, ?_, ?_⟩
    · intro fam raw e
      split at e
      · cases e
      · next hq =>
        cases e
        have ea : a = ⟨p.fam, a.raw, 0⟩ := by
          have := h2.1
          cases a; simp at this h3 ⊢; exact ⟨h3, this⟩
        refine ⟨ht, ea ▸ h4, ea ▸ h2, ?_, ?_⟩
        · have hq' : satisfied q p.fam = true := by simpa using hq
          unfold satisfied at hq'
          have hf : p.fam = .inet ∨ p.fam = .inet6 := by
            rw [← h3]; rcases h2.2 with h | h
            · exact .inl h.1
            · exact .inr h.1
          unfold typeOf
          rcases hf with hf | hf <;> rw [hf] at hq' ⊢ <;> grind
        · unfold forwardParse at hfp
          dsimp only at hfp
          split at hfp
          · cases hfp
          · next hl =>
            simp only [not_or] at hl
            cases n with
            | nil => simp at hl
            | cons l rest =>
              simp only [List.map_cons, List.headD_cons, List.length_map] at hl
              refine ⟨l, rest, rfl, ?_, by omega⟩
              have := Classical.not_not.1 hl.2
              conv => lhs; rw [← this]
              exact List.take_prefix _ _
    · intro m e
      split at e <;> cases e

/-- C56. The name with a synthesized IPv4 address spells it: after the prefix the label, with dots for hyphens, is the address in
decimal numbers without leading zeros (what follows an octet zero in a label is ignored). -/
theorem C56_ipv4_text (le : Bool) (t : Tpl) (hn : GoodNets t) (n : Name) (q : Nat) (raw : Sockaddr.Bytes)
    (h : answer le t n q = .ok (.addr .inet raw)) :
    ∃ l rest a b c d, n = l :: rest ∧ raw = [a, b, c, d] ∧
      ((((l.map lower).drop t.pfx.length).map fun x => if x = 45 then 46 else x).takeWhile fun x => x ≠ 0) =
        decimal a ++ [46] ++ decimal b ++ [46] ++ decimal c ++ [46] ++ decimal d := by
  rcases answer_cases le t hn n q with e | ⟨p, a, h1, _, _, _, ⟨_, _, e⟩ | ⟨_, hfp, e⟩⟩
  · rw [h] at e; cases e
  · rw [h] at e
    have e := Res.ok.inj e
    split at e
    · cases e
    · unfold ptrAns at e; split at e <;> cases e
  · rw [h] at e
    have e := Res.ok.inj e
    split at e
    · cases e
    · simp only [Ans.addr.injEq] at e
      obtain ⟨e1, e2⟩ := e
      unfold forwardParse at hfp
      dsimp only at hfp
      split at hfp
      · cases hfp
      · next hl =>
        simp only [not_or] at hl
        cases hfp
        cases n with
        | nil => simp at hl
        | cons l rest =>
          dsimp only at e1 h1
          rw [← e1] at h1
          simp only [sockaddrSet, Option.map_eq_some_iff] at h1
          obtain ⟨r, hr, rfl⟩ := h1
          obtain ⟨x, y, z, w, k1, k2⟩ := text_address hr
          refine ⟨l, rest, x, y, z, w, rfl, by rw [e2]; exact k1, ?_⟩
          rw [← k2]
          simp only [cstr, subst, sepOf, List.map_cons, List.headD_cons]
          generalize hm : List.map (fun x => if x = 45 then (46 : UInt8) else x) (List.drop (List.length t.pfx) (List.map lower l)) = m
          simp only [reduceCtorEq, if_false, hm]
          exact (takeWhile_end m).symm

/-- C56. Labels longer than three octets are accepted in a reverse name only in the second place (RFC 2317): other names with them,
where the label is among the first four ones and before `in-addr` or `ip6`, have no records. -/
theorem C56_long_labels (le : Bool) (t : Tpl) (ht : t.reverse = true) (hn : GoodNets t) (pre rest : Name) (l : Label) (q : Nat)
    (hp : pre.length ≠ 1 ∧ pre.length < 4) (hl : 3 < l.length) (hpre : ∀ x ∈ pre, 0 < x.length ∧ x.length ≤ 3)
    (hi : ∀ x ∈ l :: pre, x.head? ≠ some 105 ∧ x.head? ≠ some 73) : answer le t (pre ++ l :: rest) q = .ok .miss := by
  have hd : ∀ x ∈ l :: pre, (x.map lower).head? ≠ some 105 := by
    intro x hx h
    cases x with
    | nil => simp at h
    | cons c x =>
      have := hi _ hx
      rcases lower_i c (by simpa using h) with h | h <;> simp [h] at this
  have hr := long_label (l.map lower) (by simpa using hl) (hd l (by simp)) (rest.map fun l => l.map lower)
    (pre.map fun l => l.map lower) 0 true true [] [] (by simpa using hp.1) (by simpa using hp.2) (by
      intro x hx
      obtain ⟨y, hy, rfl⟩ := List.mem_map.1 hx
      exact ⟨by simpa using (hpre y hy).1, by simpa using (hpre y hy).2, hd y (by simp [hy])⟩)
  have hsafe := reverse_safe t ((pre ++ l :: rest).map fun l => l.map lower)
  unfold answer templateMatch
  rw [if_pos ht]
  obtain ⟨r, h1, _⟩ := hsafe
  rw [h1]
  have e : r = none := by
    unfold reverseParse at h1
    rw [List.map_append, List.map_cons] at h1
    rcases hr with h | h <;> rw [h] at h1
    · exact (Res.ok.inj h1).symm
    · cases h1
  rw [e]
  rfl

/-- The examples: the address of a name, and a label in the first and in the second place. -/
example : answer true exampleForward [octets "DYN-10-1-0-255", octets "test"] 1 = .ok (.addr .inet [10, 1, 0, 255]) ∧
    answer true exampleReverse [octets "0-255", octets "0", octets "1", octets "10", octets "in-addr", octets "arpa"] 12 = .ok .miss ∧
    answer true exampleReverse [octets "255", octets "0-255", octets "0", octets "1", octets "10", octets "in-addr", octets "arpa"] 12 =
      .ok (.ptr [octets "dyn-10-1-0-255", octets "test"]) := by decide +kernel

/-- C56. Texts of addresses fit the buffer for them (117 octets on Linux). -/
theorem C56_buffer (t : Tpl) (n : Name) (hl : ∀ l ∈ n, l.length ≤ 63) :
    (∀ p, reverseParse t n = .ok (some p) → p.text.length ≤ 41) ∧ (∀ p, forwardParse t n = some p → p.text.length ≤ 64) := by
  constructor
  · intro p h
    obtain ⟨r, h1, h2⟩ := reverse_safe t n
    rw [h1] at h
    cases h
    exact (h2 p rfl).1
  · intro p h
    unfold forwardParse at h
    dsimp only at h
    split at h
    · cases h
    · cases h
      dsimp only
      rw [List.length_append, subst_length, List.length_drop]
      have : (n.headD []).length ≤ 63 := by
        cases n with
        | nil => simp
        | cons l n => exact hl l (by simp)
      simp only [List.length_cons, List.length_nil]
      omega

/-- C56. Names between a network and the addresses in it exist: a parent of the reverse name of an address that has at least as many
labels as the mask of the network asks for has no data, for every type. -/
theorem C56_parents_partial (le : Bool) (t : Tpl) (ht : t.reverse = true) (hn : GoodNets t) (a : Addr) (ha : IsAddr a) (n : Net)
    (hm : n ∈ t.nets) (hmax : n.max.fam = .unspec) (hfam : n.addr.fam = a.fam)
    (hin : ∀ i < min n.mask (bitLen a.fam), bit a.raw i = bit n.addr.raw i)
    (j : Nat) (h0 : 0 < j) (hj : j ≤ labelsOf a.fam) (hmask : n.mask ≤ bitsOf a.fam * (labelsOf a.fam - j)) (q : Nat) :
    answer le t ((reverseName a).drop j) q = .ok .nodata :=
  parent_answer le t ht hn a ha n hm hmax ⟨hfam, hin⟩ j h0 hj hmask q

/-- The parent of 10.1.0.255 in the example. -/
example : (reverseName example4).drop 2 = [octets "1", octets "10", octets "in-addr", octets "arpa"] ∧
    answer true exampleReverse ((reverseName example4).drop 2) 12 = .ok .nodata := by decide +kernel

/-- C56. Finding: parents of existing names do not exist (NXDOMAIN) if the network is smaller than they are: with the network
10.1.2.0/24, 3.2.1.10.in-addr.arpa has a PTR record, but there is no name 1.10.in-addr.arpa; with a range, the parent does not
exist unless the range begins with zeros. A resolver that follows RFC 8020 then denies the addresses as well. -/
theorem C56_missing_parents :
    let t := { exampleReverse with nets := [⟨⟨.inet, [10, 1, 2, 0], 0⟩, ⟨.unspec, [], 0⟩, 24⟩] }
    let u := { exampleReverse with nets := [⟨⟨.inet6, example6.raw, 0⟩, ⟨.inet6, example6.raw.set 15 9, 0⟩, 128⟩] }
    (∃ n, answer true t (reverseName ⟨.inet, [10, 1, 2, 3], 0⟩) 12 = .ok (.ptr n)) ∧
    answer true t ((reverseName ⟨.inet, [10, 1, 2, 3], 0⟩).drop 2) 12 = .ok .miss ∧
    (∃ n, answer true u (reverseName example6) 12 = .ok (.ptr n)) ∧ answer true u ((reverseName example6).drop 1) 12 = .ok .miss := by
  refine ⟨⟨[octets "dyn-10-1-2-3", octets "test"], by decide +kernel⟩, by decide +kernel,
    ⟨[octets "dyn-2620-0-b61--1", octets "test"], by decide +kernel⟩, by decide +kernel⟩

theorem Synth.lower_not_upper : ∀ n < 256, ¬(65 ≤ lower n.toUInt8 ∧ lower n.toUInt8 ≤ 90) := by decide +kernel

/-- C56. Finding: a forward template whose prefix has a letter in upper case never answers, since the prefix is compared with the
name in lower case. -/
theorem C56_upper_case (le : Bool) (t : Tpl) (ht : t.reverse = false) (c : UInt8) (hc : c ∈ t.pfx) (hu : 65 ≤ c ∧ c ≤ 90) (n : Name)
    (q : Nat) : answer le t n q = .ok .miss := by
  have hnone : forwardParse t (n.map fun l => l.map lower) = none := by
    unfold forwardParse
    dsimp only
    rw [if_pos]
    right
    intro e
    rw [← e] at hc
    have hc := List.mem_of_mem_take hc
    cases n with
    | nil => simp at hc
    | cons l n =>
      simp only [List.map_cons, List.headD_cons] at hc
      obtain ⟨d, _, rfl⟩ := List.mem_map.1 hc
      have := lower_not_upper d.toNat d.toNat_lt
      simp only [Nat.toUInt8_eq, UInt8.ofNat_toNat] at this
      exact this hu
  unfold answer templateMatch
  rw [if_neg (by simp [ht]), hnone]
  rfl

/-- With such a prefix the names of the PTR records have no address. -/
example : answer true { exampleReverse with pfx := octets "Dyn-" } (reverseName example4) 12 =
      .ok (.ptr [octets "Dyn-10-1-0-255", octets "test"]) ∧
    answer true { exampleForward with pfx := octets "Dyn-" } [octets "Dyn-10-1-0-255", octets "test"] 1 = .ok .miss := by decide +kernel

/-- C56. Finding: with the root as origin every query for a PTR record of a network fails. -/
theorem C56_root_origin (le : Bool) (t : Tpl) (ht : t.reverse = true) (hn : GoodNets t) (hz : t.zone = []) (a : Addr) (ha : IsAddr a)
    (hc : Covered le t a) : answer le t (reverseName a) 12 = .ok .servfail := by
  obtain ⟨s, _, h2⟩ := reverse_answer le t ht a ha hn
  rw [(h2 12).2 hc]
  simp [ptrAns, ptrName, hz]

/-- C56. Finding: names that are not names of addresses have records: any number of labels of four to six octets after the first one,
colons and ends of strings in labels of reverse names; addresses written otherwise, and any further labels, in forward names. -/
theorem C56_other_names :
    answer true exampleReverse [octets "5", octets "aaaa", octets "0/25", octets "bcdefg", octets "2", octets "1", octets "10",
      octets "in-addr", octets "arpa"] 12 = .ok (.ptr [octets "dyn-10-1-2-5", octets "test"]) ∧
    answer true exampleReverse ([octets "3", octets "2", octets ":", octets "1"] ++ (reverseName example6).drop 4) 12 =
      .ok (.ptr [octets "dyn-2620-0-b61--1-23", octets "test"]) ∧
    answer true exampleReverse ([53, 0] :: (reverseName example4).drop 1) 12 = .ok (.ptr [octets "dyn-10-1-0-5", octets "test"]) ∧
    answer true exampleForward [octets "dyn-2620:0:b61::1", octets "x", octets "test"] 28 = .ok (.addr .inet6 example6.raw) := by
  decide +kernel

end Knot
