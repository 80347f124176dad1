import Verif.Zonesign.Spec
/-! # Lemmas: time, and the signatures of one RRset -/
namespace Knot.Zonesign
open Knot
open Knot.Dname (Name)

/-! ## Time -/

theorem timeFromU32_eq (u now : Nat) (hu : u < 4294967296) (hn : now < 9223372036854775808)
    (hh : left now u ≠ -2147483648) (h0 : 0 ≤ now + left now u) : (timeFromU32 u now : Int) = now + left now u := by
  unfold timeFromU32
  unfold left at *
  dsimp only
  split
  · omega
  · split <;> omega

theorem timeFromU32_low (now e : Nat) (h1 : now ≤ e) (h2 : e < now + 2147483648) :
    left now (e % 4294967296) = (e : Int) - now := by
  unfold left
  omega

theorem isExpired_iff (s : Sig) (now r : Nat) (hr : r < 4294967296) (hn : now < 9223372036854775808) (ht : Timely now r s) :
    isExpired s now r = false ↔ Fresh now r s := by
  have h1 := timeFromU32_eq s.expiration now ht.bits.1 hn ht.half.1 (by have := ht.expiration; omega)
  have h2 := timeFromU32_eq s.inception now ht.bits.2 hn ht.half.2 ht.inception
  have h3 := ht.expiration
  have h4 : left now s.expiration < 2147483648 := by unfold left; omega
  simp only [isExpired, Fresh, decide_eq_false_iff_not, not_or, Nat.not_le, Nat.not_lt, ge_iff_le]
  rw [Nat.mod_eq_of_lt hr]
  omega

/-- Earlier or the same, where 0 is never. -/
def Le (a b : Nat) : Prop := b ≠ 0 → a ≠ 0 ∧ a ≤ b

theorem Le.refl (a : Nat) : Le a a := fun h => ⟨h, Nat.le_refl _⟩

theorem Le.trans {a b c : Nat} (h1 : Le a b) (h2 : Le b c) : Le a c := by
  intro h
  have := h2 h
  have := h1 this.1
  omega

theorem timeMin_left (a b : Nat) : Le (timeMin a b) a := by
  intro h
  unfold timeMin
  split
  · omega
  · split <;> omega

theorem timeMin_right (a b : Nat) : Le (timeMin a b) b := by
  intro h
  unfold timeMin
  split
  · omega
  · split <;> omega

theorem timeMin_or (a b : Nat) : timeMin a b = a ∨ timeMin a b = b := by
  unfold timeMin
  split
  · omega
  · split <;> omega

theorem NotAfter.mono {now a b u : Nat} (h : Le a b) (h' : NotAfter now b u) : NotAfter now a u := by
  have := h h'.1
  exact ⟨this.1, by have := h'.2; omega⟩

/-! ## Keys and RRsets -/

theorem useKey_iff (ctx : Ctx) (owner : Name) (type : Nat) (k : Key) :
    useKey ctx owner type k = true ↔ Signs ctx.apex owner type k := by
  unfold useKey Signs
  simp only [List.mem_cons, List.not_mem_nil, or_false, ne_eq, ite_not]
  by_cases h : owner = ctx.apex
  · simp only [h, if_true, true_and]
    by_cases h2 : type = 48 ∨ type = 59 ∨ type = 60
    · simp [h2, and_comm]
    · simp [h2, and_comm]
  · simp [h, and_comm]

theorem shouldSign_iff (n : Node) (type : Nat) : shouldSign n type = true ↔ Signable n type := by
  unfold shouldSign Signable
  cases n.nonauth <;> cases n.deleg <;> simp
  omega

theorem matches_iff (k : Key) (r : RRset) (s : Sig) : matches' k r s = true ↔ Names k r s := by
  unfold matches' Names
  simp only [decide_eq_true_eq]
  constructor <;> (rintro ⟨a, b, c⟩; exact ⟨by assumption, by assumption, by assumption⟩)

theorem firstValid_some (C : Crypto) (ctx : Ctx) (owner : Name) (r : RRset) (k : Key) (rf : Nat) (skip : Bool)
    (l : List Sig) (s : Sig) (h : firstValid C ctx owner r k rf skip l = some s) :
    s ∈ l ∧ Names k r s ∧ checkSig C ctx owner r k rf skip s = true := by
  induction l with
  | nil => simp [firstValid] at h
  | cons a l ih =>
    simp only [firstValid] at h
    split at h
    · rename_i hc
      cases h
      simp only [Bool.and_eq_true] at hc
      exact ⟨List.mem_cons_self, (matches_iff _ _ _).1 hc.1, hc.2⟩
    · have := ih h
      exact ⟨List.mem_cons_of_mem _ this.1, this.2⟩

theorem firstValid_none (C : Crypto) (ctx : Ctx) (owner : Name) (r : RRset) (k : Key) (rf : Nat) (skip : Bool)
    (l : List Sig) (h : firstValid C ctx owner r k rf skip l = none) (s : Sig) (hs : s ∈ l) (hn : Names k r s) :
    checkSig C ctx owner r k rf skip s = false := by
  induction l with
  | nil => cases hs
  | cons a l ih =>
    simp only [firstValid] at h
    split at h
    · cases h
    · rename_i hc
      rcases List.mem_cons.1 hs with rfl | hs
      · simp only [Bool.and_eq_true, not_and, Bool.not_eq_true] at hc
        exact hc ((matches_iff _ _ _).2 hn)
      · exact ih h hs

theorem mem_insertSig (l : List Sig) (a s : Sig) : s ∈ insertSig l a ↔ s ∈ l ∨ s = a := by
  unfold insertSig
  split
  · constructor
    · exact .inl
    · rintro (h | rfl) <;> assumption
  · simp

theorem mem_foldl_insertSig (add l : List Sig) (s : Sig) : s ∈ add.foldl insertSig l ↔ s ∈ l ∨ s ∈ add := by
  induction add generalizing l with
  | nil => simp
  | cons a add ih =>
    simp only [List.foldl_cons, ih, mem_insertSig, List.mem_cons]
    grind

theorem mem_covering (t : Nat) (l : List Sig) (s : Sig) : s ∈ covering t l ↔ s ∈ l ∧ s.covered = t := by
  simp [covering]

/-! ## Making a signature -/

theorem serial_lower (now life : Nat) (h : Sane ⟨now, life, rf, prf, false, d, tc, a, ks, off⟩) :
    Serial.serialCompare ((18446744073709551616 + now - 5400) % 18446744073709551616 % 4294967296)
      ((now + life) % 18446744073709551616 % 4294967296) = .ok .lower := by
  have h1 := h.now
  have h2 := h.short
  have h3 := h.lifetime
  dsimp only at h1 h2 h3
  unfold Serial.serialCompare
  dsimp only
  generalize hd : ((18446744073709551616 + now - 5400) % 18446744073709551616 % 4294967296 + 4294967296 -
    (now + life) % 18446744073709551616 % 4294967296) % 4294967296 = d
  have h4 : 2147483648 < d := by omega
  have h5 : d < 4294967296 := by omega
  rw [if_pos (by omega), show d / 2147483648 = 1 by omega]
  rfl

/-- The record made for a key. -/
def made (ctx : Ctx) (owner : Name) (r : RRset) (k : Key) : Sig :=
  ⟨r.type, k.alg, sigLabels owner, r.ttl, (ctx.now + ctx.lifetime) % 4294967296, (ctx.now - 5400) % 4294967296, k.tag,
    ctx.apex, []⟩

theorem signRRset_eq (C : Crypto) (ctx : Ctx) (owner : Name) (r : RRset) (k : Key) (h : Sane ctx) :
    signRRset C ctx owner r k =
      match C.sign k owner r (made ctx owner r k) with
      | none => .err .error
      | some d => .ok ({ made ctx owner r k with signature := d }, ctx.now + ctx.lifetime) := by
  have h1 := h.now
  have h2 := h.short
  have hs := h.safe
  obtain ⟨now, life, rf, prf, us, d, tc, a, ks, off⟩ := ctx
  dsimp only at h1 h2 hs
  subst hs
  have hx := serial_lower now life h
  unfold signRRset
  dsimp only
  rw [hx]
  simp only [Res.bind_ok, ne_eq, not_true_eq_false, if_false, made]
  have e1 : (18446744073709551616 + now - 5400) % 18446744073709551616 % 4294967296 = (now - 5400) % 4294967296 := by omega
  have e2 : (now + life) % 18446744073709551616 = now + life := by omega
  rw [e1, e2]
  cases C.sign k owner r
    ⟨r.type, k.alg, sigLabels owner, r.ttl, (now + life) % 4294967296, (now - 5400) % 4294967296, k.tag, a, []⟩ <;> rfl

theorem made_fresh (ctx : Ctx) (owner : Name) (r : RRset) (k : Key) (d : List UInt8) (h : Sane ctx) :
    Fresh ctx.now (ctx.refresh + ctx.prerefresh) { made ctx owner r k with signature := d } ∧
    left ctx.now (made ctx owner r k).expiration = ctx.lifetime := by
  have h1 := h.now
  have h2 := h.short
  have h3 := h.lifetime
  have e : left ctx.now ((ctx.now + ctx.lifetime) % 4294967296) = ctx.lifetime := by
    unfold left; omega
  refine ⟨⟨?_, ?_⟩, e⟩
  · show ((ctx.refresh + ctx.prerefresh : Nat) : Int) < left ctx.now ((ctx.now + ctx.lifetime) % 4294967296)
    rw [e]; omega
  · show left ctx.now ((ctx.now - 5400) % 4294967296) ≤ 0
    unfold left; omega

/-! ## The signatures of one RRset -/

/-- The existing signature, or else the new one. -/
def pickOf : Option Sig → Res (Sig × Nat) → Option Sig
  | some s, _ => some s
  | none, .ok (s, _) => some s
  | none, _ => none

/-- The signature `add_missing_rrsigs` has for a key: an existing or a new one. -/
def pick (C : Crypto) (ctx : Ctx) (owner : Name) (r : RRset) (sigs : List Sig) (skip : Bool) (k : Key) : Option Sig :=
  pickOf (firstValid C ctx owner r k (margin ctx) skip sigs) (signRRset C ctx owner r k)

theorem margin_eq (ctx : Ctx) (h : Sane ctx) : margin ctx = ctx.refresh + ctx.prerefresh :=
  Nat.mod_eq_of_lt h.refresh

/-- What the loop over the keys does. -/
structure Looped (C : Crypto) (ctx : Ctx) (owner : Name) (r : RRset) (sigs : List Sig) (skip : Bool) (ks : List Key)
    (w0 w : Work) : Prop where
  rem : ∀ s, s ∈ w.rem ↔ s ∈ w0.rem ∧ ∀ k ∈ ks, useKey ctx owner r.type k = true →
    firstValid C ctx owner r k (margin ctx) skip sigs ≠ some s
  add : ∀ s, s ∈ w.add ↔ s ∈ w0.add ∨ ∃ k ∈ ks, useKey ctx owner r.type k = true ∧
    firstValid C ctx owner r k (margin ctx) skip sigs = none ∧
    ∃ e, signRRset C ctx owner r k = .ok (s, e)
  every : ∀ k ∈ ks, useKey ctx owner r.type k = true → (pick C ctx owner r sigs skip k).isSome
  expire0 : Le w.expire w0.expire
  expire : ∀ k ∈ ks, useKey ctx owner r.type k = true →
    (∀ s, firstValid C ctx owner r k (margin ctx) skip sigs = some s →
      Le w.expire (timeFromU32 s.expiration ctx.now)) ∧
    (firstValid C ctx owner r k (margin ctx) skip sigs = none →
      ∀ s e, signRRset C ctx owner r k = .ok (s, e) → Le w.expire e)

theorem keyLoop_spec (C : Crypto) (ctx : Ctx) (owner : Name) (r : RRset) (sigs : List Sig) (skip : Bool)
    (ks : List Key) : ∀ (w0 w : Work), keyLoop C ctx owner r sigs skip ks w0 = .ok w →
      Looped C ctx owner r sigs skip ks w0 w := by
  induction ks with
  | nil =>
    intro w0 w h
    cases h
    exact ⟨by simp, by simp, by simp, Le.refl _, by simp⟩
  | cons k ks ih =>
    intro w0 w h
    simp only [keyLoop] at h
    by_cases hu : useKey ctx owner r.type k = true
    · rw [if_neg (by simp [hu])] at h
      cases hf : firstValid C ctx owner r k (margin ctx) skip sigs with
      | some s0 =>
        rw [hf] at h
        have H := ih _ _ h
        refine ⟨?_, ?_, ?_, ?_, ?_⟩
        · intro s
          rw [H.rem]
          simp only [List.mem_filter, List.mem_cons, forall_eq_or_imp, hf, decide_eq_true_eq, ne_eq]
          grind
        · intro s
          rw [H.add]
          simp only [List.mem_cons, exists_eq_or_imp, hf, reduceCtorEq, false_and, and_false, false_or]
        · intro k' hk'
          rcases List.mem_cons.1 hk' with rfl | hk'
          · intro _; rw [pick, hf]; rfl
          · exact H.every k' hk'
        · exact H.expire0.trans (timeMin_right _ _)
        · intro k' hk'
          rcases List.mem_cons.1 hk' with rfl | hk'
          · intro _
            refine ⟨fun s hs => ?_, fun hs => (by rw [hf] at hs; cases hs)⟩
            rw [hf] at hs
            cases hs
            exact H.expire0.trans (timeMin_left _ _)
          · exact H.expire k' hk'
      | none =>
        rw [hf] at h
        cases hg : signRRset C ctx owner r k with
        | err e => rw [hg] at h; cases h
        | ub => rw [hg] at h; cases h
        | ok x =>
          obtain ⟨s0, e0⟩ := x
          rw [hg] at h
          simp only [Res.bind_ok] at h
          have H := ih _ _ h
          refine ⟨?_, ?_, ?_, ?_, ?_⟩
          · intro s
            rw [H.rem]
            simp only [List.mem_cons, forall_eq_or_imp, hf, ne_eq, reduceCtorEq, not_false_eq_true, implies_true, true_and]
          · intro s
            rw [H.add]
            simp only [List.mem_cons, exists_eq_or_imp, hf, mem_insertSig, hu, hg, true_and, Res.ok.injEq, Prod.mk.injEq]
            constructor
            · rintro ((h1 | rfl) | h1)
              · exact .inl h1
              · exact .inr (.inl ⟨e0, rfl, rfl⟩)
              · exact .inr (.inr h1)
            · rintro (h1 | ⟨e, h1, _⟩ | h1)
              · exact .inl (.inl h1)
              · exact .inl (.inr h1.symm)
              · exact .inr h1
          · intro k' hk'
            rcases List.mem_cons.1 hk' with rfl | hk'
            · intro _; rw [pick, hf, hg]; rfl
            · exact H.every k' hk'
          · exact H.expire0.trans (timeMin_left _ _)
          · intro k' hk'
            rcases List.mem_cons.1 hk' with rfl | hk'
            · intro _
              refine ⟨fun s hs => (by rw [hf] at hs; cases hs), fun _ s e hs => ?_⟩
              rw [hg] at hs
              cases hs
              exact H.expire0.trans (timeMin_right _ _)
            · exact H.expire k' hk'
    · rw [if_pos (by simpa using hu)] at h
      have H := ih _ _ h
      have hu' : useKey ctx owner r.type k = false := by simpa using hu
      refine ⟨?_, ?_, ?_, H.expire0, ?_⟩
      · intro s; rw [H.rem]; simp [hu']
      · intro s; rw [H.add]; simp [hu']
      · intro k' hk'
        rcases List.mem_cons.1 hk' with rfl | hk'
        · intro hx; exact absurd hx hu
        · exact H.every k' hk'
      · intro k' hk'
        rcases List.mem_cons.1 hk' with rfl | hk'
        · intro hx; exact absurd hx hu
        · exact H.expire k' hk'

theorem checkSig_good (C : Crypto) (ctx : Ctx) (owner : Name) (r : RRset) (k : Key) (rf : Nat) (skip : Bool) (s : Sig)
    (hs : ctx.unsafeExpired = false) (hr : rf < 4294967296) (hn : ctx.now < 9223372036854775808) (ht : Timely ctx.now rf s)
    (hskip : skip = true → C.verify k owner r s = true) :
    checkSig C ctx owner r k rf skip s = true ↔ C.verify k owner r s = true ∧ Fresh ctx.now rf s := by
  have hx := isExpired_iff s ctx.now rf hr hn ht
  unfold checkSig
  rw [hs]
  cases he : isExpired s ctx.now rf
  · have hF := hx.1 he
    cases skip
    · simp [hF]
    · simp [hF, hskip rfl]
  · have hF : ¬ Fresh ctx.now rf s := fun hf => by rw [hx.2 hf] at he; cases he
    simp [hF]

/-- The conditions on the existing signatures. -/
structure Known (C : Crypto) (ctx : Ctx) (owner : Name) (r : RRset) (sigs : List Sig) (skip : Bool) : Prop where
  timely : ∀ s ∈ sigs, Timely ctx.now (ctx.refresh + ctx.prerefresh) s
  flag : skip = true → ∀ k ∈ ctx.keys, Signs ctx.apex owner r.type k → ∀ s ∈ sigs, Names k r s → C.verify k owner r s = true

theorem pick_good (C : Crypto) (ctx : Ctx) (owner : Name) (r : RRset) (sigs : List Sig) (skip : Bool) (k : Key) (s : Sig)
    (hS : Sane ctx) (hC : Sound C) (hK : Known C ctx owner r sigs skip) (hk : k ∈ ctx.keys) (hu : Signs ctx.apex owner r.type k)
    (h : pick C ctx owner r sigs skip k = some s) :
    Good C ctx.now (ctx.refresh + ctx.prerefresh) owner r k s := by
  have hr := hS.refresh
  unfold pick at h
  rw [margin_eq ctx hS] at h
  cases hf : firstValid C ctx owner r k (ctx.refresh + ctx.prerefresh) skip sigs with
  | some s0 =>
    rw [hf] at h
    cases h
    obtain ⟨h1, h2, h3⟩ := firstValid_some _ _ _ _ _ _ _ _ _ hf
    rw [checkSig_good C ctx owner r k _ skip s hS.safe hr hS.now.2 (hK.timely s h1)
      (fun hsk => hK.flag hsk k hk hu s h1 h2)] at h3
    exact ⟨h2, h3.1, h3.2⟩
  | none =>
    rw [hf, signRRset_eq C ctx owner r k hS] at h
    dsimp only at h
    cases hc : C.sign k owner r (made ctx owner r k) with
    | none => rw [hc] at h; cases h
    | some d =>
      rw [hc] at h
      cases h
      exact ⟨⟨rfl, rfl, rfl⟩, hC _ _ _ _ _ hc, (made_fresh ctx owner r k d hS).1⟩

/-- What is done to the signatures of one RRset that is to be signed: `off` are the offline ones. -/
structure Did (C : Crypto) (ctx : Ctx) (owner : Name) (r : RRset) (sigs : List Sig) (skip : Bool) (e : Nat)
    (old rm ad : List Sig) : Prop where
  rem : ∀ s ∈ rm, s ∈ old ∧ s.covered = r.type
  add : ∀ s ∈ ad, s.covered = r.type
  every : ∀ k ∈ ctx.keys, Signs ctx.apex owner r.type k →
    ∃ s, pick C ctx owner r sigs skip k = some s ∧ (s ∈ ad ∨ (s ∈ old ∧ s ∉ rm)) ∧ NotAfter ctx.now e s.expiration
  only : ∀ s, s.covered = r.type → (s ∈ ad ∨ (s ∈ old ∧ s ∉ rm)) →
    (∃ k ∈ ctx.keys, Signs ctx.apex owner r.type k ∧ pick C ctx owner r sigs skip k = some s) ∨
    (owner = ctx.apex ∧ s ∈ ctx.offline)
  offline : owner = ctx.apex → ∀ s ∈ ctx.offline, s.covered = r.type → (s ∈ ad ∨ (s ∈ old ∧ s ∉ rm))

theorem addMissing_did (C : Crypto) (ctx : Ctx) (owner : Name) (r : RRset) (sigs : List Sig) (skip : Bool) (e0 : Nat) (w : Work)
    (hS : Sane ctx) (hC : Sound C) (hK : Known C ctx owner r sigs skip)
    (h : addMissing C ctx owner r sigs skip e0 = .ok w) :
    Did C ctx owner r sigs skip w.expire sigs w.rem w.add ∧ Le w.expire e0 := by
  have H := keyLoop_spec _ _ _ _ _ _ _ _ _ h
  have hr := hS.refresh
  have hpick : ∀ k s, firstValid C ctx owner r k (margin ctx) skip sigs = some s →
      pick C ctx owner r sigs skip k = some s := by
    intro k s hf; rw [pick, hf]; rfl
  have hoffm : ∀ s, s ∈ (if owner = ctx.apex then covering r.type ctx.offline else []) ↔
      owner = ctx.apex ∧ s ∈ ctx.offline ∧ s.covered = r.type := by
    intro s
    split
    · rename_i ho; rw [mem_covering]; simp [ho]
    · rename_i ho; simp [ho]
  have hrem : ∀ s, s ∈ w.rem ↔ (s ∈ sigs ∧ s.covered = r.type ∧ ¬ (owner = ctx.apex ∧ s ∈ ctx.offline)) ∧
      ∀ k ∈ ctx.keys, useKey ctx owner r.type k = true →
        firstValid C ctx owner r k (margin ctx) skip sigs ≠ some s := by
    intro s
    rw [H.rem]
    simp only [initWork, List.mem_filter, decide_eq_true_eq, mem_covering]
    rw [hoffm]
    grind
  have hadd : ∀ s, s ∈ w.add ↔ (owner = ctx.apex ∧ s ∈ ctx.offline ∧ s.covered = r.type ∧ s ∉ sigs) ∨
      ∃ k ∈ ctx.keys, useKey ctx owner r.type k = true ∧
        firstValid C ctx owner r k (margin ctx) skip sigs = none ∧
        ∃ e, signRRset C ctx owner r k = .ok (s, e) := by
    intro s
    rw [H.add]
    simp only [initWork, List.mem_filter, decide_eq_true_eq]
    rw [hoffm]
    grind
  have hmade : ∀ k s e, firstValid C ctx owner r k (margin ctx) skip sigs = none →
      signRRset C ctx owner r k = .ok (s, e) → pick C ctx owner r sigs skip k = some s := by
    intro k s e hf hg; rw [pick, hf, hg]; rfl
  refine ⟨⟨?_, ?_, ?_, ?_, ?_⟩, H.expire0⟩
  · intro s hs
    have := (hrem s).1 hs
    exact ⟨this.1.1, this.1.2.1⟩
  · intro s hs
    rcases (hadd s).1 hs with h1 | ⟨k, hk, hu, hf, e, hg⟩
    · exact h1.2.2.1
    · exact (pick_good C ctx owner r sigs skip k s hS hC hK hk ((useKey_iff ..).1 hu) (hmade k s e hf hg)).1.1
  · intro k hk hsg
    have hu := (useKey_iff ctx owner r.type k).2 hsg
    have hsome := H.every k hk hu
    have hex := H.expire k hk hu
    cases hf : firstValid C ctx owner r k (margin ctx) skip sigs with
    | some s =>
      have hm := firstValid_some _ _ _ _ _ _ _ _ _ hf
      refine ⟨s, hpick k s hf, .inr ⟨hm.1, fun hx => ((hrem s).1 hx).2 k hk hu hf⟩, ?_⟩
      have ht := hK.timely s hm.1
      have hteq := timeFromU32_eq s.expiration ctx.now ht.bits.1 hS.now.2 ht.half.1 (by have := ht.expiration; omega)
      refine NotAfter.mono (hex.1 s hf) ⟨?_, ?_⟩
      · have := ht.expiration; omega
      · omega
    | none =>
      cases hg : signRRset C ctx owner r k with
      | ok x =>
        obtain ⟨s, e⟩ := x
        refine ⟨s, hmade k s e hf hg, .inl ((hadd s).2 (.inr ⟨k, hk, hu, hf, e, hg⟩)), ?_⟩
        refine NotAfter.mono (hex.2 hf s e hg) ?_
        rw [signRRset_eq C ctx owner r k hS] at hg
        cases hc : C.sign k owner r (made ctx owner r k) with
        | none => rw [hc] at hg; cases hg
        | some d =>
          rw [hc] at hg
          cases hg
          have := (made_fresh ctx owner r k d hS).2
          refine ⟨by have := hS.now; omega, ?_⟩
          show _ ≤ _ + left ctx.now (made ctx owner r k).expiration
          rw [this]
          omega
      | err e => rw [pick, hf, hg] at hsome; cases hsome
      | ub => rw [pick, hf, hg] at hsome; cases hsome
  · intro s hsc hs
    rcases hs with hs | ⟨hs, hn⟩
    · rcases (hadd s).1 hs with h1 | ⟨k, hk, hu, hf, e, hg⟩
      · exact .inr ⟨h1.1, h1.2.1⟩
      · exact .inl ⟨k, hk, (useKey_iff ..).1 hu, hmade k s e hf hg⟩
    · by_cases ho : owner = ctx.apex ∧ s ∈ ctx.offline
      · exact .inr ho
      · left
        by_cases hx : ∃ k ∈ ctx.keys, useKey ctx owner r.type k = true ∧
            firstValid C ctx owner r k (margin ctx) skip sigs = some s
        · obtain ⟨k, hk, hu, hf⟩ := hx
          exact ⟨k, hk, (useKey_iff ..).1 hu, hpick k s hf⟩
        · exact absurd ((hrem s).2 ⟨⟨hs, hsc, ho⟩, fun k hk hu hf => hx ⟨k, hk, hu, hf⟩⟩) hn
  · intro ho s hs hsc
    by_cases hm : s ∈ sigs
    · exact .inr ⟨hm, fun hx => ((hrem s).1 hx).1.2.2 ⟨ho, hs⟩⟩
    · exact .inl ((hadd s).2 (.inl ⟨ho, hs, hsc, hm⟩))

end Knot.Zonesign
