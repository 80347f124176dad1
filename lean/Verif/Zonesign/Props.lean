import Verif.Zonesign.Lemmas5
/-!
# C48: a signed zone has fresh, correct signatures of exactly the right RRsets; validation accepts exactly such zones
-/
namespace Knot
open Knot.Zonesign
open Knot.Dname (Name)

/-! ## Time -/

/-- **C48.** A signature is taken as expired exactly if in serial number arithmetic it ends within the given time or has not
begun, as long as no time lies before the start of the epoch. -/
theorem C48_expired (s : Sig) (now r : Nat) (hr : r < 4294967296) (hn : now < 9223372036854775808) (ht : Timely now r s) :
    isExpired s now r = true ↔ ¬ Fresh now r s := by
  have := isExpired_iff s now r hr hn ht
  cases h : isExpired s now r <;> simp_all

/-- **C48, finding:** until 2038, a signature whose expiration field lies more than 2^31 seconds ahead (in serial number
arithmetic: which expired before 1970) does not count as expired, and never causes a new one to be made. -/
theorem C48_expired_wraps (s : Sig) (now r : Nat) (hn : now < 2147483648) (h1 : now + 2147483648 ≤ s.expiration)
    (h2 : s.expiration < 4294967296) (hi : s.inception ≤ now) (hr : r < 4294967296) :
    ¬ Fresh now r s ∧ isExpired s now r = false := by
  constructor
  · rintro ⟨h, _⟩
    unfold left at h
    omega
  · have e1 : timeFromU32 s.expiration now = 18446744069414584320 + s.expiration := by
      unfold timeFromU32
      dsimp only
      rw [if_neg (by omega), if_pos (by omega)]
      omega
    have e2 : timeFromU32 s.inception now = s.inception := by
      unfold timeFromU32
      dsimp only
      rw [if_neg (by omega), if_neg (by omega)]
      omega
    unfold isExpired
    rw [e1, e2, Nat.mod_eq_of_lt hr]
    simp only [decide_eq_false_iff_not, not_or]
    omega

/-- **C48, finding:** the same holds of a signature that expired in 1970, no more than the refresh time after the start. -/
theorem C48_expired_early (s : Sig) (now r : Nat) (hn : now < 2147483648) (h1 : s.expiration < r) (h2 : s.expiration ≤ now)
    (hi : s.inception ≤ now) (hr : r < 4294967296) :
    ¬ Fresh now r s ∧ isExpired s now r = false := by
  constructor
  · rintro ⟨h, _⟩
    unfold left at h
    omega
  · have e1 : timeFromU32 s.expiration now = s.expiration := by
      unfold timeFromU32
      dsimp only
      rw [if_neg (by omega), if_neg (by omega)]
      omega
    have e2 : timeFromU32 s.inception now = s.inception := by
      unfold timeFromU32
      dsimp only
      rw [if_neg (by omega), if_neg (by omega)]
      omega
    unfold isExpired
    rw [e1, e2, Nat.mod_eq_of_lt hr]
    simp only [decide_eq_false_iff_not, not_or]
    omega

/-! ## Signing -/

/-- The parts of nodes that signing does not touch. -/
abbrev Unsigned (n : Node) : Name × Bool × Bool × List RRset := (n.owner, n.deleg, n.nonauth, n.rrsets)

private theorem signed_flag (C : Crypto) (ctx : Ctx) (n : Node) (v : Bool) (h : Signed C ctx n) :
    Signed C ctx { n with verified := v } := ⟨h.all, h.only, h.offline⟩

private theorem mem_setSigned (whole : Bool) (ns : List Node) (n : Node) (h : n ∈ setSigned whole ns) :
    ∃ n' ∈ ns, ∃ v, n = { n' with verified := v } := by
  obtain ⟨n', h1, h2⟩ := List.mem_map.1 h
  split at h2
  · exact ⟨n', h1, true, h2.symm⟩
  · exact ⟨n', h1, n'.verified, h2.symm⟩

private theorem signZone_inv (C : Crypto) (ctx : Ctx) (num : Nat) (whole : Bool) (nodes nsec3 a b : List Node) (e : Nat) :
    signZone C ctx num whole nodes nsec3 = .ok (a, b, e) ↔
      0 < num ∧ ∃ a' b' e1 e2, signTree C ctx num nodes = .ok (a', e1) ∧ signTree C ctx num nsec3 = .ok (b', e2) ∧
        a = setSigned whole a' ∧ b = setSigned whole b' ∧ e = timeMin e1 e2 := by
  unfold signZone
  by_cases hn : num < 1
  · rw [if_pos hn]
    constructor
    · intro h; cases h
    · intro h; omega
  · rw [if_neg hn]
    constructor
    · intro h
      cases h1 : signTree C ctx num nodes with
      | err e => rw [h1] at h; cases h
      | ub => rw [h1] at h; cases h
      | ok x =>
        cases h2 : signTree C ctx num nsec3 with
        | err e => rw [h1, h2] at h; cases h
        | ub => rw [h1, h2] at h; cases h
        | ok y =>
          rw [h1, h2] at h
          cases h
          exact ⟨by omega, _, _, _, _, rfl, rfl, rfl, rfl, rfl⟩
    · rintro ⟨_, a', b', e1, e2, h1, h2, rfl, rfl, rfl⟩
      rw [h1, h2]
      rfl

private theorem tree_unsigned (C : Crypto) (ctx : Ctx) (num : Nat) (hn : 0 < num) (whole : Bool) (nodes ns : List Node) (e : Nat)
    (h : signTree C ctx num nodes = .ok (ns, e)) : (setSigned whole ns).map Unsigned = nodes.map Unsigned := by
  obtain ⟨_, rfl, _⟩ := (signTree_iff C ctx num hn nodes ns e).1 h
  unfold setSigned
  simp only [List.map_map]
  apply List.map_congr_left
  intro n _
  have hf := applyWork_fields n (workOf C ctx n)
  simp only [Function.comp_apply, Unsigned]
  split
  · simp only [hf]
  · simp only [hf]

/-- **C48.** When a zone has been signed, no other records have changed, and every node is signed: each RRset to be signed
has, by each key that is to sign it, a signature that verifies, has begun and expires after more than the refresh time;
there are no other signatures except those made offline. The expiration reported is not after that of any signature made
or kept. -/
theorem C48_signed (C : Crypto) (ctx : Ctx) (num : Nat) (whole : Bool) (nodes nsec3 a b : List Node) (e : Nat)
    (hS : Sane ctx) (hC : Sound C) (hR : ∀ n ∈ nodes ++ nsec3, Ready C ctx n)
    (h : signZone C ctx num whole nodes nsec3 = .ok (a, b, e)) :
    a.map Unsigned = nodes.map Unsigned ∧ b.map Unsigned = nsec3.map Unsigned ∧
    ∀ n ∈ a ++ b, Signed C ctx n ∧
      ∀ s ∈ n.sigs, (n.owner = ctx.apex ∧ s ∈ ctx.offline) ∨ NotAfter ctx.now e s.expiration := by
  obtain ⟨hn, a', b', e1, e2, h1, h2, rfl, rfl, rfl⟩ := (signZone_inv ..).1 h
  refine ⟨tree_unsigned C ctx num hn whole nodes a' e1 h1, tree_unsigned C ctx num hn whole nsec3 b' e2 h2, ?_⟩
  have tree : ∀ (l l' : List Node) (x : Nat), (∀ n ∈ l, Ready C ctx n) → signTree C ctx num l = .ok (l', x) →
      Le (timeMin e1 e2) x → ∀ n ∈ setSigned whole l', Signed C ctx n ∧
        ∀ s ∈ n.sigs, (n.owner = ctx.apex ∧ s ∈ ctx.offline) ∨ NotAfter ctx.now (timeMin e1 e2) s.expiration := by
    intro l l' x hRl hl hx n hnm
    obtain ⟨n', hn', v, rfl⟩ := mem_setSigned _ _ _ hnm
    obtain ⟨g1, rfl, g3⟩ := (signTree_iff C ctx num hn l l' x).1 hl
    obtain ⟨n0, hn0, rfl⟩ := List.mem_map.1 hn'
    obtain ⟨w, hw⟩ := g1 n0 hn0
    have hwo := workOf_eq C ctx n0 w hw
    have hR0 := hRl n0 hn0
    have hD := signNode_done C ctx n0 w hS hC hR0 hw
    have hSg := signNode_signed C ctx n0 w hS hC hR0 hw
    obtain ⟨f1, f2, _⟩ := done_facts C ctx n0 w hD
    have hle : Le (timeMin e1 e2) w.expire := by
      have := g3.le _ ⟨n0, hn0, rfl⟩
      rw [hwo] at this
      exact hx.trans this
    rw [hwo]
    refine ⟨signed_flag C ctx _ v hSg, ?_⟩
    intro s hs
    dsimp only at hs ⊢
    rw [(applyWork_fields n0 w).1]
    obtain ⟨r, hr, hsn, hc, hp⟩ := f2 s hs
    rcases hp with ⟨k, hk, hsg, hp⟩ | hp
    · obtain ⟨s', _, hp', hna⟩ := f1 r hr hsn k hk hsg
      rw [hp] at hp'
      cases hp'
      exact .inr (hna.mono hle)
    · exact .inl hp
  intro n hnm
  rcases List.mem_append.1 hnm with hnm | hnm
  · exact tree nodes a' e1 (fun n hn => hR n (List.mem_append_left _ hn)) h1 (timeMin_left _ _) n hnm
  · exact tree nsec3 b' e2 (fun n hn => hR n (List.mem_append_right _ hn)) h2 (timeMin_right _ _) n hnm

/-- **C48.** The result does not depend on the number of threads. -/
theorem C48_threads (C : Crypto) (ctx : Ctx) (num num' : Nat) (hn : 0 < num) (hn' : 0 < num') (whole : Bool)
    (nodes nsec3 a b : List Node) (e : Nat) :
    signZone C ctx num whole nodes nsec3 = .ok (a, b, e) ↔ signZone C ctx num' whole nodes nsec3 = .ok (a, b, e) := by
  simp only [signZone_inv, signTree_iff C ctx num hn, signTree_iff C ctx num' hn', hn, hn']

private theorem threadRun_defined (C : Crypto) (ctx : Ctx) (num i : Nat) (hS : Sane ctx) (ns : List Node) :
    ∀ c, threadRun C ctx num i c ns ≠ .ub := by
  induction ns with
  | nil => intro c; simp [threadRun]
  | cons n ns ih =>
    intro c
    simp only [threadRun]
    split
    · have := ih c
      cases h : threadRun C ctx num i c ns <;> simp_all
    · split
      · have := ih (c + 1)
        cases h : threadRun C ctx num i (c + 1) ns <;> simp_all
      · have h1 := (signNode_defined C ctx n hS).1
        have := ih (c + 1)
        cases h0 : signNode C ctx n with
        | ub => exact absurd h0 h1
        | err e => simp
        | ok w =>
          simp only [Res.bind_ok]
          cases h : threadRun C ctx num i (c + 1) ns <;> simp_all

private theorem collect_defined (C : Crypto) (ctx : Ctx) (num : Nat) (hS : Sane ctx) (orig : List Node) (is : List Nat) :
    ∀ ns e, collect C ctx num orig is ns e ≠ .ub := by
  induction is with
  | nil => intro ns e; simp [collect]
  | cons i is ih =>
    intro ns e
    simp only [collect]
    have := threadRun_defined C ctx num i hS orig 0
    cases h : threadRun C ctx num i 0 orig with
    | ub => exact absurd h this
    | err e => simp
    | ok ws => exact ih _ _

/-- **C48.** Signing does not fail an assertion, and succeeds if every single signature can be made. -/
theorem C48_defined (C : Crypto) (ctx : Ctx) (num : Nat) (whole : Bool) (nodes nsec3 : List Node) (hS : Sane ctx) :
    signZone C ctx num whole nodes nsec3 ≠ .ub ∧
    (0 < num → (∀ k o r h, (C.sign k o r h).isSome) → ∃ x, signZone C ctx num whole nodes nsec3 = .ok x) := by
  constructor
  · unfold signZone
    split
    · simp
    · have h1 := collect_defined C ctx num hS nodes (List.range num) nodes 0
      have h2 := collect_defined C ctx num hS nsec3 (List.range num) nsec3 0
      cases g1 : signTree C ctx num nodes with
      | ub => exact absurd g1 h1
      | err e => simp
      | ok x =>
        cases g2 : signTree C ctx num nsec3 with
        | ub => exact absurd g2 h2
        | err e => simp
        | ok y => simp
  · intro hn hc
    have tree : ∀ l : List Node, ∃ x y, signTree C ctx num l = .ok (x, y) := by
      intro l
      have H := collect_spec C ctx num l (List.range num) [] 0 _ List.nodup_range (by simp) isMin_zero
      have hid : (owners num 0 l).map (fun p =>
          if ∃ i ∈ ([] : List Nat), p.2 = some i then applyWork p.1 (workOf C ctx p.1) else p.1) = l := by
        simp [owners_fst]
      rw [hid] at H
      exact H.1.2 (fun p _ _ _ _ => (signNode_defined C ctx p.1 hS).2 hc)
    obtain ⟨a, e1, h1⟩ := tree nodes
    obtain ⟨b, e2, h2⟩ := tree nsec3
    exact ⟨_, (signZone_inv ..).2 ⟨hn, a, b, e1, e2, h1, h2, rfl, rfl, rfl⟩⟩

/-- **C48.** After signing, the mark "signatures verified" is right, wherever it has been set. -/
theorem C48_flag (C : Crypto) (ctx : Ctx) (num : Nat) (whole : Bool) (nodes nsec3 a b : List Node) (e : Nat)
    (hS : Sane ctx) (hC : Sound C) (hR : ∀ n ∈ nodes ++ nsec3, Ready C ctx n) (hT : Tags ctx) (hA : Apart ctx)
    (h : signZone C ctx num whole nodes nsec3 = .ok (a, b, e)) : ∀ n ∈ a ++ b, Flagged C ctx n ∧ Proper n := by
  obtain ⟨u1, u2, hs⟩ := C48_signed C ctx num whole nodes nsec3 a b e hS hC hR h
  intro n hn
  have hP : Proper n := by
    have hu : (a ++ b).map Unsigned = (nodes ++ nsec3).map Unsigned := by simp [u1, u2]
    have : Unsigned n ∈ (nodes ++ nsec3).map Unsigned := hu ▸ List.mem_map_of_mem hn
    obtain ⟨n0, h0, he⟩ := List.mem_map.1 this
    have hrr : n0.rrsets = n.rrsets := by
      have := congrArg (fun x : Name × Bool × Bool × List RRset => x.2.2.2) he
      exact this
    have := (hR n0 h0).proper
    exact ⟨hrr ▸ this.types, hrr ▸ this.rrsig⟩
  refine ⟨?_, hP⟩
  intro _ hc r hr hsn k hk hsg s hsm hnm
  obtain ⟨r', hr', hsn', hcov, hx⟩ := (hs n hn).1.only s hsm
  have he : r' = r := type_inj n hP r' r hr' hr (by rw [← hcov, hnm.1])
  subst he
  rcases hx with ⟨k', hk', hsg', hg⟩ | ⟨ho, hoff⟩
  · have := hT hc k hk k' hk' (by rw [← hnm.2.1, hg.1.2.1]) (by rw [← hnm.2.2, hg.1.2.2])
    rw [this]
    exact hg.2.1
  · rw [ho] at hsg
    exact absurd hnm (hA s hoff k hk r' hsg)

/-- The mark of a node after signing: set if the whole zone was signed or the node changed, now or before; else as it was. -/
private theorem mark_tree (C : Crypto) (ctx : Ctx) (num : Nat) (whole : Bool) (nodes ns : List Node) (e : Nat) (hn : 0 < num)
    (h : signTree C ctx num nodes = .ok (ns, e)) : ∀ (i : Nat) (n n' : Node), nodes[i]? = some n → (setSigned whole ns)[i]? = some n' →
      ((n'.touched = true ↔ n.touched = true ∨ n'.touched ≠ n.touched) ∧ (n'.sigs ≠ n.sigs → n'.touched = true)) ∧
      (n'.verified = true ↔ whole = true ∨ n'.touched = true ∨ n.verified = true) := by
  intro i n n' h1 h2
  obtain ⟨_, rfl, _⟩ := (signTree_iff C ctx num hn nodes ns e).1 h
  unfold setSigned at h2
  simp only [List.map_map, List.getElem?_map, h1, Option.map_some, Option.some.injEq, Function.comp_apply] at h2
  have hw : ∀ w, (applyWork n w = n) ∨ (applyWork n w).touched = true := by
    intro w
    unfold applyWork
    split
    · exact .inl rfl
    · exact .inr rfl
  subst h2
  rcases hw (workOf C ctx n) with h | h
  · rw [h]
    cases whole <;> cases ht : n.touched <;> simp [ht]
  · simp only [h, Bool.or_true, if_true]
    simp

/-- **C48.** Which nodes are marked "signatures verified" after signing: all if the whole zone was signed, else those that
were marked and those that changed, in this update or by this signing; and a node whose signatures differ has changed. -/
theorem C48_mark (C : Crypto) (ctx : Ctx) (num : Nat) (whole : Bool) (nodes nsec3 a b : List Node) (e : Nat)
    (h : signZone C ctx num whole nodes nsec3 = .ok (a, b, e)) (i : Nat) (n n' : Node)
    (hi : nodes[i]? = some n ∧ a[i]? = some n' ∨ nsec3[i]? = some n ∧ b[i]? = some n') :
    (n.touched = true ∨ n'.sigs ≠ n.sigs → n'.touched = true) ∧
    (n'.verified = true ↔ whole = true ∨ n'.touched = true ∨ n.verified = true) := by
  obtain ⟨hn, a', b', e1, e2, h1, h2, rfl, rfl, rfl⟩ := (signZone_inv ..).1 h
  have key : ((n'.touched = true ↔ n.touched = true ∨ n'.touched ≠ n.touched) ∧ (n'.sigs ≠ n.sigs → n'.touched = true)) ∧
      (n'.verified = true ↔ whole = true ∨ n'.touched = true ∨ n.verified = true) := by
    rcases hi with ⟨k1, k2⟩ | ⟨k1, k2⟩
    · exact mark_tree C ctx num whole nodes a' e1 hn h1 i n n' k1 k2
    · exact mark_tree C ctx num whole nsec3 b' e2 hn h2 i n n' k1 k2
  exact ⟨fun h => h.elim (fun h => key.1.1.mpr (.inl h)) key.1.2, key.2⟩

/-- **C48.** A zone that is signed already, with one signature by key and RRset, is left alone: all nodes keep their
signatures. -/
theorem C48_idle (C : Crypto) (ctx : Ctx) (num : Nat) (whole : Bool) (nodes nsec3 : List Node) (hn : 0 < num)
    (hS : Sane ctx) (hd : ctx.dropExisting = false) (hR : ∀ n ∈ nodes ++ nsec3, Ready C ctx n)
    (hG : ∀ n ∈ nodes ++ nsec3, Signed C ctx n ∧ Minimal C ctx n) :
    ∃ e, signZone C ctx num whole nodes nsec3 = .ok (setSigned whole nodes, setSigned whole nsec3, e) := by
  have tree : ∀ l : List Node, (∀ n ∈ l, Ready C ctx n) → (∀ n ∈ l, Signed C ctx n ∧ Minimal C ctx n) →
      ∃ e, signTree C ctx num l = .ok (l, e) := by
    intro l hRl hGl
    have hall : ∀ n ∈ l, ∃ w, signNode C ctx n = .ok w ∧ applyWork n w = n := fun n hnm =>
      signNode_idle C ctx n hS (hRl n hnm) (hGl n hnm).1 (hGl n hnm).2 hd
    have H := collect_spec C ctx num l (List.range num) [] 0 _ List.nodup_range (by simp) isMin_zero
    have hid : (owners num 0 l).map (fun p =>
        if ∃ i ∈ ([] : List Nat), p.2 = some i then applyWork p.1 (workOf C ctx p.1) else p.1) = l := by
      simp [owners_fst]
    rw [hid] at H
    obtain ⟨ns, e, h⟩ := H.1.2 (fun p hp _ _ _ => by
      have : p.1 ∈ l := by
        have := List.mem_map_of_mem (f := (·.1)) hp
        rw [owners_fst] at this
        exact this
      obtain ⟨w, hw, _⟩ := hall p.1 this
      exact ⟨w, hw⟩)
    obtain ⟨_, rfl, _⟩ := (signTree_iff C ctx num hn l ns e).1 h
    refine ⟨e, h.trans ?_⟩
    congr 2
    have : l.map (fun n => applyWork n (workOf C ctx n)) = l.map id := by
      apply List.map_congr_left
      intro n hnm
      obtain ⟨w, hw, hw'⟩ := hall n hnm
      rw [workOf_eq C ctx n w hw, hw']
      rfl
    rw [this, List.map_id]
  obtain ⟨e1, h1⟩ := tree nodes (fun n h => hR n (List.mem_append_left _ h)) (fun n h => hG n (List.mem_append_left _ h))
  obtain ⟨e2, h2⟩ := tree nsec3 (fun n h => hR n (List.mem_append_right _ h)) (fun n h => hG n (List.mem_append_right _ h))
  exact ⟨timeMin e1 e2, (signZone_inv ..).2 ⟨hn, _, _, e1, e2, h1, h2, rfl, rfl, rfl⟩⟩

/-- **C48.** After signing there is one signature by key and RRset (if no signature verifies by two keys and offline
signatures are by other keys). -/
theorem C48_minimal (C : Crypto) (ctx : Ctx) (num : Nat) (whole : Bool) (nodes nsec3 a b : List Node) (e : Nat)
    (hS : Sane ctx) (hC : Sound C) (hR : ∀ n ∈ nodes ++ nsec3, Ready C ctx n) (hE : Exclusive C ctx) (hA : Apart ctx)
    (h : signZone C ctx num whole nodes nsec3 = .ok (a, b, e)) : ∀ n ∈ a ++ b, Minimal C ctx n := by
  obtain ⟨hn, a', b', e1, e2, h1, h2, rfl, rfl, rfl⟩ := (signZone_inv ..).1 h
  have tree : ∀ (l l' : List Node) (x : Nat), (∀ n ∈ l, Ready C ctx n) → signTree C ctx num l = .ok (l', x) →
      ∀ n ∈ setSigned whole l', Minimal C ctx n := by
    intro l l' x hRl hl n hnm
    obtain ⟨n', hn', v, rfl⟩ := mem_setSigned _ _ _ hnm
    obtain ⟨g1, rfl, _⟩ := (signTree_iff C ctx num hn l l' x).1 hl
    obtain ⟨n0, hn0, rfl⟩ := List.mem_map.1 hn'
    obtain ⟨w, hw⟩ := g1 n0 hn0
    have := signNode_minimal C ctx n0 w hS hC (hRl n0 hn0) hE hA hw
    rw [← workOf_eq C ctx n0 w hw] at this
    exact this
  intro n hnm
  rcases List.mem_append.1 hnm with hnm | hnm
  · exact tree nodes a' e1 (fun n hn => hR n (List.mem_append_left _ hn)) h1 n hnm
  · exact tree nsec3 b' e2 (fun n hn => hR n (List.mem_append_right _ hn)) h2 n hnm

private theorem fresh_timely (ctx : Ctx) (s : Sig) (hS : Sane ctx) (hb : s.expiration < 4294967296 ∧ s.inception < 4294967296)
    (hf : Fresh ctx.now (ctx.refresh + ctx.prerefresh) s) (hi : left ctx.now s.inception ≠ -2147483648 ∧ 0 ≤ ctx.now + left ctx.now s.inception) :
    Timely ctx.now (ctx.refresh + ctx.prerefresh) s := by
  have := hf.1
  have := hS.now
  exact ⟨hb, ⟨by omega, hi.1⟩, ⟨by omega, by omega⟩, hi.2⟩

/-- **C48.** Signing again at the same time changes no signature, whatever was asked for the first time. -/
theorem C48_again (C : Crypto) (ctx : Ctx) (num num' : Nat) (whole whole' : Bool) (nodes nsec3 a b : List Node) (e : Nat)
    (hS : Sane ctx) (hC : Sound C) (hR : ∀ n ∈ nodes ++ nsec3, Ready C ctx n) (hT : Tags ctx) (hE : Exclusive C ctx)
    (hA : Apart ctx) (hO : ∀ s ∈ ctx.offline, Timely ctx.now (ctx.refresh + ctx.prerefresh) s) (hn : 0 < num')
    (h : signZone C ctx num whole nodes nsec3 = .ok (a, b, e)) :
    ∃ e', signZone C { ctx with dropExisting := false } num' whole' a b = .ok (setSigned whole' a, setSigned whole' b, e') := by
  have hsg := (C48_signed C ctx num whole nodes nsec3 a b e hS hC hR h).2.2
  have hfl := C48_flag C ctx num whole nodes nsec3 a b e hS hC hR hT hA h
  have hmi := C48_minimal C ctx num whole nodes nsec3 a b e hS hC hR hE hA h
  have htm : ∀ n ∈ a ++ b, ∀ s ∈ n.sigs, Timely ctx.now (ctx.refresh + ctx.prerefresh) s := by
    obtain ⟨hn, a', b', e1, e2, h1, h2, rfl, rfl, rfl⟩ := (signZone_inv ..).1 h
    have tree : ∀ (l l' : List Node) (x : Nat), (∀ n ∈ l, Ready C ctx n) → signTree C ctx num l = .ok (l', x) →
        ∀ n ∈ setSigned whole l', ∀ s ∈ n.sigs, Timely ctx.now (ctx.refresh + ctx.prerefresh) s := by
      intro l l' x hRl hl n hnm s hs
      obtain ⟨n', hn', v, rfl⟩ := mem_setSigned _ _ _ hnm
      obtain ⟨g1, rfl, _⟩ := (signTree_iff C ctx num hn l l' x).1 hl
      obtain ⟨n0, hn0, rfl⟩ := List.mem_map.1 hn'
      obtain ⟨w, hw⟩ := g1 n0 hn0
      have hR0 := hRl n0 hn0
      rw [workOf_eq C ctx n0 w hw] at hs
      obtain ⟨r, hr, hsn, hc, hp⟩ := (done_facts C ctx n0 w (signNode_done C ctx n0 w hS hC hR0 hw)).2.1 s hs
      rcases hp with ⟨k, hk, hsg, hp⟩ | hp
      · unfold pick at hp
        cases hf : firstValid C ctx n0.owner r k (margin ctx) (trust ctx n0) (source ctx n0) with
        | some s' =>
          rw [hf] at hp
          cases hp
          have hm := (firstValid_some _ _ _ _ _ _ _ _ _ hf).1
          refine hR0.timely s ?_
          unfold source at hm
          split at hm
          · cases hm
          · exact hm
        | none =>
          rw [hf, signRRset_eq C ctx n0.owner r k hS] at hp
          cases hc : C.sign k n0.owner r (made ctx n0.owner r k) with
          | none => rw [hc] at hp; cases hp
          | some d =>
            rw [hc] at hp
            cases hp
            have hfr := (made_fresh ctx n0.owner r k d hS).1
            have hnow := hS.now
            have e1 : left ctx.now ((ctx.now - 5400) % 4294967296) = -5400 := by unfold left; omega
            refine fresh_timely ctx _ hS ⟨Nat.mod_lt _ (by decide), Nat.mod_lt _ (by decide)⟩ hfr ⟨?_, ?_⟩
            · show left ctx.now ((ctx.now - 5400) % 4294967296) ≠ _
              rw [e1]; decide
            · show 0 ≤ (ctx.now : Int) + left ctx.now ((ctx.now - 5400) % 4294967296)
              rw [e1]; omega
      · exact hO s hp.2
    intro n hnm
    rcases List.mem_append.1 hnm with hnm | hnm
    · exact tree nodes a' e1 (fun n hn => hR n (List.mem_append_left _ hn)) h1 n hnm
    · exact tree nsec3 b' e2 (fun n hn => hR n (List.mem_append_right _ hn)) h2 n hnm
  refine C48_idle C { ctx with dropExisting := false } num' whole' a b hn ⟨hS.now, hS.refresh, hS.lifetime, hS.short, hS.safe⟩ rfl ?_ ?_
  · intro n hnm
    exact ⟨(hfl n hnm).2, htm n hnm, (hfl n hnm).1⟩
  · intro n hnm
    have := (hsg n hnm).1
    exact ⟨⟨this.all, this.only, this.offline⟩, hmi n hnm⟩

/-! ## When to sign again -/

/-- **C48.** The next signing is before the remaining time of any signature is less than the refresh time; and if neither
the keys nor offline records demand it, not before the pre-refresh time has passed. -/
theorem C48_next (ctx : Ctx) (keysExpire keyEvent e : Nat) (hS : Sane ctx) (he : e ≠ 0) (hlt : ctx.now + ctx.refresh + ctx.prerefresh < e)
    (hmax : e < 18446744073709551616) :
    (scheduleNext ctx keysExpire keyEvent e ≠ 0 ∧ scheduleNext ctx keysExpire keyEvent e + ctx.refresh ≤ e) ∧
    (keysExpire = 0 → keyEvent = 0 → ctx.now + ctx.prerefresh < scheduleNext ctx keysExpire keyEvent e) := by
  have hts : timeSub e ctx.refresh = e - ctx.refresh := by
    unfold timeSub
    rw [if_pos he]
    omega
  have h0 : e - ctx.refresh ≠ 0 := by have := hS.now; omega
  constructor
  · have h1 : Le (scheduleNext ctx keysExpire keyEvent e) (e - ctx.refresh) := by
      unfold scheduleNext
      rw [hts]
      exact (timeMin_left _ _).trans (timeMin_right _ _)
    have := h1 h0
    omega
  · rintro rfl rfl
    have : scheduleNext ctx 0 0 e = e - ctx.refresh := by
      unfold scheduleNext timeMin
      rw [hts]
      simp
    omega

/-! ## One RRset at the apex -/

/-- **C48.** When an RRset at the apex (the SOA after its serial is changed) is signed anew, all old signatures of it go,
each key that signs has a good one, and other signatures stay. If they change, the node has to be verified again. -/
theorem C48_apex (C : Crypto) (ctx : Ctx) (n n' : Node) (r : RRset) (e e' : Nat) (hS : Sane ctx) (hC : Sound C)
    (h : signApexRR C ctx n r e = .ok (n', e')) :
    Unsigned n' = Unsigned n ∧
    (∀ k ∈ ctx.keys, Signs ctx.apex n.owner r.type k → ∃ s ∈ n'.sigs,
      Good C ctx.now (ctx.refresh + ctx.prerefresh) n.owner r k s ∧ NotAfter ctx.now e' s.expiration) ∧
    (∀ s ∈ n'.sigs, s.covered = r.type →
      (∃ k ∈ ctx.keys, Signs ctx.apex n.owner r.type k ∧ left ctx.now s.expiration = ctx.lifetime ∧
        Good C ctx.now (ctx.refresh + ctx.prerefresh) n.owner r k s) ∨ (n.owner = ctx.apex ∧ s ∈ ctx.offline)) ∧
    (∀ s, s.covered ≠ r.type → (s ∈ n'.sigs ↔ s ∈ n.sigs)) ∧
    (n'.sigs ≠ n.sigs → n'.verified = false ∧ n'.touched = true) := by
  unfold signApexRR at h
  cases ha : addMissing C ctx n.owner r [] false e with
  | err e => rw [ha] at h; cases h
  | ub => rw [ha] at h; cases h
  | ok x =>
    rw [ha] at h
    simp only [Res.bind_ok, Res.ok.injEq, Prod.mk.injEq] at h
    obtain ⟨rfl, rfl⟩ := h
    have hK : Known C ctx n.owner r [] false := ⟨by simp, by simp⟩
    obtain ⟨H, hl⟩ := addMissing_did C ctx n.owner r [] false _ _ hS hC hK ha
    have he : x.rem = [] := List.eq_nil_iff_forall_not_mem.2 fun s hs => by have := (H.rem s hs).1; cases this
    have hf := applyWork_fields n ⟨covering r.type n.sigs ++ x.rem, x.add, 0⟩
    have hmem : ∀ s, s ∈ (applyWork n ⟨covering r.type n.sigs ++ x.rem, x.add, 0⟩).sigs ↔
        s ∈ x.add ∨ (s ∈ n.sigs ∧ s.covered ≠ r.type) := by
      intro s
      rw [applyWork_sigs]
      simp only [he, List.append_nil, mem_covering]
      constructor
      · rintro (h | ⟨h1, h2⟩)
        · exact .inl h
        · exact .inr ⟨h1, fun hc => h2 ⟨h1, hc⟩⟩
      · rintro (h | ⟨h1, h2⟩)
        · exact .inl h
        · exact .inr ⟨h1, fun hc => h2 hc.2⟩
    refine ⟨by simp only [Unsigned, hf], ?_, ?_, ?_, ?_⟩
    · intro k hk hsg
      obtain ⟨s, h1, h2, h3⟩ := H.every k hk hsg
      refine ⟨s, (hmem s).2 ?_, pick_good C ctx n.owner r [] false k s hS hC hK hk hsg h1, h3⟩
      rcases h2 with h2 | h2
      · exact .inl h2
      · cases h2.1
    · intro s hs hc
      rcases (hmem s).1 hs with hs | hs
      · rcases H.only s hc (.inl hs) with ⟨k, hk, hsg, hp⟩ | h1
        · refine .inl ⟨k, hk, hsg, ?_, pick_good C ctx n.owner r [] false k s hS hC hK hk hsg hp⟩
          unfold pick at hp
          rw [show firstValid C ctx n.owner r k (margin ctx) false [] = none from rfl, signRRset_eq C ctx n.owner r k hS] at hp
          cases hc : C.sign k n.owner r (made ctx n.owner r k) with
          | none => rw [hc] at hp; cases hp
          | some d =>
            rw [hc] at hp
            cases hp
            exact (made_fresh ctx n.owner r k d hS).2
        · exact .inr h1
      · exact absurd hc hs.2
    · intro s hc
      rw [hmem]
      constructor
      · rintro (h | h)
        · exact absurd (H.add s h) hc
        · exact h.1
      · intro h; exact .inr ⟨h, hc⟩
    · unfold applyWork
      split
      · intro h; exact absurd rfl h
      · intro _; exact ⟨rfl, rfl⟩

/-- **C48, finding:** with a signature lifetime of 2^31 - 5400 seconds or more (the configuration accepts up to 2^31 - 1),
making any signature fails an assertion. -/
theorem C48_long_lifetime_aborts (C : Crypto) (ctx : Ctx) (owner : Name) (r : RRset) (k : Key)
    (h1 : 2147483648 ≤ ctx.lifetime + 5400) (h2 : ctx.lifetime < 2147483648) (hn : 5400 ≤ ctx.now ∧ ctx.now < 9223372036854775808) :
    signRRset C ctx owner r k = .ub := by
  have hx : ∃ c, Serial.serialCompare ((18446744073709551616 + ctx.now - 5400) % 18446744073709551616 % 4294967296)
      ((ctx.now + ctx.lifetime) % 18446744073709551616 % 4294967296) = .ok c ∧ c ≠ .lower := by
    unfold Serial.serialCompare
    dsimp only
    generalize hd : ((18446744073709551616 + ctx.now - 5400) % 18446744073709551616 % 4294967296 + 4294967296 -
      (ctx.now + ctx.lifetime) % 18446744073709551616 % 4294967296) % 4294967296 = d
    have h4 : d ≤ 2147483648 := by omega
    have h5 : 2147483648 ≤ d ∨ 0 < d := by omega
    by_cases he : d = 2147483648
    · subst he
      exact ⟨.incomparable, rfl, by decide⟩
    · refine ⟨.greater, ?_, by decide⟩
      rw [if_pos (by omega), show d / 2147483648 = 0 by omega]
      rfl
  obtain ⟨c, hc, hne⟩ := hx
  unfold signRRset
  dsimp only
  rw [hc]
  simp only [Res.bind_ok, ne_eq, hne, not_false_eq_true, if_true]

/-! ## Validation -/

/-- **C48.** If no signature covers a type its node does not have, validation succeeds exactly if every node is valid: each
RRset that is to be signed has a good signature by a key of the zone, every signature naming a key of the zone is good (with
at most two other keys of the same tag), RRsets that are not to be signed have none. -/
theorem C48_validate (C : Crypto) (ctx : Ctx) (num : Nat) (hn : 0 < num) (nodes : List Node)
    (hR : ∀ n ∈ nodes, VReady C ctx n) (hns : ∀ n ∈ nodes, NoStray n) :
    validateTree C ctx num nodes ≠ .ub ∧
    ((∃ u, validateTree C ctx num nodes = .ok u) ↔ ∀ n ∈ nodes, ValidNode C ctx n) :=
  (validateTree_spec C ctx num hn nodes hR).1 hns

/-- **C48.** Until the time given by validation each RRset has a good signature. -/
theorem C48_valid_until (C : Crypto) (ctx : Ctx) (num : Nat) (hn : 0 < num) (nodes : List Node)
    (hR : ∀ n ∈ nodes, VReady C ctx n) (u : Nat) (h : validateTree C ctx num nodes = .ok u) :
    ∀ n ∈ nodes, ∀ r ∈ n.rrsets, Signable n r.type → ∃ s ∈ n.sigs, ∃ k ∈ ctx.keys, Tried ctx.apex n.owner r.type k ∧
      Good C ctx.now 0 n.owner r k s ∧ NotAfter ctx.now u s.expiration :=
  fun n hnm r hr => (validateTree_spec C ctx num hn nodes hR).2.1 u h n hnm r hr

/-- **C48, finding:** a signature covering a type its node does not have makes the validation of an otherwise valid zone
abort the server. -/
theorem C48_stray_aborts (C : Crypto) (ctx : Ctx) (num : Nat) (hn : 0 < num) (nodes : List Node)
    (hR : ∀ n ∈ nodes, VReady C ctx n) (hV : ∀ n ∈ nodes, ValidNode C ctx n) (hst : ∃ n ∈ nodes, ¬ NoStray n) :
    validateTree C ctx num nodes = .ub :=
  (validateTree_spec C ctx num hn nodes hR).2.2 hV hst

/-- **C48.** What has been signed validates: if the keys that sign are known to the validation, tags do not collide and
some key signs each RRset. -/
theorem C48_signed_validates (C : Crypto) (ctx v : Ctx) (n : Node) (hP : Proper n) (hG : Signed C ctx n)
    (ha : v.apex = ctx.apex) (hnow : v.now = ctx.now) (ho : ctx.offline = [])
    (hk : ∀ r ∈ n.rrsets, ∀ k ∈ ctx.keys, Signs ctx.apex n.owner r.type k → k ∈ v.keys)
    (ht : ∀ k ∈ v.keys, ∀ k' ∈ v.keys, k.alg = k'.alg → k.tag = k'.tag → k = k')
    (hs : ∀ r ∈ n.rrsets, Signable n r.type → ∃ k ∈ ctx.keys, Signs ctx.apex n.owner r.type k) :
    ValidNode C v n ∧ NoStray n := by
  have htried : ∀ t k, Signs ctx.apex n.owner t k → Tried v.apex n.owner t k := by
    intro t k h
    unfold Signs at h
    unfold Tried
    rw [ha]
    split
    · rename_i hc; rw [if_pos hc] at h; exact h.1
    · rename_i hc; rw [if_neg hc] at h; exact h.1
  have hweak : ∀ r k s, Good C ctx.now (ctx.refresh + ctx.prerefresh) n.owner r k s → Good C v.now 0 n.owner r k s := by
    rintro r k s ⟨h1, h2, h3, h4⟩
    rw [hnow]
    exact ⟨h1, h2, by omega, h4⟩
  have honly : ∀ s ∈ n.sigs, ∀ r ∈ n.rrsets, s.covered = r.type → Signable n r.type ∧
      ∃ k ∈ ctx.keys, Signs ctx.apex n.owner r.type k ∧ Good C ctx.now (ctx.refresh + ctx.prerefresh) n.owner r k s := by
    intro s hsm r hr hc
    obtain ⟨r', hr', hsn, hc', hx⟩ := hG.only s hsm
    have he : r' = r := type_inj n hP r' r hr' hr (by rw [← hc', hc])
    subst he
    rcases hx with hx | hx
    · exact ⟨hsn, hx⟩
    · rw [ho] at hx; cases hx.2
  refine ⟨⟨?_, ?_, ?_⟩, ?_⟩
  · intro r hr hsn
    refine ⟨?_, ?_⟩
    · obtain ⟨k, hkm, hsg⟩ := hs r hr hsn
      obtain ⟨s, h1, h2⟩ := hG.all r hr hsn k hkm hsg
      exact ⟨s, h1, k, hk r hr k hkm hsg, htried r.type k hsg, hweak r k s h2⟩
    · intro s hsm hne
      exfalso
      obtain ⟨k, hkb⟩ := List.exists_mem_of_ne_nil _ hne
      unfold badKeys at hkb
      rw [List.mem_filter, decide_eq_true_iff] at hkb
      obtain ⟨hkm, htr, hnm, hbad⟩ := hkb
      obtain ⟨_, k', hk', hsg', hg⟩ := honly s hsm r hr hnm.1
      have : k = k' := ht k hkm k' (hk r hr k' hk' hsg') (by rw [← hnm.2.1, hg.1.2.1]) (by rw [← hnm.2.2, hg.1.2.2])
      subst this
      have := hweak r k s hg
      exact hbad ⟨this.2.1, this.2.2⟩
  · intro r hr hsn s hsm hc
    exact hsn (honly s hsm r hr hc).1
  · intro s hsm hc
    obtain ⟨r', hr', _, hc', _⟩ := hG.only s hsm
    exact hP.rrsig (List.mem_map.2 ⟨r', hr', by rw [← hc', hc]⟩)
  · intro s hsm
    obtain ⟨r', hr', _, hc', _⟩ := hG.only s hsm
    exact .inl (List.mem_map.2 ⟨r', hr', hc'.symm⟩)

end Knot
