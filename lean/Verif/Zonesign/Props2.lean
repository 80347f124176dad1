import Verif.Zonesign.Props
/-!
# C48: fields of new signatures; limits of the validation; examples
-/
namespace Knot
open Knot.Zonesign
open Knot.Dname (Name)

/-- **C48.** A new signature has the type, TTL and number of labels of what it covers (the asterisk of a wildcard not
counted), algorithm and tag of the key and the zone as signer; it begins 90 minutes ago and ends after the lifetime. -/
theorem C48_fields (C : Crypto) (ctx : Ctx) (owner : Name) (r : RRset) (k : Key) (s : Sig) (e : Nat) (hS : Sane ctx)
    (h : signRRset C ctx owner r k = .ok (s, e)) :
    (s.covered = r.type ∧ s.ttl = r.ttl ∧ s.alg = k.alg ∧ s.keyTag = k.tag ∧ s.signer = ctx.apex) ∧
    (∀ ls, owner = [42] :: ls → s.labels = ls.length) ∧ (owner.head? ≠ some [42] → s.labels = owner.length) ∧
    left ctx.now s.inception = -5400 ∧ left ctx.now s.expiration = ctx.lifetime ∧ e = ctx.now + ctx.lifetime ∧
    ∃ d, C.sign k owner r { s with signature := [] } = some d ∧ s.signature = d := by
  rw [signRRset_eq C ctx owner r k hS] at h
  cases hc : C.sign k owner r (made ctx owner r k) with
  | none => rw [hc] at h; cases h
  | some d =>
    rw [hc] at h
    cases h
    have h1 := hS.now
    have h2 := hS.short
    refine ⟨⟨rfl, rfl, rfl, rfl, rfl⟩, ?_, ?_, ?_, (made_fresh ctx owner r k d hS).2, rfl, d, hc, rfl⟩
    · rintro ls rfl
      show sigLabels ([42] :: ls) = ls.length
      unfold sigLabels
      simp
    · intro hh
      show sigLabels owner = _
      unfold sigLabels
      rw [if_neg hh]
    · show left ctx.now ((ctx.now - 5400) % 4294967296) = -5400
      unfold left; omega

/-! ## An example zone -/

namespace SignExample

/-- Signatures that name the key. -/
def C : Crypto := ⟨fun k _ _ _ => some [UInt8.ofNat k.id], fun k _ _ s => s.signature == [UInt8.ofNat k.id]⟩

def ksk : Key := ⟨1, 11111, 13, true, false, true, false, false⟩
def zsk : Key := ⟨2, 22222, 13, false, true, true, false, false⟩
def zone : Name := [[99, 122]]

def ctx : Ctx := ⟨1700000000, 1209600, 604800, 3600, false, false, false, zone, [ksk, zsk], []⟩

def soa : RRset := ⟨6, 3600, [[1]]⟩
def dnskey : RRset := ⟨48, 3600, [[2]]⟩
def ns : RRset := ⟨2, 3600, [[3]]⟩
def ds : RRset := ⟨43, 3600, [[4]]⟩

/-- A signature of the SOA that is soon to expire, one of a type that is not there. -/
def oldSig : Sig := ⟨6, 13, 1, 3600, 1700000100, 1699000000, 22222, zone, [2]⟩
def stray : Sig := ⟨16, 13, 1, 3600, 1701000100, 1699000000, 22222, zone, [2]⟩

def apex : Node := ⟨zone, false, false, true, false, [soa, dnskey], [oldSig, stray]⟩
def deleg : Node := ⟨[100] :: zone, true, false, false, false, [ns, ds], []⟩
def nodes : List Node := [apex, deleg]

theorem sound : Sound C := by
  intro k owner r h d hd
  simp only [C, Option.some.injEq] at hd
  subst hd
  simp [C]

theorem sane : Sane ctx := ⟨by decide, by decide, by decide, by decide, rfl⟩

theorem tags : Tags ctx := by
  intro _
  decide

theorem apart : Apart ctx := by
  intro s hs
  cases hs

theorem exclusive : Exclusive C ctx := by
  intro k hk k' hk' owner r s h1 h2
  simp only [ctx, List.mem_cons, List.not_mem_nil, or_false] at hk hk'
  rcases hk with rfl | rfl <;> rcases hk' with rfl | rfl
  · rfl
  · simp only [C, beq_iff_eq] at h1 h2
    rw [h1] at h2
    revert h2; decide
  · simp only [C, beq_iff_eq] at h1 h2
    rw [h1] at h2
    revert h2; decide
  · rfl

theorem ready : ∀ n ∈ nodes ++ [], Ready C ctx n := by
  intro n hn
  simp only [nodes, List.append_nil, List.mem_cons, List.not_mem_nil, or_false] at hn
  rcases hn with rfl | rfl
  · refine ⟨⟨by decide, by decide⟩, ?_, ?_⟩
    · intro s hs
      simp only [apex, List.mem_cons, List.not_mem_nil, or_false] at hs
      rcases hs with rfl | rfl
      · exact ⟨by decide, by decide, by decide, by decide⟩
      · exact ⟨by decide, by decide, by decide, by decide⟩
    · intro _ _ r hr _ k hk _ s hs hnm
      simp only [apex, List.mem_cons, List.not_mem_nil, or_false] at hs
      simp only [ctx, List.mem_cons, List.not_mem_nil, or_false] at hk
      rcases hs with rfl | rfl <;> rcases hk with rfl | rfl
      · exact absurd hnm.2.2 (by decide)
      · rfl
      · exact absurd hnm.2.2 (by decide)
      · rfl
  · refine ⟨⟨by decide, by decide⟩, ?_, ?_⟩
    · intro s hs; cases hs
    · intro h; cases h

/-- The signed apex: the old signature is replaced, the stray one gone. -/
def apexSigned : Node := ⟨zone, false, false, true, true, [soa, dnskey],
  [⟨6, 13, 1, 3600, 1701209600, 1699994600, 22222, zone, [2]⟩, ⟨48, 13, 1, 3600, 1701209600, 1699994600, 11111, zone, [1]⟩]⟩

/-- The signed delegation: only the DS is. -/
def delegSigned : Node := ⟨[100] :: zone, true, false, true, true, [ns, ds],
  [⟨43, 13, 2, 3600, 1701209600, 1699994600, 22222, zone, [2]⟩]⟩

theorem result : signZone C ctx 2 true nodes [] = .ok ([apexSigned, delegSigned], [], 1701209600) := by decide +kernel

example : (∀ n ∈ [apexSigned, delegSigned] ++ [], Signed C ctx n) := fun n hn =>
  ((C48_signed C ctx 2 true nodes [] _ _ _ sane sound ready result).2.2 n hn).1
example : signZone C ctx 1 true nodes [] = .ok ([apexSigned, delegSigned], [], 1701209600) :=
  (C48_threads C ctx 2 1 (by decide) (by decide) true nodes [] _ _ _).1 result
example : ∃ x, signZone C ctx 3 false nodes [] = .ok x :=
  (C48_defined C ctx 3 false nodes [] sane).2 (by decide) (fun _ _ _ _ => rfl)
example : ∀ n ∈ [apexSigned, delegSigned] ++ [], Flagged C ctx n ∧ Proper n :=
  C48_flag C ctx 2 true nodes [] _ _ _ sane sound ready tags apart result
example : ∀ n ∈ [apexSigned, delegSigned] ++ [], Minimal C ctx n :=
  C48_minimal C ctx 2 true nodes [] _ _ _ sane sound ready exclusive apart result
example : ∃ e, signZone C ctx 2 false [apexSigned, delegSigned] [] =
    .ok (setSigned false [apexSigned, delegSigned], setSigned false [], e) :=
  C48_again C ctx 2 2 true false nodes [] _ _ _ sane sound ready tags exclusive apart (by intro s hs; cases hs) (by decide) result
example : Timely ctx.now 604800 oldSig ∧ ¬ Fresh ctx.now 604800 oldSig ∧ Fresh ctx.now 0 oldSig ∧ Fresh ctx.now 604800 stray := by
  refine ⟨⟨by decide, by decide, by decide, by decide⟩, by decide, by decide, by decide⟩
example : scheduleNext ctx 0 0 1701209600 = 1700604800 ∧ ctx.now + ctx.refresh + ctx.prerefresh < 1701209600 := by decide
example : ∃ n e, signApexRR C ctx apex soa 0 = .ok (n, e) ∧ n.sigs.length = 2 ∧ n.sigs ≠ apex.sigs :=
  ⟨_, _, rfl, by decide +kernel, by decide +kernel⟩
example : signRRset C ctx ([42] :: zone) ns zsk =
    .ok (⟨2, 13, 1, 3600, 1701209600, 1699994600, 22222, zone, [2]⟩, 1701209600) := by decide +kernel
/-- The times of finding `C48_expired_wraps` and `C48_expired_early`. -/
example : isExpired { oldSig with expiration := 4000000000 } 1700000000 0 = false ∧
    isExpired { oldSig with expiration := 3600 } 1700000000 604800 = false ∧
    isExpired { oldSig with expiration := 3600 } 1700000000 0 = true := by decide +kernel
example : signZone C { ctx with lifetime := 2147483647 } 1 true nodes [] = .ub := by decide +kernel

/-- What has been signed validates, with another context. -/
def vctx : Ctx := { ctx with keys := [zsk, ksk] }

theorem vready : ∀ n ∈ [apexSigned, delegSigned], VReady C vctx n := by
  intro n hn
  simp only [List.mem_cons, List.not_mem_nil, or_false] at hn
  rcases hn with rfl | rfl
  · refine ⟨?_, ?_, by decide, by decide, rfl⟩
    · intro s hs
      simp only [apexSigned, List.mem_cons, List.not_mem_nil, or_false] at hs
      rcases hs with rfl | rfl <;> exact ⟨by decide, by decide, by decide, by decide⟩
    · intro _ _ r hr k hk _ s hs hnm
      simp only [apexSigned, List.mem_cons, List.not_mem_nil, or_false] at hs
      simp only [vctx, List.mem_cons, List.not_mem_nil, or_false] at hk
      rcases hs with rfl | rfl <;> rcases hk with rfl | rfl
      · rfl
      · exact absurd hnm.2.2 (by decide)
      · exact absurd hnm.2.2 (by decide)
      · rfl
  · refine ⟨?_, ?_, by decide, by decide, rfl⟩
    · intro s hs
      simp only [delegSigned, List.mem_cons, List.not_mem_nil, or_false] at hs
      subst hs
      exact ⟨by decide, by decide, by decide, by decide⟩
    · intro _ _ r hr k hk _ s hs hnm
      simp only [delegSigned, List.mem_cons, List.not_mem_nil, or_false] at hs
      simp only [vctx, List.mem_cons, List.not_mem_nil, or_false] at hk
      subst hs
      rcases hk with rfl | rfl
      · rfl
      · exact absurd hnm.2.2 (by decide)

example : validateTree C vctx 2 [apexSigned, delegSigned] = .ok 1701209600 := by decide +kernel
example : ValidNode C vctx apexSigned ∧ NoStray apexSigned :=
  C48_signed_validates C ctx vctx apexSigned ⟨by decide, by decide⟩
    ((C48_signed C ctx 2 true nodes [] _ _ _ sane sound ready result).2.2 apexSigned (by simp)).1 rfl rfl rfl
    (by
      intro r _ k hk _
      simp only [ctx, List.mem_cons, List.not_mem_nil, or_false] at hk
      rcases hk with rfl | rfl <;> simp [vctx])
    (by decide)
    (by
      intro r hr _
      simp only [apexSigned, List.mem_cons, List.not_mem_nil, or_false] at hr
      rcases hr with rfl | rfl
      · exact ⟨zsk, by simp [ctx], by unfold Signs; decide⟩
      · exact ⟨ksk, by simp [ctx], by unfold Signs; decide⟩)

/-- A signature of a type that is not there is the only fault: the server aborts. -/
example : validateTree C vctx 2 [{ apexSigned with sigs := apexSigned.sigs ++ [stray] }, delegSigned] = .ub := by decide +kernel
/-- A signature altered: no abort. -/
example : validateTree C { vctx with tagConflict := true } 2 [{ apexSigned with sigs := apexSigned.sigs.map (fun s => { s with signature := [7] }) }, delegSigned] =
    .err .enosig := by decide +kernel

end SignExample

open SignExample in
/-- **C48, finding:** with 128 keys of the same tag as a bad signature the counter of failures overflows into the mark of a
valid signature: validation accepts an RRset with a signature that is bad by every key it names. -/
theorem C48_many_keys :
    ∃ (C : Crypto) (ctx : Ctx) (owner : Name) (r : RRset) (good bad : Sig) (u : Nat),
      validateRR C ctx owner r [bad, good] false = .ok u ∧
      (ctx.keys.map (·.id)).Nodup ∧ (∃ k ∈ ctx.keys, Tried ctx.apex owner r.type k ∧ Names k r bad) ∧
      (∀ k ∈ ctx.keys, Names k r bad → C.verify k owner r bad = false) := by
  refine ⟨SignExample.C, { ctx with keys := (List.range 128).map (fun i => { zsk with id := 10 + i, tag := 33333 }) ++ [zsk] },
    zone, soa,
    ⟨6, 13, 1, 3600, 1701209600, 1699994600, 22222, zone, [2]⟩, ⟨6, 13, 1, 3600, 1701209600, 1699994600, 33333, zone, [7]⟩,
    1701209600, by decide +kernel, by decide +kernel, ⟨{ zsk with id := 10, tag := 33333 }, List.mem_append_left _ (List.mem_map.2 ⟨0, by simp, rfl⟩), by decide, by decide⟩, ?_⟩
  intro k hk _
  rcases List.mem_append.1 hk with hk | hk
  · obtain ⟨i, hi, rfl⟩ := List.mem_map.1 hk
    have hi := List.mem_range.1 hi
    have : ∀ i < 128, ([7] == [UInt8.ofNat (10 + i)]) = false := by decide +kernel
    exact this i hi
  · rw [List.mem_singleton.1 hk]; rfl

end Knot
