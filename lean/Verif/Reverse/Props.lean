import Verif.Reverse.Lemmas
/-!
# C59: generated reverse zones
-/
namespace Knot
open Reverse Reverse.Spec
open Knot.Dname (Name wire)
open Knot.Changeset (Key RRs Contents lookup recs)
open Sockaddr (Fam)
open Synth.Spec (octets)

/-- A forward zone, a reverse zone and its records for examples. -/
def Reverse.exampleA : Name := [octets "a", octets "example"]
def Reverse.exampleB : Name := [octets "b", octets "example"]
def Reverse.exampleSrc (ttl : Nat) : Contents :=
  [(⟨false, exampleA, 1⟩, ⟨300, [[192, 0, 2, 1], [198, 51, 100, 7]]⟩), (⟨false, exampleB, 28⟩, ⟨60, [List.replicate 16 0]⟩),
    (⟨false, exampleB, 1⟩, ⟨ttl, [[192, 0, 2, 1]]⟩)]
def Reverse.exampleZone : Name := [octets "2", octets "0", octets "192", octets "in-addr", octets "arpa"]
def Reverse.exampleDst : Contents := [(⟨false, exampleZone, 6⟩, ⟨3600, [[1]]⟩)]
def Reverse.exampleKey : Key := ⟨false, octets "1" :: exampleZone, 12⟩

/-- Proper contents of a zone. -/
theorem Reverse.wf_w {c : Contents} (h : Changeset.Wf c) : W c :=
  ⟨h.1, fun _ _ hd => (h.2 _ (Changeset.lookup_mem hd)).2.1⟩

/-- The items are the address records. -/
theorem Reverse.items_has (src : Contents) (zone : Name) (i : Item) :
    i ∈ items (decide (postfix6 <:+ zone)) src ↔ HasAddr src (famOf zone) i.owner i.ttl i.raw := by
  rw [mem_items]
  unfold HasAddr famOf
  rw [← postfix_eq.2]
  by_cases hz : postfix6 <:+ zone
  · simp [hz, addrType, Synth.Spec.typeOf]
  · simp [hz, addrType, Synth.Spec.typeOf]

theorem Reverse.fam_cases (zone : Name) : famOf zone = .inet ∨ famOf zone = .inet6 := by
  unfold famOf; split
  · exact .inr rfl
  · exact .inl rfl

/-- What zone_reverse() does. -/
theorem Reverse.reverse_spec (src : Contents) (zone : Name) (dst : Contents) (hs : Good src) (hd : Changeset.Wf dst) :
    (∃ z, zoneReverse src zone dst = .ok z ∧ Post zone (ptrKey (famOf zone)) (items (decide (postfix6 <:+ zone)) src) dst z) ∨
      (zoneReverse src zone dst = .err .ettl ∧ ∀ T, ¬Agree zone (ptrKey (famOf zone)) T (items (decide (postfix6 <:+ zone)) src) dst) := by
  unfold zoneReverse
  rw [apply_run]
  refine run_spec zone _ (ptrKey (famOf zone)) (fun raw => ⟨rfl, rfl⟩) _ dst (wf_w hd) ?_
  intro i hi
  rw [items_has] at hi
  exact own_ok zone i.raw (hs _ _ _ _ (fam_cases zone) hi)

/-- C59. If the reverse records are generated, the zone has exactly the records it had before and, for each address record of the forward
zone whose address belongs to the reverse zone, a PTR record at the reverse name of the address with the owner of the record. -/
theorem C59_records (src : Contents) (zone : Name) (dst z : Contents) (hs : Good src) (hd : Changeset.Wf dst)
    (h : zoneReverse src zone dst = .ok z) (k : Key) (x : List UInt8) :
    x ∈ recs (lookup z k) ↔ x ∈ recs (lookup dst k) ∨
      ∃ owner ttl raw, HasAddr src (famOf zone) owner ttl raw ∧ zone <:+ (ptrKey (famOf zone) raw).owner ∧
        k = ptrKey (famOf zone) raw ∧ x = wire owner := by
  rcases reverse_spec src zone dst hs hd with ⟨z', h1, h2⟩ | ⟨h1, _⟩
  · rw [h1] at h
    cases h
    rw [h2.records]
    constructor
    · rintro (h | ⟨i, hi, a, b, c⟩)
      · exact .inl h
      · exact .inr ⟨i.owner, i.ttl, i.raw, (items_has _ _ _).1 hi, a, b, c⟩
    · rintro (h | ⟨owner, ttl, raw, hi, a, b, c⟩)
      · exact .inl h
      · exact .inr ⟨⟨owner, ttl, raw⟩, (items_has _ _ _).2 hi, a, b, c⟩
  · rw [h1] at h; cases h

/-- C59. The PTR records have the TTL of the address records; RRsets that existed keep theirs. -/
theorem C59_ttl (src : Contents) (zone : Name) (dst z : Contents) (hs : Good src) (hd : Changeset.Wf dst)
    (h : zoneReverse src zone dst = .ok z) :
    (∀ owner ttl raw, HasAddr src (famOf zone) owner ttl raw → zone <:+ (ptrKey (famOf zone) raw).owner →
      ∃ e, lookup z (ptrKey (famOf zone) raw) = some e ∧ e.ttl = ttl) ∧
    (∀ k d, lookup dst k = some d → ∃ e, lookup z k = some e ∧ e.ttl = d.ttl) ∧
    ∀ k, k.type ≠ 12 → lookup z k = lookup dst k := by
  rcases reverse_spec src zone dst hs hd with ⟨z', h1, h2⟩ | ⟨h1, _⟩
  · rw [h1] at h
    cases h
    refine ⟨fun owner ttl raw hi hz => h2.ttlsNew ⟨owner, ttl, raw⟩ ((items_has _ _ _).2 hi) hz, h2.ttls, fun k hk => ?_⟩
    refine h2.others k fun i _ _ e => hk ?_
    rw [e]; rfl
  · rw [h1] at h; cases h

/-- C59. The generation succeeds exactly if for every PTR RRset all the records that belong to it have the same TTL: otherwise the result
is an error. It is never undefined. -/
theorem C59_succeeds (src : Contents) (zone : Name) (dst : Contents) (hs : Good src) (hd : Changeset.Wf dst) :
    (SameTtls src zone dst → ∃ z, zoneReverse src zone dst = .ok z) ∧
    (¬SameTtls src zone dst → zoneReverse src zone dst = .err .ettl) := by
  rcases reverse_spec src zone dst hs hd with ⟨z, h1, h2⟩ | ⟨h1, h2⟩
  · refine ⟨fun _ => ⟨z, h1⟩, fun hn => absurd ?_ hn⟩
    refine ⟨fun k => ((lookup z k).map RRs.ttl).getD 0, ?_, ?_⟩
    · intro k d hd
      obtain ⟨e, a, b⟩ := h2.ttls k d hd
      simp [a, b]
    · intro owner ttl raw hi hz
      obtain ⟨e, a, b⟩ := h2.ttlsNew ⟨owner, ttl, raw⟩ ((items_has _ _ _).2 hi) hz
      simp only at a b
      simp [a, b]
  · refine ⟨fun ⟨T, t1, t2⟩ => absurd ⟨t1, ?_⟩ (h2 T), fun _ => h1⟩
    intro i hi hz
    exact t2 i.owner i.ttl i.raw ((items_has _ _ _).1 hi) hz

/-- The address records of the example are proper, and so is the reverse zone. -/
theorem Reverse.example_good (ttl : Nat) : Good (exampleSrc ttl) := by
  intro fam owner t raw hf ⟨r, h1, _, h3⟩
  simp only [exampleSrc, List.mem_cons, Prod.mk.injEq, Key.mk.injEq, List.not_mem_nil, or_false] at h1
  rcases hf with rfl | rfl <;> simp only [Synth.Spec.typeOf, rawLen] at h1 ⊢ <;>
    rcases h1 with ⟨⟨_, _, h⟩, rfl⟩ | ⟨⟨_, _, h⟩, rfl⟩ | ⟨⟨_, _, h⟩, rfl⟩ <;> simp at h h3 <;>
    first
    | (rcases h3 with rfl | rfl <;> rfl)
    | (subst h3; rfl)

/-- With equal TTLs both names have a PTR record. -/
example : Changeset.Wf exampleDst ∧ (zoneReverse (exampleSrc 300) exampleZone exampleDst) =
    .ok (exampleDst ++ [(exampleKey, ⟨300, [wire exampleA, wire exampleB]⟩)]) := by decide +kernel

/-- In a zone for IPv6 the AAAA record is reversed. -/
example : zoneReverse (exampleSrc 300) [octets "ip6", octets "arpa"] [] =
    .ok [(⟨false, List.replicate 32 (octets "0") ++ [octets "ip6", octets "arpa"], 12⟩, ⟨60, [wire exampleB]⟩)] := by decide +kernel

/-- C59. Finding: if two names of the forward zone have the same address with different TTLs, which is an ordinary zone, no reverse
records are generated at all and the reverse zone is not loaded (other callers treat KNOT_ETTL as a notice). -/
theorem C59_ttl_mismatch : Good (exampleSrc 60) ∧ Changeset.Wf exampleDst ∧
    zoneReverse (exampleSrc 60) exampleZone exampleDst = .err .ettl :=
  ⟨example_good 60, by decide +kernel, by decide +kernel⟩

/-- C59. Finding: wildcards are not names of hosts, but get PTR records: `*.example` with 192.0.2.1. -/
theorem C59_wildcard : zoneReverse [(⟨false, [octets "*", octets "example"], 1⟩, ⟨300, [[192, 0, 2, 1]]⟩)] exampleZone exampleDst =
    .ok (exampleDst ++ [(exampleKey, ⟨300, [wire [octets "*", octets "example"]]⟩)]) := by decide +kernel

end Knot
