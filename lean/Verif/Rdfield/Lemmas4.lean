import Verif.Rdfield.Lemmas3
/-! # Messages with one record of a choice; ZONEMD records of a zone -/
namespace Knot.Rdfield
open Knot
open Knot.Dname (Name NameAt Valid wire nameLen lowerName)
open Knot.Rrwire (num RR Rec Field Block RdAt AcceptAt encAll parseDesc emptyAllowed slice readBE)
open Knot.Pktparse (PP parse deliver RecsAt Message)

/-- A message asking for the SOA of the root, with one record of the root in the answer or the authority section. -/
def msgOf (auth : Bool) (type rclass : Nat) (d : List UInt8) : List UInt8 :=
  [0, 0, 0, 0, 0, 1, 0, if auth then 0 else 1, 0, if auth then 1 else 0, 0, 0, 0, 0, 6, 0, 1, 0,
   UInt8.ofNat (type / 256), UInt8.ofNat type, UInt8.ofNat (rclass / 256), UInt8.ofNat rclass, 0, 0, 0, 0,
   UInt8.ofNat (d.length / 256), UInt8.ofNat d.length] ++ d

theorem num_two (v : Nat) (h : v < 65536) : num [UInt8.ofNat (v / 256), UInt8.ofNat v] = v := by
  simp only [num, List.foldl_cons, List.foldl_nil, UInt8.toNat_ofNat']
  omega

/-- It is a message if the RDATA are acceptable. -/
theorem msgOf_message {auth : Bool} {type rclass : Nat} {d : List UInt8} {fs : List Field} (ht : type < 65536)
    (hc : rclass < 65536) (hd : d.length < 65536) (h41 : type ≠ 41) (h250 : type ≠ 250)
    (h : (d = [] ∧ fs = [] ∧ emptyAllowed type rclass) ∨
      (d ≠ [] ∧ RdAt (msgOf auth type rclass d) (28 + d.length) (parseDesc type).blocks 28 fs (28 + d.length) ∧
        (encAll fs).length = d.length)) :
    Message (msgOf auth type rclass d) (28 + d.length) (some []) (if auth then [] else [⟨[], type, rclass, 0, fs⟩])
      (if auth then [⟨[], type, rclass, 0, fs⟩] else []) [] := by
  have hacc : AcceptAt (msgOf auth type rclass d) (28 + d.length) 17 ⟨[], type, rclass, 0, fs⟩ (28 + d.length) := by
    refine ⟨d.length, 28, ⟨1, .root (by omega) rfl, ⟨by simp, by simp [nameLen]⟩, rfl, ?_, ?_, rfl, ?_, Nat.le_refl _⟩, rfl, ?_⟩
    · exact (num_two type ht).symm
    · exact (num_two rclass hc).symm
    · exact (num_two d.length hd).symm
    · rcases h with ⟨rfl, rfl, h⟩ | ⟨h1, h2, h3⟩
      · exact .inl ⟨rfl, rfl, h⟩
      · have : 0 < d.length := List.length_pos_iff.mpr h1
        exact .inr ⟨this, ⟨_, h2⟩, by rw [h3]; exact Nat.le_refl _, by rw [h3]; omega⟩
  have hq : Pktparse.QuestionAt (msgOf auth type rclass d) (28 + d.length) (some []) 17 :=
    ⟨rfl, 1, .root (by omega) rfl, ⟨by simp, by simp [nameLen]⟩, rfl, by omega⟩
  cases auth
  · refine ⟨by omega, ⟨17, hq, ?_⟩, rfl, rfl, rfl, ?_, ?_, ?_⟩
    · exact .cons hacc .nil
    · intro r hr
      simp at hr
      subst hr
      exact ⟨h41, h250⟩
    · intro pre r post e; simp at e
    · intro pre r post e; simp at e
  · refine ⟨by omega, ⟨17, hq, ?_⟩, rfl, rfl, rfl, ?_, ?_, ?_⟩
    · exact .cons hacc .nil
    · intro r hr
      simp at hr
      subst hr
      exact ⟨h41, h250⟩
    · intro pre r post e; simp at e
    · intro pre r post e; simp at e

theorem msgOf_drop (auth : Bool) (type rclass : Nat) (d : List UInt8) :
    slice (msgOf auth type rclass d) 28 d.length = d := by
  simp [slice, msgOf]

theorem msgOf_length (auth : Bool) (type rclass : Nat) (d : List UInt8) : (msgOf auth type rclass d).length = 28 + d.length := by
  simp [msgOf]; omega

/-- RDATA of a type whose layout is not checked. -/
theorem msgOf_remainder {auth : Bool} {type rclass : Nat} {d : List UInt8} (hb : (parseDesc type).blocks = [.remainder]) :
    RdAt (msgOf auth type rclass d) (28 + d.length) (parseDesc type).blocks 28 [.raw d] (28 + d.length) := by
  rw [hb]
  have h : RdAt (msgOf auth type rclass d) (28 + d.length) [.remainder] 28
      [.raw (slice (msgOf auth type rclass d) 28 (28 + d.length - 28))] (28 + d.length) := .remainder (by omega) .done
  rw [Nat.add_sub_cancel_left, msgOf_drop] at h
  exact h

/-! ## ZONEMD records of a zone -/

theorem zm_reads {d : List UInt8} (h : 6 ≤ d.length) :
    zonemdSerial d = .ok (zmSerial d) ∧ zonemdScheme d = .ok (zmScheme d) ∧ zonemdAlg d = .ok (zmAlg d) ∧
    zonemdDigestSize d = .ok (digestLen (zmAlg d)) := by
  have h3 : zonemdAlg d = .ok (zmAlg d) := by
    unfold zonemdAlg; rw [readBE_eq, if_pos (by omega)]; rfl
  refine ⟨?_, ?_, h3, ?_⟩
  · unfold zonemdSerial; rw [readBE_eq, if_pos (by omega)]; rfl
  · unfold zonemdScheme; rw [readBE_eq, if_pos (by omega)]; rfl
  · unfold zonemdDigestSize; rw [h3, Res.bind_ok]; rfl

theorem usable_eq {serial : Nat} {d : List UInt8} (h : 6 ≤ d.length) : zonemdUsable serial d = .ok (zmUsable serial d) := by
  obtain ⟨h1, h2, h3, h4⟩ := zm_reads h
  unfold zonemdUsable zmUsable
  rw [h2, Res.bind_ok]
  by_cases hs : zmScheme d = 1
  · rw [if_neg (by simp [hs]), h4, Res.bind_ok]
    by_cases ha : zmAlg d = 1 ∨ zmAlg d = 2
    · rw [if_neg (by rcases ha with e | e <;> simp [digestLen, e]), h1, Res.bind_ok]
      simp only [hs, ha, true_and]
    · have : digestLen (zmAlg d) = 0 := by
        unfold digestLen
        rw [if_neg (fun e => ha (.inl e)), if_neg (fun e => ha (.inr e))]
      rw [if_pos this]
      simp [ha]
  · rw [if_pos hs]
    simp [hs]

theorem noDuplicate_eq {scheme alg : Nat} {ds : List (List UInt8)} (h : ∀ d ∈ ds, 6 ≤ d.length) :
    noDuplicate scheme alg ds = .ok (decide ((scheme, alg) ∉ ds.map (fun d => (zmScheme d, zmAlg d)))) := by
  induction ds with
  | nil => simp [noDuplicate]
  | cons d ds ih =>
    have ih := ih (fun x hx => h x (List.mem_cons_of_mem _ hx))
    obtain ⟨h1, h2, h3, h4⟩ := zm_reads (h d List.mem_cons_self)
    unfold noDuplicate
    rw [h2, Res.bind_ok]
    by_cases hs : zmScheme d = scheme
    · rw [if_neg (by simp [hs]), h3, Res.bind_ok]
      by_cases ha : zmAlg d = alg
      · rw [if_pos ha]
        simp [hs, ha]
      · rw [if_neg ha, ih]
        congr 1
        simp only [List.map_cons, List.mem_cons, Prod.mk.injEq]
        have : ¬ alg = zmAlg d := fun e => ha e.symm
        simp [this]
    · rw [if_pos hs, ih]
      congr 1
      simp only [List.map_cons, List.mem_cons, Prod.mk.injEq]
      have : ¬ scheme = zmScheme d := fun e => hs e.symm
      simp [this]

theorem pick_eq {serial : Nat} {ds : List (List UInt8)} : ∀ {done : List (List UInt8)} {found : Option (List UInt8)},
    (∀ d ∈ done ++ ds, 6 ≤ d.length) → (done.map (fun d => (zmScheme d, zmAlg d))).Nodup → found = lastUsable serial done →
    zonemdPick serial done found ds =
      if ((done ++ ds).map (fun d => (zmScheme d, zmAlg d))).Nodup then .ok (lastUsable serial (done ++ ds)) else .err .esemcheck := by
  induction ds with
  | nil => intro done found _ hn hf; simp only [zonemdPick, List.append_nil]; rw [if_pos hn, hf]
  | cons d ds ih =>
    intro done found hl hn hf
    have h6 : 6 ≤ d.length := hl d (by simp)
    obtain ⟨h1, h2, h3, h4⟩ := zm_reads h6
    unfold zonemdPick
    rw [usable_eq h6, Res.bind_ok, h2, Res.bind_ok, h3, Res.bind_ok,
      noDuplicate_eq (fun x hx => hl x (List.mem_append_left _ hx)), Res.bind_ok]
    have e : done ++ d :: ds = (done ++ [d]) ++ ds := by simp
    by_cases hd : (zmScheme d, zmAlg d) ∈ done.map (fun d => (zmScheme d, zmAlg d))
    · rw [if_neg (by simp only [hd, not_true, decide_false]; exact Bool.false_ne_true), if_neg]
      intro hnd
      rw [List.map_append, List.map_cons] at hnd
      have := (List.nodup_append.mp hnd).2.2 _ hd _ List.mem_cons_self
      exact this rfl
    · rw [if_pos (by simp only [hd, not_false_iff, decide_true]), e]
      refine ih (by rw [← e]; exact hl) ?_ ?_
      · rw [List.map_append, List.nodup_append]
        refine ⟨hn, by simp, ?_⟩
        intro a ha b hb
        simp only [List.map_cons, List.map_nil, List.mem_singleton] at hb
        subst hb
        intro hab
        exact hd (hab ▸ ha)
      · unfold lastUsable
        rw [List.filter_append]
        cases hu : zmUsable serial d with
        | true => simp [hu]
        | false => simp [hu, hf, lastUsable]

end Knot.Rdfield
