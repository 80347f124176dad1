import Verif.Rdfield.Lemmas
/-! # Layout of the RDATA of records received in messages -/
namespace Knot.Rdfield
open Knot
open Knot.Dname (Name Valid wire nameLen lowerName)
open Knot.Rrwire (num RR Rec Field Block RdAt AcceptAt encAll parseDesc emptyAllowed slice)
open Knot.Pktparse (PP parse deliver RecsAt)

/-- The pieces of RDATA are of a layout. -/
inductive Shape : List Block → List Field → Prop
  | done : Shape [] []
  | name {b bs ls fs} : b.isName = true → Valid ls → Shape bs fs → Shape (b :: bs) (.name ls :: fs)
  | naptr {bs d fs} : Shape bs fs → Shape (.naptr :: bs) (.raw d :: fs)
  | remainder {bs d fs} : Shape bs fs → Shape (.remainder :: bs) (.raw d :: fs)
  | fixed {k bs d fs} : d.length = k → Shape bs fs → Shape (.fixed k :: bs) (.raw d :: fs)

theorem shape_of_rdAt {mem : Bytes} {endp : Nat} (he : endp ≤ mem.length) {bs pos fs stop}
    (h : RdAt mem endp bs pos fs stop) : Shape bs fs := by
  induction h with
  | done => exact .done
  | name hb _ hv _ ih => exact .name hb hv ih
  | naptr _ _ ih => exact .naptr ih
  | remainder _ _ ih => exact .remainder ih
  | fixed hk _ ih =>
    refine .fixed ?_ ih
    simp only [slice, List.length_take, List.length_drop]
    omega

theorem lowerName_len (ls : Name) : nameLen (lowerName ls) = nameLen ls := by
  induction ls with
  | nil => rfl
  | cons l ls ih =>
    have : lowerName (l :: ls) = l.map Dname.lowerByte :: lowerName ls := rfl
    rw [this]
    simp only [nameLen, List.length_map, ih]

theorem lowerName_valid {ls : Name} (h : Valid ls) : Valid (lowerName ls) := by
  refine ⟨?_, by rw [lowerName_len]; exact h.2⟩
  intro l hl
  obtain ⟨x, hx, rfl⟩ := List.mem_map.mp hl
  rw [List.length_map]
  exact h.1 x hx

theorem shape_lower {bs fs} (h : Shape bs fs) : Shape bs (fs.map Field.lower) := by
  induction h with
  | done => exact .done
  | name hb hv _ ih => exact .name hb (lowerName_valid hv) ih
  | naptr _ ih => exact .naptr ih
  | remainder _ ih => exact .remainder ih
  | fixed hk _ ih => exact .fixed hk ih

theorem encAll_lower_len (fs : List Field) : (encAll (fs.map Field.lower)).length = (encAll fs).length := by
  induction fs with
  | nil => rfl
  | cons f fs ih =>
    have e : ∀ (f : Field) fs, encAll (f :: fs) = f.enc ++ encAll fs := fun _ _ => rfl
    rw [List.map_cons, e, e, List.length_append, List.length_append, ih]
    congr 1
    cases f with
    | raw d => rfl
    | name ls => simp only [Field.lower, Field.enc, Dname.wire_length, lowerName_len]

theorem recs_mem {mem : Bytes} {size pos stop : Nat} {rs : List Rec} (h : RecsAt mem size pos rs stop) :
    ∀ r ∈ rs, ∃ a b, AcceptAt mem size a r b := by
  induction h with
  | nil => intro r h; cases h
  | cons ha _ ih =>
    intro r hr
    rcases List.mem_cons.mp hr with rfl | hr
    · exact ⟨_, _, ha⟩
    · exact ih r hr

/-- RDATA as received: empty where this is allowed, or of the layout of the type. -/
theorem received_shape {keep canon : Bool} {mem : Bytes} {size : Nat} {p : PP} (hs : size ≤ mem.length)
    (h : parse keep canon mem size = .ok p) {rr : RR} (hm : rr ∈ p.rrs) :
    (rr.rdata = [] ∧ emptyAllowed rr.type rr.rclass) ∨
    ∃ fs, Shape (parseDesc rr.type).blocks fs ∧ rr.rdata = encAll fs ∧ rr.rdata ≠ [] ∧ rr.rdata.length < 65536 := by
  obtain ⟨q, an, ns, ar, hmsg, hd⟩ := C39_sound keep canon mem size p hs h
  rw [hd.records] at hm
  obtain ⟨r, hr, rfl⟩ := List.mem_map.mp hm
  obtain ⟨pos, _, hrecs⟩ := hmsg.records
  obtain ⟨a, b, ⟨k, x, ⟨n, hh⟩, hb, hx⟩⟩ := recs_mem hrecs r hr
  have ht : (deliver canon r).type = r.type := by cases canon <;> rfl
  have hc : (deliver canon r).rclass = r.rclass := by cases canon <;> rfl
  rw [ht, hc]
  rcases hx with ⟨_, h1, h2⟩ | ⟨h0, ⟨y, h1⟩, h2, h3⟩
  · refine Or.inl ⟨?_, h2⟩
    cases canon
    · show encAll r.rdata = []
      rw [h1]; rfl
    · simp only [deliver, Rec.canon, h1, if_true, List.map_nil, ite_self]; rfl
  · have hsh := shape_of_rdAt (by omega) h1
    right
    have key : ∀ fs, Shape (parseDesc r.type).blocks fs → (encAll fs).length = (encAll r.rdata).length →
        (deliver canon r).rdata = encAll fs → ∃ fs, Shape (parseDesc r.type).blocks fs ∧
        (deliver canon r).rdata = encAll fs ∧ (deliver canon r).rdata ≠ [] ∧ (deliver canon r).rdata.length < 65536 := by
      intro fs g1 g2 g3
      refine ⟨fs, g1, g3, ?_, ?_⟩
      · intro e
        rw [g3] at e
        rw [e] at g2
        simp only [List.length_nil] at g2
        omega
      · rw [g3, g2]; omega
    cases canon
    · exact key r.rdata hsh rfl rfl
    · by_cases hl : r.type ∈ Rrwire.rfc4034Types
      · exact key (r.rdata.map Field.lower) (shape_lower hsh) (encAll_lower_len _) (by
          simp only [deliver, Rec.canon, if_true, if_pos hl])
      · exact key r.rdata hsh rfl (by simp only [deliver, Rec.canon, if_true, if_neg hl])

theorem desc_soa : (parseDesc 6).blocks = [.comprName, .comprName, .fixed 20] := by decide
theorem desc_rrsig : (parseDesc 46).blocks = [.fixed 18, .fixedName, .remainder] := by decide
theorem desc_nsec : (parseDesc 47).blocks = [.fixedName, .remainder] := by decide

theorem empty_class {type rclass : Nat} (h : emptyAllowed type rclass) (h1 : type ≠ 42) (h2 : type ≠ 10)
    (h3 : (parseDesc type).named = true) : rclass ≠ 1 := by
  rcases h with h | h | h | h
  · exact h
  · exact absurd h h1
  · exact absurd h h2
  · rw [h3] at h; cases h

/-- The octets of a piece of fixed length, cut in two. -/
theorem cut (d : Bytes) (k : Nat) (h : k ≤ d.length) : ∃ a b : Bytes, a.length = k ∧ b.length = d.length - k ∧ d = a ++ b :=
  ⟨d.take k, d.drop k, by simp; omega, by simp, (List.take_append_drop k d).symm⟩

theorem shape_nil {fs : List Field} (h : Shape [] fs) : fs = [] := by cases h; rfl

theorem shape_name {b : Block} {bs fs} (hb : b.isName = true) (h : Shape (b :: bs) fs) :
    ∃ ls fs', Valid ls ∧ fs = .name ls :: fs' ∧ Shape bs fs' := by
  cases h with
  | name _ hv h => exact ⟨_, _, hv, rfl, h⟩
  | naptr => simp [Block.isName] at hb
  | remainder => simp [Block.isName] at hb
  | fixed => simp [Block.isName] at hb

theorem shape_fixed {k : Nat} {bs fs} (h : Shape (.fixed k :: bs) fs) :
    ∃ d fs', d.length = k ∧ fs = .raw d :: fs' ∧ Shape bs fs' := by
  cases h with
  | name hb => simp [Block.isName] at hb
  | fixed hl h => exact ⟨_, _, hl, rfl, h⟩

theorem shape_rem {bs fs} (h : Shape (.remainder :: bs) fs) : ∃ d fs', fs = .raw d :: fs' ∧ Shape bs fs' := by
  cases h with
  | name hb => simp [Block.isName] at hb
  | remainder h => exact ⟨_, _, rfl, h⟩

theorem soa_shape {fs : List Field} (h : Shape [.comprName, .comprName, .fixed 20] fs) : ∃ s, SoaRd (encAll fs) s := by
  obtain ⟨m, _, hm, rfl, h1⟩ := shape_name rfl h
  obtain ⟨r, _, hr, rfl, h2⟩ := shape_name rfl h1
  obtain ⟨d, _, hk, rfl, h3⟩ := shape_fixed h2
  obtain rfl := shape_nil h3
  obtain ⟨a, d1, ha, l1, rfl⟩ := cut d 4 (by omega)
  obtain ⟨b, d2, hb, l2, rfl⟩ := cut d1 4 (by omega)
  obtain ⟨c, d3, hc, l3, rfl⟩ := cut d2 4 (by omega)
  obtain ⟨e, f, he, l4, rfl⟩ := cut d3 4 (by omega)
  refine ⟨⟨m, r, num a, num b, num c, num e, num f⟩, a, b, c, e, f, hm, hr, ⟨ha, rfl⟩, ⟨hb, rfl⟩, ⟨hc, rfl⟩,
    ⟨he, rfl⟩, ⟨by omega, rfl⟩, ?_⟩
  simp only [encAll, List.flatMap_cons, List.flatMap_nil, Field.enc, List.append_assoc, List.append_nil]

theorem rrsig_shape {fs : List Field} (h : Shape [.fixed 18, .fixedName, .remainder] fs) : ∃ s, RrsigRd (encAll fs) s := by
  obtain ⟨d, _, hk, rfl, h1⟩ := shape_fixed h
  obtain ⟨n, _, hv, rfl, h2⟩ := shape_name rfl h1
  obtain ⟨sig, _, rfl, h3⟩ := shape_rem h2
  obtain rfl := shape_nil h3
  obtain ⟨a, d1, ha, l1, rfl⟩ := cut d 2 (by omega)
  obtain ⟨b, d2, hb, l2, rfl⟩ := cut d1 1 (by omega)
  obtain ⟨c, d3, hc, l3, rfl⟩ := cut d2 1 (by omega)
  obtain ⟨e, d4, he, l4, rfl⟩ := cut d3 4 (by omega)
  obtain ⟨f, d5, hf, l5, rfl⟩ := cut d4 4 (by omega)
  obtain ⟨g, i, hg, l6, rfl⟩ := cut d5 4 (by omega)
  refine ⟨⟨num a, num b, num c, num e, num f, num g, num i, n, sig⟩, a, b, c, e, f, g, i, ⟨ha, rfl⟩, ⟨hb, rfl⟩,
    ⟨hc, rfl⟩, ⟨he, rfl⟩, ⟨hf, rfl⟩, ⟨hg, rfl⟩, ⟨by omega, rfl⟩, hv, ?_⟩
  simp only [encAll, List.flatMap_cons, List.flatMap_nil, Field.enc, List.append_assoc, List.append_nil]

theorem nsec_shape {fs : List Field} (h : Shape [.fixedName, .remainder] fs) : ∃ n b, NsecRd (encAll fs) n b := by
  obtain ⟨n, _, hv, rfl, h1⟩ := shape_name rfl h
  obtain ⟨b, _, rfl, h2⟩ := shape_rem h1
  obtain rfl := shape_nil h2
  exact ⟨n, b, hv, by simp [encAll, Field.enc]⟩

theorem one_name {b : Block} {fs : List Field} (hb : b.isName = true) (h : Shape [b] fs) : ∃ n, NameRd 0 (encAll fs) n [] := by
  obtain ⟨n, _, hv, rfl, h1⟩ := shape_name hb h
  obtain rfl := shape_nil h1
  exact ⟨n, [], rfl, hv, by simp [encAll, Field.enc]⟩

theorem fixed_one_name {b : Block} {j : Nat} {fs : List Field} (hb : b.isName = true) (h : Shape [.fixed j, b] fs) :
    ∃ n, NameRd j (encAll fs) n [] := by
  obtain ⟨d, _, hk, rfl, h1⟩ := shape_fixed h
  obtain ⟨n, _, hv, rfl, h2⟩ := shape_name hb h1
  obtain rfl := shape_nil h2
  exact ⟨n, d, hk, hv, by simp [encAll, Field.enc]⟩

theorem name_shape {type k : Nat} {fs : List Field} (hk : namePrefix type = some k) (h64 : type ≠ 64) (h65 : type ≠ 65)
    (h : Shape (parseDesc type).blocks fs) : ∃ n, NameRd k (encAll fs) n [] := by
  unfold namePrefix at hk
  simp only [List.mem_cons, List.not_mem_nil, or_false] at hk
  split at hk
  · injection hk with hk
    subst hk
    rename_i ht
    rcases ht with rfl | rfl | rfl | rfl
    · exact one_name (b := .comprName) rfl h
    · exact one_name (b := .comprName) rfl h
    · exact one_name (b := .comprName) rfl h
    · exact one_name (b := .fixedName) rfl h
  · split at hk
    · injection hk with hk
      subst hk
      rename_i ht
      rcases ht with rfl | rfl | rfl
      · exact fixed_one_name (b := .comprName) rfl h
      · exact absurd rfl h64
      · exact absurd rfl h65
    · split at hk
      · injection hk with hk
        subst hk
        rename_i ht
        subst ht
        exact fixed_one_name (b := .decomprName) rfl h
      · cases hk

end Knot.Rdfield
