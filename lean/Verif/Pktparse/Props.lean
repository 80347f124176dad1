import Verif.Pktparse.Lemmas6
import Verif.Pkt.Props
/-!
# C39: parsing of messages
-/
namespace Knot
open Pktparse
open Knot.Dname (Name NameAt Valid wire lowerName nameLen)
open Knot.Rrwire (Rec AcceptAt encAll num slice)
open Knot.Pkt (Built Item Question Same Each allRecs)

/-- C39: parsing never accesses memory outside the buffer, whatever is received. -/
theorem C39_safe (keep canon : Bool) (mem : List UInt8) (size : Nat) (hs : size ≤ mem.length) :
    parse keep canon mem size ≠ .ub := parse_safe hs

/-- C39: whatever is accepted is a message: the counts in the header are those of the records in the
sections, the records take all of the message up to its end, OPT and TSIG are where they may be, once
at most, with well-formed RDATA, TSIG being the last record. What is delivered are these records. -/
theorem C39_sound (keep canon : Bool) (mem : List UInt8) (size : Nat) (p : PP) (hs : size ≤ mem.length)
    (h : parse keep canon mem size = .ok p) :
    ∃ q an ns ar, Message mem size q an ns ar ∧ Delivered keep canon mem size q an ns ar p := by
  obtain ⟨q, an, ns, ar, p3, hc, hf⟩ := (parse_iff hs).mp h
  obtain ⟨rfl, h1, h2⟩ := finish_facts hs hc.header (course_facts hc) hf
  exact ⟨q, an, ns, ar, h1, h2⟩

/-- C39: every message is accepted and its records delivered. -/
theorem C39_complete (keep canon : Bool) (mem : List UInt8) (size : Nat) (q : Option Name) (an ns ar : List Rec)
    (hs : size ≤ mem.length) (h : Message mem size q an ns ar) :
    ∃ p, parse keep canon mem size = .ok p ∧ Delivered keep canon mem size q an ns ar p := by
  obtain ⟨p, hc, hf⟩ := message_course (keep := keep) (canon := canon) hs h
  exact ⟨p, (parse_iff hs).mpr ⟨q, an, ns, ar, p, hc, hf⟩, (finish_facts hs hc.header (course_facts hc) hf).2.2⟩

/-- C39: the flags have no influence on what is accepted. -/
theorem C39_flags (keep canon keep' canon' : Bool) (mem : List UInt8) (size : Nat) (hs : size ≤ mem.length)
    (h : ∃ p, parse keep canon mem size = .ok p) : ∃ p, parse keep' canon' mem size = .ok p := by
  obtain ⟨p, h⟩ := h
  obtain ⟨q, an, ns, ar, h1, _⟩ := C39_sound keep canon mem size p hs h
  obtain ⟨p', h2, _⟩ := C39_complete keep' canon' mem size q an ns ar hs h1
  exact ⟨p', h2⟩

/-- C39: a TSIG that is not the last record, wherever it is, makes the message be refused. -/
theorem C39_tsig_last (keep canon : Bool) (mem : List UInt8) (size : Nat) (p : PP) (hs : size ≤ mem.length)
    (h : parse keep canon mem size = .ok p) (i : Nat) (rr : Rrwire.RR) (hi : p.rrs[i]? = some rr) (ht : rr.type = 250) :
    i + 1 = p.rrs.length ∧ p.secCount 2 ≠ 0 ∧ TsigRdata rr.rdata := by
  obtain ⟨q, an, ns, ar, h1, h2⟩ := C39_sound keep canon mem size p hs h
  rw [h2.records, List.getElem?_map] at hi
  obtain ⟨r, hr, rfl⟩ := Option.map_eq_some_iff.mp hi
  rw [deliver_type] at ht
  have hlt := (List.getElem?_eq_some_iff.mp hr).1
  by_cases c : i < (an ++ ns).length
  · rw [List.getElem?_append_left c] at hr
    exact absurd ht (h1.special r (List.mem_of_getElem? hr)).2
  · rw [List.getElem?_append_right (by omega)] at hr
    obtain ⟨hl, hg⟩ := List.getElem?_eq_some_iff.mp hr
    have e : ar = ar.take (i - (an ++ ns).length) ++ r :: ar.drop (i - (an ++ ns).length + 1) := by
      rw [← hg, List.getElem_cons_drop hl, List.take_append_drop]
    obtain ⟨e1, e2⟩ := h1.tsig _ _ _ e ht
    have := congrArg List.length e1
    rw [List.length_drop, List.length_nil] at this
    rw [deliver_special _ _ (.inl ht), h2.records, List.length_map, List.length_append, h2.counts.2.2]
    exact ⟨by omega, by omega, e2⟩

/-! ## Messages written by the builder of C06 and C07 -/

namespace Pktparse

theorem recsAt_accept {mem : Bytes} {size pos : Nat} {rs stop} (h : Pkt.RecsAt mem pos rs stop) (he : stop ≤ size) :
    RecsAt mem size pos rs stop := by
  induction h with
  | nil => exact .nil
  | cons h1 h2 _ ih =>
    obtain ⟨G, g1, g2⟩ := h1
    refine .cons ?_ (ih he)
    obtain ⟨_, _, _, n, h4, _, _, _, k, ⟨hk1, hk2⟩, hk, _, _, k5, _⟩ := id g2
    have := g2.size
    obtain ⟨k', p', hd, e, hc⟩ := g2.rrAt (fun i hi => (g1 i hi).2) (e := size) (by omega)
    refine ⟨k', p', hd, e, ?_⟩
    rcases hc with hc | ⟨hpos, hrd⟩
    · exact .inl hc
    · refine .inr ⟨hpos, ⟨_, hrd⟩, ?_, hk2⟩
      obtain ⟨n', a1, _, a2, _, _, _, a3, _⟩ := hd
      have := (a1.unique (h4.nameAt (fun i hi => Nat.lt_of_lt_of_le (g1 i hi).2 (by omega)))).2
      subst this
      have hk' := Pkt.num_at hk (by omega)
      rw [a3, hk']
      exact hk1

theorem name_of_bytes {mem : Bytes} {size pos : Nat} {ls : Name} {r : Bytes} (hl : ∀ l ∈ ls, 1 ≤ l.length ∧ l.length ≤ 63)
    (h : mem.drop pos = wire ls ++ r) (he : pos + nameLen ls ≤ size) : NameAt mem size false pos ls (nameLen ls) := by
  induction ls generalizing pos with
  | nil =>
    have e : mem[pos]? = some 0 := by
      have := congrArg (·[0]?) h
      simpa [wire] using this
    have hn : nameLen [] = 1 := by simp [nameLen]
    rw [hn] at he ⊢
    exact .root (by omega) e
  | cons l ls ih =>
    have hll := hl l List.mem_cons_self
    have e : mem[pos]? = some (UInt8.ofNat l.length) := by
      have := congrArg (·[0]?) h
      simpa [wire] using this
    have e2 : mem.drop (pos + 1) = l ++ (wire ls ++ r) := by
      have := congrArg (List.drop 1) h
      rw [List.drop_drop] at this
      rw [this]
      simp [wire]
    have e3 : mem.drop (pos + (l.length + 1)) = wire ls ++ r := by
      have := congrArg (List.drop l.length) e2
      rw [List.drop_drop] at this
      rw [show pos + (l.length + 1) = pos + 1 + l.length by omega, this]
      simp
    have hn : nameLen (l :: ls) = l.length + 1 + nameLen ls := by simp [nameLen]; try omega
    rw [hn] at he ⊢
    exact .label e hll.1 hll.2 (by rw [e2]; simp) (ih (fun x hx => hl x (List.mem_cons_of_mem _ hx)) e3 (by omega))

theorem each_split {α β : Type} {R : α → β → Prop} {a b : List α} {t : List β} (h : Each R (a ++ b) t) :
    ∃ t1 t2, t = t1 ++ t2 ∧ Each R a t1 ∧ Each R b t2 := by
  induction a generalizing t with
  | nil => exact ⟨[], t, rfl, .nil, h⟩
  | cons x a ih =>
    cases h with
    | cons h1 h2 =>
      obtain ⟨t1, t2, rfl, h3, h4⟩ := ih h2
      exact ⟨_ :: t1, t2, rfl, .cons h1 h3, h4⟩

theorem each_split' {α β : Type} {R : α → β → Prop} {s : List α} {a b : List β} (h : Each R s (a ++ b)) :
    ∃ s1 s2, s = s1 ++ s2 ∧ Each R s1 a ∧ Each R s2 b := by
  induction a generalizing s with
  | nil => exact ⟨[], s, rfl, .nil, h⟩
  | cons x a ih =>
    cases h with
    | cons h1 h2 =>
      obtain ⟨t1, t2, rfl, h3, h4⟩ := ih h2
      exact ⟨_ :: t1, t2, rfl, .cons h1 h3, h4⟩

theorem each_mem {α β : Type} {R : α → β → Prop} {s : List α} {t : List β} (h : Each R s t) : ∀ y ∈ t, ∃ x ∈ s, R x y := by
  induction h with
  | nil => simp
  | @cons a b s t h1 _ ih =>
    intro y hy
    rcases List.mem_cons.mp hy with rfl | hy
    · exact ⟨a, List.mem_cons_self, h1⟩
    · obtain ⟨x, hx, h⟩ := ih y hy
      exact ⟨x, List.mem_cons_of_mem _ hx, h⟩

/-- The sets put in one section. -/
def inSec (s : Nat) (log : List Item) : List Item := log.filter (fun it => it.sec == s)

theorem sections_split {log : List Item} (h : log.Pairwise (fun a b => a.sec ≤ b.sec)) (h2 : ∀ it ∈ log, it.sec ≤ 2) :
    log = inSec 0 log ++ inSec 1 log ++ inSec 2 log := by
  induction log with
  | nil => rfl
  | cons x log ih =>
    have ih := ih h.of_cons (fun it hi => h2 it (List.mem_cons_of_mem _ hi))
    have hx := h2 x List.mem_cons_self
    have hle : ∀ y ∈ log, x.sec ≤ y.sec := (List.pairwise_cons.mp h).1
    have none : ∀ s, s < x.sec → inSec s (x :: log) = [] := by
      intro s hs
      unfold inSec
      rw [List.filter_eq_nil_iff]
      intro y hy
      simp only [beq_iff_eq]
      rcases List.mem_cons.mp hy with rfl | hy
      · omega
      · have := hle y hy; omega
    have emp : ∀ s, s < x.sec → inSec s log = [] := by
      intro s hs
      unfold inSec
      rw [List.filter_eq_nil_iff]
      intro y hy
      simp only [beq_iff_eq]
      have := hle y hy; omega
    have same : ∀ s, inSec s (x :: log) = if x.sec = s then x :: inSec s log else inSec s log := by
      intro s
      unfold inSec
      rw [List.filter_cons]
      simp
    have c : x.sec = 0 ∨ x.sec = 1 ∨ x.sec = 2 := by omega
    rcases c with c | c | c
    · rw [same 0, same 1, same 2]; simp [c, ← ih]
    · rw [none 0 (by omega), same 1, same 2]
      rw [emp 0 (by omega)] at ih
      simp [c] at ih ⊢
      exact ih
    · rw [none 0 (by omega), none 1 (by omega), same 2]
      rw [emp 0 (by omega), emp 1 (by omega)] at ih
      simp [c] at ih ⊢
      exact ih

theorem allRecs_append (a b : List Item) : allRecs (a ++ b) = allRecs a ++ allRecs b := by
  simp [allRecs, List.flatMap_append]

theorem allRecs_length (log : List Item) : (allRecs log).length = (log.map (fun it => it.set.rdatas.length)).sum := by
  induction log with
  | nil => rfl
  | cons x log ih =>
    have : allRecs (x :: log) = x.set.recs x.rotate x.flags ++ allRecs log := rfl
    rw [this, List.length_append, Pkt.recs_length, ih]
    rfl

theorem allRecs_type {log : List Item} {r : Rec} (h : r ∈ allRecs log) : ∃ it ∈ log, it.set.type = r.type := by
  unfold allRecs at h
  rw [List.mem_flatMap] at h
  obtain ⟨it, h1, h2⟩ := h
  unfold Pkt.RSet.recs at h2
  rw [List.mem_map] at h2
  obtain ⟨fs, _, rfl⟩ := h2
  exact ⟨it, h1, rfl⟩

end Pktparse

/-- OPT and TSIG have been put in the message as they should be: in the additional section, OPT once,
TSIG as the last record, with well-formed RDATA. -/
structure SpecialOk (log : List Item) : Prop where
  place : ∀ it ∈ log, it.set.type = 41 ∨ it.set.type = 250 → it.sec = 2
  opt : ∀ pre r post, allRecs log = pre ++ r :: post → r.type = 41 → (∀ x ∈ pre ++ post, x.type ≠ 41) ∧ OptRdata (encAll r.rdata)
  tsig : ∀ pre r post, allRecs log = pre ++ r :: post → r.type = 250 → post = [] ∧ TsigRdata (encAll r.rdata)

/-- C39: every message written by the builder is accepted by the parser, which delivers the records put in
each of the sections, in that order, equal to those put up to letter case in names. -/
theorem C39_written (keep canon : Bool) {q : Option Question} {p : Pkt.Pkt} {log : List Item} (h : Built q p log) (hsp : SpecialOk log) :
    ∃ an ns ar p', parse keep canon p.wire p.size = .ok p' ∧
      Delivered keep canon p.wire p.size (q.map (·.name)) an ns ar p' ∧
      Each Same (allRecs (log.filter (fun it => it.sec == 0))) an ∧
      Each Same (allRecs (log.filter (fun it => it.sec == 1))) ns ∧
      Each Same (allRecs (log.filter (fun it => it.sec == 2))) ar := by
  have hi := h.inv
  obtain ⟨rs, h1, h2⟩ := hi.recs
  have hsz : p.size ≤ p.wire.length := by have := hi.buf; have := hi.fit; omega
  have hr := recsAt_accept h1 (Nat.le_refl _)
  obtain ⟨hcnt, hsort, hle, _⟩ := C07_counts h
  have hlog := sections_split hsort hle
  have h3 := h2
  rw [hlog, allRecs_append, allRecs_append] at h3
  obtain ⟨r01, ar, rfl, h4, e2⟩ := each_split h3
  obtain ⟨an, ns, rfl, e0, e1⟩ := each_split h4
  have cnt : ∀ s, (allRecs (inSec s log)).length = Pkt.countIn s log := fun s => allRecs_length _
  have hspan : ∀ r ∈ an ++ ns, r.type ≠ 41 ∧ r.type ≠ 250 := by
    intro r hr
    have : ∃ it ∈ log, it.set.type = r.type ∧ it.sec ≠ 2 := by
      rcases List.mem_append.mp hr with hr | hr
      · obtain ⟨x, hx, hs⟩ := each_mem e0 r hr
        obtain ⟨it, hm, ht⟩ := allRecs_type hx
        obtain ⟨hm1, hm2⟩ := List.mem_filter.mp hm
        exact ⟨it, hm1, ht.trans hs.type.symm, by simp at hm2; omega⟩
      · obtain ⟨x, hx, hs⟩ := each_mem e1 r hr
        obtain ⟨it, hm, ht⟩ := allRecs_type hx
        obtain ⟨hm1, hm2⟩ := List.mem_filter.mp hm
        exact ⟨it, hm1, ht.trans hs.type.symm, by simp at hm2; omega⟩
    obtain ⟨it, g1, g2, g3⟩ := this
    refine ⟨fun h => ?_, fun h => ?_⟩
    · exact g3 (hsp.place it g1 (.inl (g2.trans h)))
    · exact g3 (hsp.place it g1 (.inr (g2.trans h)))
  -- a record received, with the one sent in the same place
  have back : ∀ pre r post, ar = pre ++ r :: post → ∃ spre s spost, allRecs log = spre ++ s :: spost ∧ Same s r ∧
      Each Same spre (an ++ ns ++ pre) ∧ Each Same spost post := by
    intro pre r post e
    have h5 := h2
    rw [e, ← List.append_assoc] at h5
    obtain ⟨s1, s2, f1, f2, f3⟩ := each_split' h5
    cases f3 with
    | cons g1 g2 => exact ⟨s1, _, _, f1, g1, f2, g2⟩
  have exact_ : ∀ s r : Rec, Same s r → r.type = 41 ∨ r.type = 250 → encAll r.rdata = encAll s.rdata := by
    intro s r hs ht
    rw [hs.exact (by rw [← hs.type]; rcases ht with h | h <;> rw [h] <;> decide)]
  have hm : Message p.wire p.size (q.map (·.name)) an ns ar := by
    refine ⟨hi.lo, ⟨12 + (Pkt.qBytes q).length, ?_, hr⟩, ?_, ?_, ?_, hspan, ?_, ?_⟩
    · have hqn := hi.qn
      have hqs := hi.qs
      have hle : 12 + (Pkt.qBytes q).length ≤ p.size := by
        have := (recsAt_lt hr).1; omega
      cases q with
      | none => exact ⟨by have := hcnt.1; simpa using this, rfl⟩
      | some qn =>
        obtain ⟨hv, _, _, _⟩ := hqn
        have hl : (Pkt.qBytes (some qn)).length = nameLen qn.name + 4 := by
          show qn.enc.length = _
          simp [Question.enc, Dname.wire_length]
        rw [hl] at hqs hle ⊢
        have hdrop : p.wire.drop 12 = wire qn.name ++ ([UInt8.ofNat (qn.type / 256), UInt8.ofNat qn.type,
            UInt8.ofNat (qn.rclass / 256), UInt8.ofNat qn.rclass] ++ p.wire.drop (12 + (nameLen qn.name + 4))) := by
          rw [slice_cut p.wire 12 (nameLen qn.name + 4), hqs]
          show qn.enc ++ _ = _
          simp [Question.enc]
        exact ⟨by have := hcnt.1; simpa using this, nameLen qn.name, name_of_bytes hv.1 hdrop (by omega), hv, by omega, by omega⟩
    · rw [hcnt.2.1, ← cnt 0, e0.length]
    · rw [hcnt.2.2.1, ← cnt 1, e1.length]
    · rw [hcnt.2.2.2, ← cnt 2, e2.length]
    · intro pre r post e ht
      obtain ⟨spre, s, spost, f1, f2, f3, f4⟩ := back pre r post e
      obtain ⟨g1, g2⟩ := hsp.opt spre s spost f1 (f2.type ▸ ht)
      refine ⟨?_, by rw [exact_ s r f2 (.inl ht)]; exact g2⟩
      intro x hx hxt
      rcases List.mem_append.mp hx with hx | hx
      · obtain ⟨y, hy, hs⟩ := each_mem f3 x (List.mem_append_right _ hx)
        exact g1 y (List.mem_append_left _ hy) (hs.type ▸ hxt)
      · obtain ⟨y, hy, hs⟩ := each_mem f4 x hx
        exact g1 y (List.mem_append_right _ hy) (hs.type ▸ hxt)
    · intro pre r post e ht
      obtain ⟨spre, s, spost, f1, f2, f3, f4⟩ := back pre r post e
      obtain ⟨g1, g2⟩ := hsp.tsig spre s spost f1 (f2.type ▸ ht)
      refine ⟨?_, by rw [exact_ s r f2 (.inr ht)]; exact g2⟩
      subst g1
      cases f4
      rfl
  obtain ⟨p', hp, hd⟩ := C39_complete keep canon p.wire p.size _ an ns ar hsz hm
  exact ⟨an, ns, ar, p', hp, hd, e0, e1, e2⟩

/-! ## Non-vacuity -/

/-- The hypotheses of `C39_written` are met by the message of `exBuilt`. -/
example : ∃ p, Built (some exQ) p [⟨0, exMx, 0, 0⟩, ⟨2, exA, 1, 0⟩] ∧ SpecialOk [⟨0, exMx, 0, 0⟩, ⟨2, exA, 1, 0⟩] := by
  obtain ⟨p, h⟩ := exBuilt
  have hn : ∀ r ∈ allRecs [⟨0, exMx, 0, 0⟩, ⟨2, exA, 1, 0⟩], r.type ≠ 41 ∧ r.type ≠ 250 := by
    intro r hr
    obtain ⟨it, h1, h2⟩ := allRecs_type hr
    rw [← h2]
    simp only [List.mem_cons, List.not_mem_nil, or_false] at h1
    rcases h1 with rfl | rfl <;> exact ⟨by decide, by decide⟩
  refine ⟨p, h, ⟨?_, ?_, ?_⟩⟩
  · intro it h1 h2
    simp only [List.mem_cons, List.not_mem_nil, or_false] at h1
    rcases h1 with rfl | rfl
    · exact absurd h2 (by decide)
    · rfl
  · intro pre r post e ht
    exact absurd ht (hn r (by rw [e]; simp)).1
  · intro pre r post e ht
    exact absurd ht (hn r (by rw [e]; simp)).2

/-- A query with a question, OPT without options and TSIG. -/
def exQuery : List UInt8 :=
  [0, 1, 0, 0, 0, 1, 0, 0, 0, 0, 0, 2, 1, 97, 0, 0, 1, 0, 1] ++
  [0, 0, 41, 4, 208, 0, 0, 0, 0, 0, 0] ++
  [1, 107, 0, 0, 250, 0, 255, 0, 0, 0, 0, 0, 20, 1, 104, 0, 1, 2, 3, 4, 5, 6, 0, 9, 0, 1, 7, 0, 1, 0, 0, 0, 0]

/-- Its records. -/
def exOpt : Rec := ⟨[], 41, 1232, 0, []⟩
def exTsig : Rec := ⟨[[107]], 250, 255, 0, [.name [[104]], .raw [1, 2, 3, 4, 5, 6, 0, 9, 0, 1, 7, 0, 1, 0, 0, 0, 0]]⟩

/-- It meets the hypothesis of `C39_complete`; its OPT and TSIG are special records in order. -/
theorem exQuery_message : Message exQuery 63 (some [[97]]) [] [] [exOpt, exTsig] := by
  refine ⟨by decide, ⟨19, ⟨by decide, 3, .label (l := [97]) rfl (by decide) (by decide) rfl (.root (by decide) rfl), ⟨by decide, by decide⟩,
    rfl, by decide⟩, .cons (mid := 30) ?_ (.cons (mid := 63) ?_ .nil)⟩, by decide, by decide, by decide, by simp, ?_, ?_⟩
  · exact ⟨0, 30, ⟨1, .root (by decide) rfl, ⟨by decide, by decide⟩, rfl, by decide, by decide, by decide, by decide, by decide⟩, rfl,
      .inl ⟨rfl, rfl, .inl (by decide)⟩⟩
  · refine ⟨20, 43, ⟨3, .label (l := [107]) rfl (by decide) (by decide) rfl (.root (by decide) rfl), ⟨by decide, by decide⟩, rfl,
      by decide, by decide, by decide, by decide, by decide⟩, rfl, .inr ⟨by decide, ⟨63, ?_⟩, by decide, by decide⟩⟩
    have e : (Rrwire.parseDesc exTsig.type).blocks = [.fixedName, .remainder] := by decide
    rw [e]
    exact .name (n := 3) rfl (.label (l := [104]) rfl (by decide) (by decide) rfl (.root (by decide) rfl)) ⟨by decide, by decide⟩
      (.remainder (by decide) .done)
  · intro pre r post e ht
    match pre, e with
    | [], e =>
      simp only [List.nil_append, List.cons.injEq] at e
      obtain ⟨rfl, rfl⟩ := e
      exact ⟨by simp [exTsig], [], by simp, rfl⟩
    | [x], e =>
      simp only [List.cons_append, List.nil_append, List.cons.injEq] at e
      obtain ⟨_, rfl, _⟩ := e
      exact absurd ht (by decide)
    | x :: y :: pre, e =>
      have := congrArg List.length e
      simp only [List.length_cons, List.length_append, List.length_nil] at this
      omega
  · intro pre r post e ht
    match pre, e with
    | [], e =>
      simp only [List.nil_append, List.cons.injEq] at e
      obtain ⟨rfl, _⟩ := e
      exact absurd ht (by decide)
    | [x], e =>
      simp only [List.cons_append, List.nil_append, List.cons.injEq] at e
      obtain ⟨_, rfl, rfl⟩ := e
      exact ⟨rfl, [[104]], [1, 2, 3, 4, 5, 6, 0, 9], [7], [0, 1, 0, 0], [], ⟨by decide, by decide⟩, rfl, rfl, by decide, by decide, by decide⟩
    | x :: y :: pre, e =>
      have := congrArg List.length e
      simp only [List.length_cons, List.length_append, List.length_nil] at this
      omega

/-- It is accepted and TSIG is cut off: the message ends where TSIG began, and has one additional
record less. -/
example : ∃ p, parse false true exQuery 63 = .ok p ∧ p.opt = some 0 ∧ p.tsig = some 1 ∧
    p.wire = exQuery.take 10 ++ [0, 1] ++ exQuery.drop 12 := by
  obtain ⟨p, h1, h2⟩ := C39_complete false true exQuery 63 _ _ _ _ (by decide) exQuery_message
  exact ⟨p, h1, (h2.opt 0).mpr ⟨exOpt, rfl, rfl⟩, (h2.tsig 1).mpr ⟨exTsig, rfl, rfl⟩,
    (h2.stripped rfl exTsig (by simp) rfl).2.1⟩

end Knot
