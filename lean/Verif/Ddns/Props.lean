import Verif.Ddns.Lemmas5
/-!
# C16: dynamic updates
-/
namespace Knot
open Ddns
open Knot.Dname (Name)
open Changeset hiding Bytes

namespace Ddns

theorem preFail_not {apex : Name} {z : Contents} {qclass : Nat} {r : Rec} {c : Nat}
    (h : PreFail apex z qclass r c) : ¬ (r.PreForm apex qclass ∧ r.Exist z) ∧ c ≠ 0 := by
  cases h with
  | ttl h => exact ⟨fun e => h e.1.1, by decide⟩
  | zone _ h => exact ⟨fun e => h e.1.2.1, by decide⟩
  | form _ _ h => exact ⟨fun e => h e.1, by decide⟩
  | nxdomain _ h1 h2 h3 => exact ⟨fun e => h3 (e.2.1 h1 h2), by decide⟩
  | nxrrset _ h1 h2 h3 => exact ⟨fun e => h3 (e.2.2.1 h1 h2), by decide⟩
  | yxdomain _ h1 h2 h3 => exact ⟨fun e => e.2.2.2.1 h1 h2 h3, by decide⟩
  | yxrrset _ h1 h2 h3 => exact ⟨fun e => e.2.2.2.2 h1 h2 h3, by decide⟩

theorem prereqsFrom_ok {apex : Name} {z : Contents} (hz : Wf z) {qclass : Nat} (rs : List Rec) :
    ∀ {l : List (Name × Nat × List Bytes)} {done : List Rec}, Groups l done →
    (∀ r ∈ rs, Apart apex z r.owner) →
    (∃ l', prereqsFrom apex z qclass l rs = checkStored apex z l' ∧ Groups l' (done ++ rs) ∧
      ∀ r ∈ rs, r.PreForm apex qclass ∧ r.Exist z) ∨
    (∃ c, prereqsFrom apex z qclass l rs = .ok c ∧ ∃ pre r post, rs = pre ++ r :: post ∧
      (∀ p ∈ pre, p.PreForm apex qclass ∧ p.Exist z) ∧ PreFail apex z qclass r c) := by
  induction rs with
  | nil => exact fun {l done} h _ => .inl ⟨l, rfl, by simpa using h, by simp⟩
  | cons r rs ih =>
    intro l done h ha
    unfold prereqsFrom
    rcases processPrereq_ok hz (qclass := qclass) (ha r (by simp)) l with ⟨e, hf⟩ | ⟨c, e, hf⟩
    · rw [e]
      have hg : Groups (if ValRec r then addToList l r else l) (done ++ [r]) := by
        split
        · exact h.add (by assumption)
        · exact h.skip (by assumption)
      rcases ih hg (fun r' h' => ha r' (by simp [h'])) with ⟨l', f1, f2, f3⟩ | ⟨c, f1, pre, r', post, f2, f3, f4⟩
      · refine .inl ⟨l', f1, by simpa using f2, ?_⟩
        intro r' hr'
        rcases List.mem_cons.mp hr' with w | w
        · exact w ▸ hf
        · exact f3 r' w
      · refine .inr ⟨c, f1, r :: pre, r', post, by simp [f2], ?_, f4⟩
        intro p hp
        rcases List.mem_cons.mp hp with w | w
        · exact w ▸ hf
        · exact f3 p w
    · rw [e]
      exact .inr ⟨c, rfl, [], r, rs, rfl, by simp, hf⟩

end Ddns

/-- C16. The prerequisites of a message are those of RFC 2136, section 3.2; the answer tells what is wrong
with the first of those that do not hold, or that an RRset is not the one given. Records of the class of
the zone must not be of the type ANY (see `C16_prereq_any`). -/
theorem C16_prereqs {apex : Name} {z : Contents} (hz : Wf z) (qclass : Nat) (rs : List Rec)
    (ha : ∀ r ∈ rs, Apart apex z r.owner)
    (hany : ∀ r ∈ rs, r.cls ≠ classAny → r.cls ≠ classNone → r.type ≠ typeAny) :
    ∃ c, processPrereqs apex z qclass rs = .ok c ∧ (c = 0 ↔ Prereqs apex z qclass rs) ∧
      (c ≠ 0 → (∃ pre r post, rs = pre ++ r :: post ∧
          (∀ p ∈ pre, p.PreForm apex qclass ∧ p.Exist z) ∧ PreFail apex z qclass r c) ∨
        ((∀ r ∈ rs, r.PreForm apex qclass ∧ r.Exist z) ∧ ¬ Values z rs ∧ c = nxrrset)) := by
  have h0 : Groups [] [] := ⟨.nil, by simp, by simp, by simp, by simp⟩
  unfold processPrereqs
  rcases prereqsFrom_ok hz (qclass := qclass) rs h0 ha with ⟨l, e, hg, hf⟩ | ⟨c, e, pre, r, post, h1, h2, h3⟩
  · rw [e]
    rw [List.nil_append] at hg
    have hl : ∀ e ∈ l, Apart apex z e.1 ∧ Under apex e.1 ∧ e.2.1 ≠ typeAny := by
      intro e he
      obtain ⟨x, hx⟩ := List.exists_mem_of_ne_nil _ (hg.ne e he)
      obtain ⟨r, hr, hv, e1, e2, _⟩ := (hg.sound e he x).mp hx
      rw [← e1, ← e2]
      exact ⟨ha r hr, (hf r hr).1.2.1, hany r hr hv.1 hv.2⟩
    have hvi := values_iff hz hg
    rcases checkStored_ok hz (rs := rs) l hl with ⟨f1, f2⟩ | ⟨f1, e', f2, f3⟩
    · exact ⟨0, f1, ⟨fun _ => ⟨hf, hvi.mpr f2⟩, fun _ => rfl⟩, fun h => absurd rfl h⟩
    · have hnv : ¬ Values z rs := by
        intro hv
        rcases f3 with w | w
        · exact hg.ne e' f2 w
        · exact w (hvi.mp hv e' f2)
      exact ⟨nxrrset, f1, ⟨fun e => absurd e (by decide), fun e => absurd e.2 hnv⟩,
        fun _ => .inr ⟨hf, hnv, rfl⟩⟩
  · have := preFail_not h3
    refine ⟨c, e, ⟨fun e => absurd e this.2, fun hp => ?_⟩, fun _ => .inl ⟨pre, r, post, h1, h2, h3⟩⟩
    exact absurd (hp.1 r (by rw [h1]; simp)) this.1

/-! A zone for the examples. -/
namespace Ddns.Ex

def apex : Name := [[101]]
def www : Name := [[119], [101]]
def sub : Name := [[120], [119], [101]]
def zone : Contents :=
  [(⟨false, apex, 6⟩, ⟨100, [[1]]⟩), (⟨false, apex, 2⟩, ⟨100, [[5], [7]]⟩), (⟨false, www, 1⟩, ⟨60, [[1, 2, 3, 4]]⟩)]
/-- Serials in the examples are the first octet. -/
def serial (d : Bytes) : Nat := (d.headD 0).toNat

theorem serial_lt (d : Bytes) : serial d < 4294967296 := by
  unfold serial
  have := (d.headD 0).toNat_lt
  omega

theorem proper : Proper apex zone := by
  refine ⟨by decide +kernel, ⟨⟨100, [[1]]⟩, by decide +kernel, rfl⟩, ?_⟩
  intro o x hx
  obtain ⟨d, hd, _⟩ := has_iff.mp hx
  have hm := lookup_mem hd
  simp only [zone, List.mem_cons, Prod.mk.injEq, Key.mk.injEq, List.not_mem_nil, or_false] at hm
  rcases hm with h | h | h
  · exact h.1.2.1
  · exact absurd h.1.2.2 (by decide)
  · exact absurd h.1.2.2 (by decide)

theorem apart (o : Name) : Apart apex zone o := by
  intro rr hm h3
  simp only [zone, List.mem_cons, List.not_mem_nil, or_false] at hm
  rcases hm with h | h | h <;> (rw [h] at h3; cases h3)

end Ddns.Ex

open Ddns.Ex in
/-- The prerequisites "www exists", "the name servers are 5 and 7", "there is no x.www". -/
example : let rs : List Rec := [⟨www, 1, 255, 0, []⟩, ⟨apex, 2, 1, 0, [7]⟩, ⟨apex, 2, 1, 0, [5]⟩, ⟨sub, 255, 254, 0, []⟩]
    (∀ r ∈ rs, r.cls ≠ classAny → r.cls ≠ classNone → r.type ≠ typeAny) ∧
    (∀ r ∈ rs, Apart apex zone r.owner) ∧ processPrereqs apex zone 1 rs = .ok 0 ∧
    processPrereqs apex zone 1 [⟨apex, 2, 1, 0, [7]⟩] = .ok nxrrset :=
  ⟨by decide +kernel, fun _ _ => apart _, by decide +kernel, by decide +kernel⟩

/-- C16. The check of the records of the update section: all have a proper form, or the RCODE tells what
is wrong with the first that has not. -/
theorem C16_precheck {apex : Name} {z : Contents} (hz : Wf z) (rs : List Rec) :
    (precheck apex z classIn rs = 0 ↔ ∀ r ∈ rs, r.UpForm apex z) ∧
    (precheck apex z classIn rs ≠ 0 → ∃ pre r post, rs = pre ++ r :: post ∧ (∀ p ∈ pre, p.UpForm apex z) ∧
      precheck apex z classIn rs =
        if ¬ inZone apex r.owner then notzone
        else if r.type = nsec3param ∧ (r.owner ≠ apex ∨ (lookup z ⟨false, apex, nsec3param⟩).isSome) then refused
        else formerr) := by
  have one : ∀ r : Rec, (checkUpdate apex z classIn r = 0 ↔ r.UpForm apex z) ∧
      (checkUpdate apex z classIn r ≠ 0 → checkUpdate apex z classIn r =
        if ¬ inZone apex r.owner then notzone
        else if r.type = nsec3param ∧ (r.owner ≠ apex ∨ (lookup z ⟨false, apex, nsec3param⟩).isSome) then refused
        else formerr) := by
    intro r
    have hzone : inZone apex r.owner = true ↔ Under apex r.owner := List.isSuffixOf_iff_suffix
    have hmeta : isMeta r.type = true ↔ r.type ∈ metaTypes := by simp [isMeta, metaTypes]
    have hty := @hasType_iff z hz apex nsec3param
    unfold checkUpdate Rec.UpForm
    rw [hty, ← hzone]
    by_cases h1 : inZone apex r.owner = true
    · simp only [h1, not_true, if_false, true_and]
      by_cases h2 : r.type = nsec3param ∧ r.owner ≠ apex
      · rw [if_pos h2, if_pos ⟨h2.1, .inl h2.2⟩]
        refine ⟨⟨fun e => absurd e (by decide), fun e => absurd (e.1 h2.1).1 h2.2⟩, fun _ => rfl⟩
      · rw [if_neg h2]
        by_cases h3 : r.type = nsec3param ∧ (lookup z ⟨false, apex, nsec3param⟩).isSome = true
        · rw [if_pos h3, if_pos ⟨h3.1, .inr h3.2⟩]
          exact ⟨⟨fun e => absurd e (by decide), fun e => absurd h3.2 (e.1 h3.1).2⟩, fun _ => rfl⟩
        · rw [if_neg h3]
          have hno : ¬ (r.type = nsec3param ∧
              (r.owner ≠ apex ∨ (lookup z ⟨false, apex, nsec3param⟩).isSome = true)) := by
            rintro ⟨e, e' | e'⟩
            · exact h2 ⟨e, e'⟩
            · exact h3 ⟨e, e'⟩
          rw [if_neg hno]
          have hfst : r.type = nsec3param → r.owner = apex ∧ ¬ (lookup z ⟨false, apex, nsec3param⟩).isSome = true := by
            intro e
            refine ⟨?_, fun e' => h3 ⟨e, e'⟩⟩
            by_cases q : r.owner = apex
            · exact q
            · exact absurd ⟨e, q⟩ h2
          simp only [iff_true_intro hfst, true_and, hmeta]
          have eval : ∀ (P : Prop) [Decidable P] (Q : Prop), (Q ↔ ¬ P) →
              ((if P then formerr else 0) = 0 ↔ Q) ∧ ((if P then formerr else 0) ≠ 0 → (if P then formerr else 0) = formerr) := by
            intro P _ Q hq
            by_cases hp : P
            · simp only [hp, if_true, implies_true, and_true]
              exact ⟨fun e => absurd e (by decide), fun e => absurd hp (hq.mp e)⟩
            · simp [hp, hq]
          by_cases c1 : r.cls = classIn
          · have n1 : r.cls ≠ classAny := by rw [c1]; decide
            have n2 : r.cls ≠ classNone := by rw [c1]; decide
            rw [if_pos c1]
            exact eval _ _ (by simp [c1, show ¬ ((1 : Nat) = 255) by decide, show ¬ ((1 : Nat) = 254) by decide])
          · rw [if_neg c1]
            by_cases c2 : r.cls = classAny
            · have n2 : r.cls ≠ classNone := by rw [c2]; decide
              rw [if_pos c2]
              refine eval _ _ ?_
              grind
            · rw [if_neg c2]
              by_cases c3 : r.cls = classNone
              · rw [if_pos c3]
                refine eval _ _ ?_
                grind
              · rw [if_neg c3]
                exact ⟨⟨fun e => absurd e (by decide), fun e => by simp [c1, c2, c3] at e⟩, fun _ => rfl⟩
    · simp only [h1, not_false_eq_true, if_true, false_and, iff_false]
      exact ⟨by simp, by simp⟩
  induction rs with
  | nil => simp [precheck]
  | cons r rs ih =>
    obtain ⟨o1, o2⟩ := one r
    unfold precheck
    by_cases h : checkUpdate apex z classIn r = 0
    · rw [if_neg (fun e => e h)]
      have hf := o1.mp h
      refine ⟨?_, fun hne => ?_⟩
      · rw [ih.1]
        simp [hf]
      · obtain ⟨pre, r', post, e1, e2, e3⟩ := ih.2 hne
        refine ⟨r :: pre, r', post, by simp [e1], ?_, e3⟩
        intro p hp
        rcases List.mem_cons.mp hp with w | w
        · exact w ▸ hf
        · exact e2 p w
    · rw [if_pos h]
      refine ⟨⟨fun e => absurd e h, fun e => absurd (o1.mpr (e r (by simp))) h⟩, fun _ => ?_⟩
      exact ⟨[], r, rs, rfl, by simp, o2 h⟩

/-- C16. The update section has the effect of RFC 2136, section 3.4.2: record after record, exactly the
accepted additions and the deletions it allows are made. Records of proper form that have nothing to do
with NSEC3, at most one NSEC3PARAM (see `C16_nsec3param_lost`). -/
theorem C16_update {serialOf : Bytes → Nat} (hs : ∀ d, serialOf d < 4294967296) {sn : Nat}
    (hsn : sn < 4294967296) {u : Update} (hz : Proper u.apex u.zone) {rs : List Rec}
    (hf : ∀ r ∈ rs, r.UpForm u.apex u.zone)
    (hp : ∀ r ∈ rs, Apart u.apex u.zone r.owner ∧ nsec3rel r.type r.data = false)
    (hn : (rs.filter (fun r => decide (r.type = nsec3param))).length ≤ 1) :
    ∃ u', processUpdate serialOf sn u rs = .ok u' ∧ u'.apex = u.apex ∧ Proper u.apex u'.zone ∧
      Steps u.apex serialOf sn u.zone rs u'.zone := by
  refine processUpdate_ok hs hsn rs rfl hz (fun r hr => ⟨(hf r hr).1, (hp r hr).1, (hp r hr).2⟩)
    (fun r hr => ?_) (fun r hr ht => ((hf r hr).2.1 ht).1) ?_
  · rcases (hf r hr).2.2 with e | e | e
    · exact .inl e.1
    · exact .inr (.inl e.1)
    · exact .inr (.inr e.1)
  · by_cases he : params rs = []
    · exact .inl he
    · obtain ⟨r, hr⟩ := List.exists_mem_of_ne_nil _ he
      obtain ⟨h1, h2⟩ := List.mem_filter.mp hr
      refine .inr ⟨?_, ((hf r h1).2.1 (by simpa using h2)).2⟩
      have : (params rs).length ≠ 0 := fun e => he (List.length_eq_zero_iff.mp e)
      have hle : (params rs).length ≤ 1 := hn
      omega

open Ddns.Ex in
/-- Delete www, make it an alias, add a name server, delete another one, raise the serial. -/
example : let rs : List Rec := [⟨www, 255, 255, 0, []⟩, ⟨www, 5, 1, 30, [9]⟩, ⟨apex, 2, 1, 50, [6]⟩,
      ⟨apex, 2, 254, 0, [5]⟩, ⟨apex, 6, 1, 100, [2]⟩]
    (∀ r ∈ rs, r.UpForm apex zone) ∧ (∀ r ∈ rs, Apart apex zone r.owner ∧ nsec3rel r.type r.data = false) ∧
    (processUpdate serial 1 ⟨apex, false, zone, Ch.init⟩ rs).bind (fun u => .ok u.zone) =
      .ok [(⟨false, apex, 2⟩, ⟨50, [[6], [7]]⟩), (⟨false, www, 5⟩, ⟨30, [[9]]⟩), (⟨false, apex, 6⟩, ⟨100, [[2]]⟩)] := by
  refine ⟨?_, fun r hr => ⟨apart _, ?_⟩, by decide +kernel⟩
  · have := (C16_precheck proper.wf (apex := apex) [⟨www, 255, 255, 0, []⟩, ⟨www, 5, 1, 30, [9]⟩,
      ⟨apex, 2, 1, 50, [6]⟩, ⟨apex, 2, 254, 0, [5]⟩, ⟨apex, 6, 1, 100, [2]⟩]).1
    exact this.mp (by decide +kernel)
  · revert r
    decide +kernel

/-! ## What follows for every message -/

/-- C16. The apex never loses its SOA and its last NS. -/
theorem C16_apex {apex : Name} {serialOf : Bytes → Nat} {sn : Nat} {z z' : Contents} {rs : List Rec}
    (hz : Proper apex z) (h : Steps apex serialOf sn z rs z') :
    (∃ x, ∀ y, Has z' apex soa y ↔ y = x) ∧ (HasType z apex ns → HasType z' apex ns) := by
  have hp : Proper apex z' ∧ (HasType z apex ns → HasType z' apex ns) := by
    induction h with
    | nil => exact ⟨hz, id⟩
    | @cons z z1 z' r rs h1 h2 h3 ih =>
      refine ⟨(ih h2).1, fun hns => (ih h2).2 ?_⟩
      obtain ⟨x, hx⟩ := hns
      have keep : ∀ y, Has z apex ns y → ¬ Deleted apex serialOf sn z r apex ns y → HasType z1 apex ns :=
        fun y hy hd => ⟨y, (h1.data _ _ _).mpr (.inl ⟨hy, hd⟩)⟩
      by_cases hd : Deleted apex serialOf sn z r apex ns x
      · obtain ⟨ho, hd | hd | hd⟩ := hd
        · rcases hd.2.2.1 with e | e | e <;> (rw [← hd.2.1] at e; exact absurd e (by decide))
        · exact absurd ⟨rfl, rfl⟩ hd.2.2.2
        · obtain ⟨y, hy, hy'⟩ := hd.2.2.2.2 rfl rfl
          refine keep y hy' ?_
          rintro ⟨_, hd' | hd' | hd'⟩
          · rw [hd.1] at hd'; exact absurd hd'.1 (by decide)
          · rw [hd.1] at hd'; exact absurd hd'.1 (by decide)
          · exact hy (hd'.2.2.2.1.trans hd.2.2.2.1.symm)
      · exact keep x hx hd
  refine ⟨?_, hp.2⟩
  obtain ⟨s, hs, hl⟩ := hp.1.soa
  obtain ⟨x, hx⟩ := List.length_eq_one_iff.mp hl
  exact ⟨x, fun y => by unfold Has; rw [hs]; simp [recs, hx]⟩

/-- C16. The SOA is the old one, or one of the message with a newer serial. -/
theorem C16_soa {apex : Name} {serialOf : Bytes → Nat} {sn : Nat} {z z' : Contents} {rs : List Rec}
    (h : Steps apex serialOf sn z rs z') {x : Bytes} (hx : Has z' apex soa x) :
    Has z apex soa x ∨ (SerialLt sn (serialOf x) ∧
      ∃ r ∈ rs, r.cls = classIn ∧ r.owner = apex ∧ r.type = soa ∧ r.data = x) := by
  induction h with
  | nil => exact .inl hx
  | @cons z z1 z' r rs h1 h2 h3 ih =>
    rcases ih hx with e | ⟨e, r', hr', e'⟩
    · rcases (h1.data _ _ _).mp e with w | w
      · exact .inl w.1
      · obtain ⟨ha, h4, h5, h6⟩ := w
        subst h6
        exact .inr ⟨(ha.2.1 h5.symm).2, r, by simp, ha.1, h4.symm, h5.symm, rfl⟩
    · exact .inr ⟨e, r', by simp [hr'], e'⟩

/-- C16. An update never puts a CNAME and other data at the same name, nor two CNAMEs, nor data other than
a DNAME under a DNAME. -/
theorem C16_cname {apex : Name} {serialOf : Bytes → Nat} {sn : Nat} {z z' : Contents} {rs : List Rec}
    (hz : Proper apex z) (h : Steps apex serialOf sn z rs z') (o : Name) :
    ((HasType z' o cname ∧ ∃ t, t ≠ cname ∧ HasType z' o t) →
      (HasType z o cname ∧ ∃ t, t ≠ cname ∧ HasType z o t)) ∧
    ((∃ x y, x ≠ y ∧ Has z' o cname x ∧ Has z' o cname y) →
      (∃ x y, x ≠ y ∧ Has z o cname x ∧ Has z o cname y)) ∧
    (∀ s, Under apex s → Under s o → s ≠ o →
      (HasType z' s dname ∧ ∃ t, t ≠ dname ∧ HasType z' o t) →
      (HasType z s dname ∧ ∃ t, t ≠ dname ∧ HasType z o t)) := by
  induction h with
  | nil => exact ⟨id, id, fun _ _ _ _ => id⟩
  | @cons z z1 z' r rs h1 h2 h3 ih =>
    obtain ⟨i1, i2, i3⟩ := ih h2
    refine ⟨fun hc => ?_, fun hc => ?_, fun s s1 s2 s3 hc => ?_⟩
    · obtain ⟨⟨x, hx⟩, t, ht, y, hy⟩ := i1 hc
      rcases (h1.data _ _ _).mp hx with w | w
      · rcases (h1.data _ _ _).mp hy with w' | w'
        · exact ⟨⟨x, w.1⟩, t, ht, y, w'.1⟩
        · obtain ⟨ha, rfl, rfl, rfl⟩ := w'
          refine ⟨⟨x, w.1⟩, ?_⟩
          by_cases t1 : r.type = soa
          · obtain ⟨s, hs, hl⟩ := hz.soa
            refine ⟨soa, by decide, (hasType_iff hz.wf).mpr ?_⟩
            rw [(ha.2.1 t1).1, hs]; rfl
          · by_cases t2 : r.type = dname
            · rcases ha.2.2.2.1 t2 with e | e
              · exact ⟨dname, by decide, e⟩
              · exact absurd ⟨x, w.1⟩ e.2
            · exact absurd ⟨x, w.1⟩ (ha.2.2.2.2 (by simp [t1, t2, ht])).1
      · obtain ⟨ha, rfl, hcn, rfl⟩ := w
        rcases (h1.data _ _ _).mp hy with w' | w'
        · rcases ha.2.2.1 hcn.symm with e | e
          · exact ⟨e, t, ht, y, w'.1⟩
          · exact absurd ⟨t, y, w'.1⟩ e.1
        · exact absurd (w'.2.2.1.trans hcn.symm) ht
    · obtain ⟨x, y, hne, hx, hy⟩ := i2 hc
      rcases (h1.data _ _ _).mp hx with w | w
      · rcases (h1.data _ _ _).mp hy with w' | w'
        · exact ⟨x, y, hne, w.1, w'.1⟩
        · exact absurd ⟨w'.2.1, .inl ⟨w'.1.1, w'.2.2.1, .inr (.inl w'.2.2.1.symm), w'.1⟩⟩ w.2
      · rcases (h1.data _ _ _).mp hy with w' | w'
        · exact absurd ⟨w.2.1, .inl ⟨w.1.1, w.2.2.1, .inr (.inl w.2.2.1.symm), w.1⟩⟩ w'.2
        · exact absurd (w.2.2.2.trans w'.2.2.2.symm) hne
    · obtain ⟨⟨x, hx⟩, t, ht, y, hy⟩ := i3 s s1 s2 s3 hc
      rcases (h1.data _ _ _).mp hx with w | w
      · have hd : HasType z s dname := ⟨x, w.1⟩
        rcases (h1.data _ _ _).mp hy with w' | w'
        · exact ⟨hd, t, ht, y, w'.1⟩
        · obtain ⟨ha, rfl, rfl, rfl⟩ := w'
          have hu : UnderDname apex z r.owner := ⟨s, s1, s2, s3, hd⟩
          by_cases t1 : r.type = soa
          · exact absurd (under_antisymm s2 ((ha.2.1 t1).1 ▸ s1)) s3
          · by_cases t2 : r.type = cname
            · rcases ha.2.2.1 t2 with e | e
              · exact ⟨hd, cname, by decide, e⟩
              · exact absurd hu e.2
            · exact absurd hu (ha.2.2.2.2 (by simp [t1, t2, ht])).2.1
      · obtain ⟨ha, rfl, hcn, rfl⟩ := w
        rcases (h1.data _ _ _).mp hy with w' | w'
        · rcases ha.2.2.2.1 hcn.symm with e | e
          · exact ⟨e, t, ht, y, w'.1⟩
          · exact absurd ⟨t, y, w'.1⟩ (e.1 o s2 (fun q => s3 q.symm))
        · exact absurd w'.2.1.symm s3

open Ddns.Ex in
/-- An update the three theorems above apply to: it replaces the SOA, turns www into a CNAME, tries to add
an address beside it and to remove all name servers. -/
example : ∃ z', Proper apex zone ∧ Steps apex serial 1 zone [⟨apex, 6, 1, 100, [2]⟩, ⟨www, 1, 255, 0, []⟩,
      ⟨www, 5, 1, 30, [9]⟩, ⟨www, 1, 1, 30, [9]⟩, ⟨apex, 2, 255, 0, []⟩] z' ∧
    Has z' apex soa [2] ∧ HasType z' www cname ∧ HasType z' apex ns := by
  have hf : ∀ r ∈ ([⟨apex, 6, 1, 100, [2]⟩, ⟨www, 1, 255, 0, []⟩, ⟨www, 5, 1, 30, [9]⟩, ⟨www, 1, 1, 30, [9]⟩,
      ⟨apex, 2, 255, 0, []⟩] : List Rec), r.UpForm apex zone :=
    (C16_precheck proper.wf (apex := apex) _).1.mp (by decide +kernel)
  obtain ⟨u', e1, _, _, e4⟩ := C16_update (serialOf := serial) serial_lt (sn := 1) (by decide)
    (u := ⟨apex, false, zone, Ch.init⟩) proper hf
    (fun r hr => ⟨apart _, by revert r; decide +kernel⟩) (by decide)
  have hz : Res.bind (.ok u') (fun u => .ok u.zone) = Res.ok [(⟨false, apex, 2⟩, ⟨100, [[5], [7]]⟩),
      (⟨false, apex, 6⟩, ⟨100, [[2]]⟩), (⟨false, www, 5⟩, ⟨30, [[9]]⟩)] := by
    rw [← e1]; decide +kernel
  have hz' : u'.zone = _ := Res.ok.inj hz
  rw [hz'] at e4
  exact ⟨_, proper, e4, by unfold Has; decide +kernel, ⟨[9], by unfold Has; decide +kernel⟩, ⟨[5], by unfold Has; decide +kernel⟩⟩

/-! ## Several messages -/

/-- C16. Messages processed together: each takes effect as a whole, after the previous ones, or not at
all. -/
theorem C16_bulk {serialOf : Bytes → Nat} (hs : ∀ d, serialOf d < 4294967296) {sn : Nat}
    (hsn : sn < 4294967296) (ms : List Msg) {u : Update} (hz : Proper u.apex u.zone)
    (hq : ∀ m ∈ ms, m.qclass = classIn)
    (hp : ∀ m ∈ ms, ∀ r ∈ m.prereqs, Apart u.apex u.zone r.owner ∧
      (r.cls ≠ classAny → r.cls ≠ classNone → r.type ≠ typeAny))
    (hup : ∀ m ∈ ms, ∀ r ∈ m.updates, Apart u.apex u.zone r.owner ∧ nsec3rel r.type r.data = false)
    (hn : ∀ m ∈ ms, (m.updates.filter (fun r => decide (r.type = nsec3param))).length ≤ 1) :
    ∃ u' cs, processBulk serialOf sn u ms = .ok (u', cs) ∧ Proper u.apex u'.zone ∧
      Bulk u.apex serialOf sn u.zone ms u'.zone cs := by
  induction ms generalizing u with
  | nil => exact ⟨u, [], rfl, hz, .nil⟩
  | cons m ms ih =>
    obtain ⟨c, e, hc, _⟩ := C16_prereqs hz.wf m.qclass m.prereqs (fun r hr => (hp m (by simp) r hr).1)
      (fun r hr => (hp m (by simp) r hr).2)
    have hpre := (C16_precheck hz.wf (apex := u.apex) m.updates).1
    unfold processBulk
    rw [e, Res.bind_ok]
    simp only
    by_cases hall : Prereqs u.apex u.zone m.qclass m.prereqs ∧ ∀ r ∈ m.updates, r.UpForm u.apex u.zone
    · have h0 : (if c ≠ 0 then c else precheck u.apex u.zone m.qclass m.updates) = 0 := by
        rw [if_neg (fun h => h (hc.mpr hall.1)), hq m (by simp)]
        exact hpre.mpr hall.2
      rw [if_neg (fun h => h h0)]
      obtain ⟨u1, e1, e2, e3, e4⟩ := C16_update hs hsn hz hall.2 (hup m (by simp)) (hn m (by simp))
      rw [e1, Res.bind_ok]
      have hap : ∀ o, Apart u.apex u.zone o → Apart u1.apex u1.zone o := fun o h =>
        e2 ▸ h.step e3.wf e4.nsec3
      obtain ⟨u2, cs, f1, f2, f3⟩ := ih (u := u1) (e2 ▸ e3) (fun m' h => hq m' (by simp [h]))
        (fun m' h r hr => ⟨hap _ (hp m' (by simp [h]) r hr).1, (hp m' (by simp [h]) r hr).2⟩)
        (fun m' h r hr => ⟨hap _ (hup m' (by simp [h]) r hr).1, (hup m' (by simp [h]) r hr).2⟩)
        (fun m' h => hn m' (by simp [h]))
      rw [f1]
      rw [e2] at f2 f3
      exact ⟨u2, 0 :: cs, rfl, f2, .applied hall.1 hall.2 e4 f3⟩
    · have h0 : (if c ≠ 0 then c else precheck u.apex u.zone m.qclass m.updates) ≠ 0 := by
        intro h
        by_cases hc0 : c = 0
        · rw [if_neg (fun q => q hc0), hq m (by simp)] at h
          exact hall ⟨hc.mp hc0, hpre.mp h⟩
        · rw [if_pos hc0] at h; exact hc0 h
      rw [if_pos h0]
      obtain ⟨u2, cs, f1, f2, f3⟩ := ih hz (fun m' h => hq m' (by simp [h]))
        (fun m' h => hp m' (by simp [h])) (fun m' h => hup m' (by simp [h])) (fun m' h => hn m' (by simp [h]))
      rw [f1]
      exact ⟨u2, _ :: cs, rfl, f2, .refused h0 hall f3⟩

open Ddns.Ex in
/-- The second message is refused, the third needs the first. -/
example : (processBulk serial 1 ⟨apex, false, zone, Ch.init⟩
      [⟨1, [⟨sub, 255, 254, 0, []⟩], [⟨sub, 1, 1, 10, [8]⟩]⟩,
       ⟨1, [⟨sub, 255, 254, 0, []⟩], [⟨www, 255, 255, 0, []⟩]⟩,
       ⟨1, [⟨sub, 1, 1, 0, [8]⟩], [⟨sub, 1, 254, 0, [8]⟩, ⟨www, 1, 1, 10, [9]⟩]⟩]).bind
        (fun r => .ok (r.1.zone, r.2)) =
    .ok ([(⟨false, apex, 6⟩, ⟨100, [[1]]⟩), (⟨false, apex, 2⟩, ⟨100, [[5], [7]]⟩),
      (⟨false, www, 1⟩, ⟨10, [[1, 2, 3, 4], [9]]⟩)], [0, yxdomain, 0]) := by decide +kernel

/-! ## Findings -/

open Ddns.Ex in
/-- C16, finding. A prerequisite of the class IN and the type ANY, which RFC 2136 calls a format error,
violates an assertion of the server. -/
theorem C16_prereq_any : processPrereqs apex zone classIn [⟨www, typeAny, classIn, 0, []⟩] = .ub := by
  decide +kernel

open Ddns.Ex in
/-- C16, finding. Of two NSEC3PARAM records in one message none is left: the second one removes the
first one and is not added. -/
theorem C16_nsec3param_lost :
    precheck apex zone classIn [⟨apex, nsec3param, 1, 0, [1]⟩, ⟨apex, nsec3param, 1, 0, [2]⟩] = 0 ∧
    (processUpdate serial 1 ⟨apex, false, zone, Ch.init⟩
      [⟨apex, nsec3param, 1, 0, [1]⟩, ⟨apex, nsec3param, 1, 0, [2]⟩]).bind (fun u => .ok u.zone) = .ok zone := by
  decide +kernel

open Ddns.Ex in
/-- C16, finding. Every SOA is compared with the serial the zone had before the update, so an older one may
replace a newer one of the same message. -/
theorem C16_soa_lower :
    (processUpdate serial 1 ⟨apex, false, zone, Ch.init⟩ [⟨apex, soa, 1, 100, [9]⟩, ⟨apex, soa, 1, 100, [3]⟩]).bind
      (fun u => .ok (lookup u.zone (soaKey apex))) = .ok (some ⟨100, [[3]]⟩) := by
  decide +kernel

open Ddns.Ex in
/-- C16, finding. Adding a record that exists with another TTL does nothing; RFC 2136, section 3.4.2.2,
replaces it. -/
theorem C16_ttl_kept :
    (processUpdate serial 1 ⟨apex, false, zone, Ch.init⟩ [⟨www, 1, 1, 3600, [1, 2, 3, 4]⟩]).bind
      (fun u => .ok (lookup u.zone ⟨false, www, 1⟩)) = .ok (some ⟨60, [[1, 2, 3, 4]]⟩) := by
  decide +kernel

open Ddns.Ex in
/-- C16, finding. Deleting all RRsets of a name found only among the NSEC3 owners deletes the NSEC3 records,
though such records cannot be deleted by their type. -/
theorem C16_nsec3_deleted :
    let z := zone ++ [(⟨true, sub, 50⟩, ⟨100, [[1]]⟩)]
    (processUpdate serial 1 ⟨apex, false, z, Ch.init⟩ [⟨sub, 255, 255, 0, []⟩]).bind
      (fun u => .ok u.zone) = .ok zone ∧ precheck apex z classIn [⟨sub, 255, 255, 0, []⟩] = 0 := by
  decide +kernel

open Ddns.Ex in
/-- C16, finding. A DNAME may be added under another one (RFC 6672, section 2.4, forbids it). -/
theorem C16_dname_nested :
    (processUpdate serial 1 ⟨apex, false, zone, Ch.init⟩
      [⟨www, dname, 1, 10, [1]⟩, ⟨sub, dname, 1, 10, [2]⟩]).bind
      (fun u => .ok (lookup u.zone ⟨false, www, dname⟩, lookup u.zone ⟨false, sub, dname⟩)) =
    .ok (some ⟨10, [[1]]⟩, some ⟨10, [[2]]⟩) := by
  decide +kernel

end Knot
