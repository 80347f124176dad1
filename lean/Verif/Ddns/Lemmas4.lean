import Verif.Ddns.Lemmas3
/-! # Dynamic updates: the effect of a record and of a message -/
namespace Knot.Ddns
open Knot.Dname (Name)
open Knot.Changeset

theorem step_of {apex : Name} {serialOf : Bytes → Nat} {sn : Nat} {z z' : Contents} {r : Rec} {v : Option RRs}
    (hl : ∀ k, lookup z' k = if k = ⟨false, r.owner, r.type⟩ then v else lookup z k)
    (hrec : ∀ x, x ∈ recs v ↔ (Has z r.owner r.type x ∧ ¬ Deleted apex serialOf sn z r r.owner r.type x) ∨
      (Accepted apex serialOf sn z r ∧ x = r.data))
    (hdel : ∀ t x, t ≠ r.type → ¬ Deleted apex serialOf sn z r r.owner t x)
    (hnew : Accepted apex serialOf sn z r → r.type ≠ rrsig → v.map (·.ttl) = some r.ttl)
    (hold : ¬ Accepted apex serialOf sn z r → v.isSome → v.map (·.ttl) = ttlOf z r.owner r.type) :
    Step apex serialOf sn z r z' where
  data o t x := by
    by_cases hk : o = r.owner ∧ t = r.type
    · obtain ⟨rfl, rfl⟩ := hk
      have : Has z' r.owner r.type x ↔ x ∈ recs v := by unfold Has; rw [hl, if_pos rfl]
      rw [this, hrec]
      simp
    · have : Has z' o t x ↔ Has z o t x := by
        unfold Has; rw [hl, if_neg (by simp only [Key.mk.injEq]; exact fun e => hk e.2)]
      rw [this]
      constructor
      · intro h
        refine .inl ⟨h, fun hd => ?_⟩
        have ho := hd.1
        subst ho
        exact hdel t x (fun e => hk ⟨rfl, e⟩) hd
      · rintro (h | h)
        · exact h.1
        · exact absurd ⟨h.2.1, h.2.2.1⟩ hk
  newTtl ha ht := by unfold ttlOf; rw [hl, if_pos rfl]; exact hnew ha ht
  oldTtl o t h hna := by
    by_cases hk : o = r.owner ∧ t = r.type
    · obtain ⟨rfl, rfl⟩ := hk
      have e : ttlOf z' r.owner r.type = v.map (·.ttl) := by unfold ttlOf; rw [hl, if_pos rfl]
      rw [e]
      refine hold (fun ha => hna ⟨rfl, rfl, ha⟩) ?_
      obtain ⟨x, hx⟩ := h
      obtain ⟨d, hd, _⟩ := has_iff.mp hx
      rw [hl, if_pos rfl] at hd
      rw [hd]; rfl
    · unfold ttlOf; rw [hl, if_neg (by simp only [Key.mk.injEq]; exact fun e => hk e.2)]
  nsec3 o t := by rw [hl, if_neg (by simp)]

/-- The result when nothing is changed. -/
theorem step_same {apex : Name} {serialOf : Bytes → Nat} {sn : Nat} {z z' : Contents} {r : Rec}
    (hl : ∀ k, lookup z' k = lookup z k) (ha : ¬ Accepted apex serialOf sn z r)
    (hd : ∀ t x, Has z r.owner t x → ¬ Deleted apex serialOf sn z r r.owner t x) :
    Step apex serialOf sn z r z' where
  data o t x := by
    have : Has z' o t x ↔ Has z o t x := by unfold Has; rw [hl]
    rw [this]
    constructor
    · intro h
      refine .inl ⟨h, fun hd' => ?_⟩
      have ho := hd'.1
      subst ho
      exact hd t x h hd'
    · rintro (h | h)
      · exact h.1
      · exact absurd h.1 ha
  newTtl h := absurd h ha
  oldTtl o t _ _ := by unfold ttlOf; rw [hl]
  nsec3 o t := hl _

/-! ## Proper zones stay proper -/

theorem proper_step {apex : Name} {serialOf : Bytes → Nat} {sn : Nat} {z z' : Contents} {r : Rec}
    (hz : Proper apex z) (hw : Wf z') (h : Step apex serialOf sn z r z') : Proper apex z' := by
  have honly : ∀ o x, Has z' o soa x → o = apex := by
    intro o x hx
    rcases (h.data o soa x).mp hx with e | e
    · exact hz.only o x e.1
    · rw [e.2.1]; exact (e.1.2.1 e.2.2.1.symm).1
  refine ⟨hw, ?_, honly⟩
  obtain ⟨s, hs, hlen⟩ := hz.soa
  obtain ⟨x0, hx0⟩ := List.length_eq_one_iff.mp hlen
  -- the records of the SOA are one
  have hone : ∃ y, ∀ x, Has z' apex soa x ↔ x = y := by
    have hbase : ∀ x, Has z apex soa x ↔ x = x0 := by
      intro x; unfold Has; rw [hs]; simp [recs, hx0]
    by_cases ha : Accepted apex serialOf sn z r ∧ r.type = soa
    · refine ⟨r.data, fun x => ?_⟩
      have hap := (ha.1.2.1 ha.2).1
      rw [h.data]
      constructor
      · rintro (e | e)
        · exact absurd ⟨hap.symm, .inl ⟨ha.1.1, ha.2.symm, .inl ha.2, ha.1⟩⟩ e.2
        · exact e.2.2.2
      · rintro rfl
        exact .inr ⟨ha.1, hap.symm, ha.2.symm, rfl⟩
    · refine ⟨x0, fun x => ?_⟩
      rw [h.data, hbase]
      constructor
      · rintro (e | e)
        · exact e.1
        · exact absurd ⟨e.1, e.2.2.1.symm⟩ ha
      · intro e
        refine .inl ⟨e, ?_⟩
        rintro ⟨_, hd | hd | hd⟩
        · exact ha ⟨hd.2.2.2, hd.2.1.symm⟩
        · exact hd.2.2.1 rfl
        · exact hd.2.2.1 rfl
  obtain ⟨y, hy⟩ := hone
  obtain ⟨d, hd, hm⟩ := has_iff.mp ((hy y).mpr rfl)
  refine ⟨d, hd, ?_⟩
  have hall : ∀ x ∈ d.data, x = y := fun x hx => (hy x).mp (has_iff.mpr ⟨d, hd, hx⟩)
  have hc := (hw.good hd).2
  match hdd : d.data with
  | [] => rw [hdd] at hm; cases hm
  | [_] => rfl
  | a :: b :: l =>
    rw [hdd] at hall hc
    have h1 := hall a (by simp)
    have h2 := hall b (by simp)
    have := (List.pairwise_cons.mp hc).1 b (by simp)
    rw [h1, h2] at this
    exact absurd this Rdataset.Less.irrefl

/-! ## One record -/

theorem accepted_in {apex : Name} {serialOf : Bytes → Nat} {sn : Nat} {z : Contents} {r : Rec}
    (h : r.cls ≠ classIn) : ¬ Accepted apex serialOf sn z r := fun ha => h ha.1

theorem step_add {apex : Name} {serialOf : Bytes → Nat} {sn : Nat} {z z' : Contents} {r : Rec}
    (hz : Wf z) (hc : r.cls = classIn) (ha : Accepted apex serialOf sn z r)
    (hl : ∀ k, lookup z' k = if k = ⟨false, r.owner, r.type⟩ then some (addedTo z r) else lookup z k) :
    Step apex serialOf sn z r z' := by
  refine step_of hl ?_ ?_ ?_ (fun h => absurd ha h)
  · intro x
    unfold addedTo
    by_cases hr : r.type = soa ∨ r.type = cname ∨ r.type = dname
    · rw [if_pos hr]
      simp only [recs, List.mem_singleton]
      constructor
      · exact fun e => .inr ⟨ha, e⟩
      · rintro (e | e)
        · exact absurd ⟨rfl, .inl ⟨hc, rfl, hr, ha⟩⟩ e.2
        · exact e.2
    · rw [if_neg hr]
      have hnd : ¬ Deleted apex serialOf sn z r r.owner r.type x := by
        rintro ⟨_, hd | hd | hd⟩
        · exact hr hd.2.2.1
        · rw [hc] at hd; exact absurd hd.1 (by decide)
        · rw [hc] at hd; exact absurd hd.1 (by decide)
      simp only [recs, mem_nodeAdd, List.mem_singleton, Has, hnd, not_false_eq_true, and_true, ha, true_and]
  · rintro t x ht ⟨_, hd | hd | hd⟩
    · exact ht hd.2.1
    · rw [hc] at hd; exact absurd hd.1 (by decide)
    · rw [hc] at hd; exact absurd hd.1 (by decide)
  · intro _ ht
    unfold addedTo
    by_cases hr : r.type = soa ∨ r.type = cname ∨ r.type = dname
    · rw [if_pos hr]; rfl
    · rw [if_neg hr]
      rcases nodeAdd_ttl (ty := r.type) (hz.goodO ⟨false, r.owner, r.type⟩) ⟨r.ttl, [r.data]⟩ with e | e
      · exact absurd e ht
      · simp [e]

/-- A record of the update section, with the check of the serial. -/
def doRec (serialOf : Bytes → Nat) (sn : Nat) (u : Update) (r : Rec) : Res Update := do
  let skip ← skipSoa serialOf sn r
  if skip then .ok u else processRr u r

theorem skip_soa_in {serialOf : Bytes → Nat} (hs : ∀ d, serialOf d < 4294967296) {sn : Nat}
    (hsn : sn < 4294967296) {r : Rec} (ht : r.type = soa) (hc : r.cls = classIn) :
    (skipSoa serialOf sn r = .ok false ∧ SerialLt sn (serialOf r.data)) ∨
    (skipSoa serialOf sn r = .ok true ∧ ¬ SerialLt sn (serialOf r.data)) := by
  have h := C08_compare_rfc1982 (serialOf r.data) sn (hs _) hsn
  obtain ⟨c, hcmp⟩ := C08_compare_total (serialOf r.data) sn
  unfold skipSoa
  rw [if_neg (fun e => e ht), if_neg (by rw [hc]; decide), hcmp, Res.bind_ok]
  rw [hcmp] at h
  by_cases hg : c = .greater
  · subst hg
    exact .inl ⟨rfl, h.2.2.1.mp rfl⟩
  · refine .inr ⟨by simp [hg], fun hlt => hg ?_⟩
    have := h.2.2.1.mpr hlt
    simpa using this

theorem doRec_ok {u : Update} (hz : Proper u.apex u.zone) {serialOf : Bytes → Nat}
    (hs : ∀ d, serialOf d < 4294967296) {sn : Nat} (hsn : sn < 4294967296) {r : Rec}
    (hp : Plain u.apex u.zone r) (hc : r.cls = classIn ∨ r.cls = classAny ∨ r.cls = classNone)
    (hn : r.cls = classIn → r.type = nsec3param → ¬ HasType u.zone r.owner nsec3param) :
    ∃ u', doRec serialOf sn u r = .ok u' ∧ u'.apex = u.apex ∧ Proper u.apex u'.zone ∧
      Step u.apex serialOf sn u.zone r u'.zone := by
  have hw := hz.wf
  suffices h : ∃ u', doRec serialOf sn u r = .ok u' ∧ u'.apex = u.apex ∧ Wf u'.zone ∧
      Step u.apex serialOf sn u.zone r u'.zone by
    obtain ⟨u', h1, h2, h3, h4⟩ := h
    exact ⟨u', h1, h2, proper_step hz h3 h4, h4⟩
  rcases hc with hc | hc | hc
  · -- addition
    have key : (r.type = soa → SerialLt sn (serialOf r.data)) →
        ∃ u', processRr u r = .ok u' ∧ u'.apex = u.apex ∧ Wf u'.zone ∧
          Step u.apex serialOf sn u.zone r u'.zone := by
      intro hser
      have hnp : r.type = nsec3param → lookup u.zone ⟨false, r.owner, r.type⟩ = none := by
        intro e
        have := hn hc e
        rw [hasType_iff hw, ← e] at this
        simpa using this
      obtain ⟨u', e, e1, e2, e3⟩ := add_step hz hp hc hser hnp
      refine ⟨u', ?_, e1, e2, ?_⟩
      · unfold processRr; rw [if_pos hc]; exact e
      · by_cases ha : Accepted u.apex serialOf sn u.zone r
        · simp only [if_pos ha] at e3
          exact step_add hw hc ha e3
        · simp only [if_neg ha] at e3
          refine step_same (fun k => ?_) ha ?_
          · rw [e3]; split <;> simp_all
          · rintro t x _ ⟨_, hd | hd | hd⟩
            · exact ha hd.2.2.2
            · rw [hc] at hd; exact absurd hd.1 (by decide)
            · rw [hc] at hd; exact absurd hd.1 (by decide)
    by_cases ht : r.type = soa
    · rcases skip_soa_in hs hsn ht hc with ⟨e, hlt⟩ | ⟨e, hlt⟩
      · obtain ⟨u', h⟩ := key (fun _ => hlt)
        refine ⟨u', ?_, h.2⟩
        unfold doRec
        rw [e, Res.bind_ok]
        exact h.1
      · refine ⟨u, ?_, rfl, hw, step_same (fun _ => rfl) (fun ha => hlt (ha.2.1 ht).2) ?_⟩
        · unfold doRec; rw [e, Res.bind_ok]; rfl
        · rintro t x _ ⟨_, hd | hd | hd⟩
          · exact hlt (hd.2.2.2.2.1 ht).2
          · rw [hc] at hd; exact absurd hd.1 (by decide)
          · rw [hc] at hd; exact absurd hd.1 (by decide)
    · obtain ⟨u', h⟩ := key (fun e => absurd e ht)
      refine ⟨u', ?_, h.2⟩
      unfold doRec skipSoa
      rw [if_pos ht, Res.bind_ok]
      exact h.1
  · -- RRset or node
    have hna : ¬ Accepted u.apex serialOf sn u.zone r := accepted_in (by rw [hc]; decide)
    by_cases ht : r.type = soa
    · refine ⟨u, ?_, rfl, hw, step_same (fun _ => rfl) hna ?_⟩
      · unfold doRec skipSoa
        rw [if_neg (fun e => e ht), if_pos (.inr hc), Res.bind_ok]; rfl
      · rintro t x _ ⟨_, hd | hd | hd⟩
        · rw [hc] at hd; exact absurd hd.1 (by decide)
        · rcases hd.2.1 with e | e
          · rw [ht] at e; exact absurd e (by decide)
          · exact hd.2.2.1 (e.trans ht)
        · rw [hc] at hd; exact absurd hd.1 (by decide)
    · have hdo : doRec serialOf sn u r = processRr u r := by
        unfold doRec skipSoa
        rw [if_pos ht, Res.bind_ok]; rfl
      rw [hdo]
      unfold processRr
      rw [if_neg (by rw [hc]; decide), if_neg (by rw [hc]; decide), if_pos hc]
      by_cases hty : r.type = typeAny
      · rw [if_neg (fun e => e hty)]
        obtain ⟨u', e, e1, e2, e3⟩ := rem_node_step hz hp.apart hp.inside
        refine ⟨u', e, e1, e2, ?_⟩
        have hgone : ∀ o t x, Deleted u.apex serialOf sn u.zone r o t x ↔ Gone u.apex r.owner ⟨false, o, t⟩ := by
          intro o t x
          unfold Deleted Gone
          rw [hc]
          simp only [hty, true_or, true_and, show ¬ (classAny = classIn) by decide,
            show ¬ (classAny = classNone) by decide, false_and, false_or, or_false]
          constructor
          · rintro ⟨rfl, h1, h2⟩; exact ⟨rfl, h1, h2⟩
          · rintro ⟨rfl, h1, h2⟩; exact ⟨rfl, h1, h2⟩
        refine ⟨fun o t x => ?_, fun h => absurd h hna, fun o t h _ => ?_, fun o t => ?_⟩
        · rw [hgone]
          unfold Has
          rw [e3]
          by_cases b : Gone u.apex r.owner ⟨false, o, t⟩
          · simp [b, recs, hna]
          · simp [b, hna]
        · obtain ⟨x, hx⟩ := h
          unfold ttlOf
          unfold Has at hx
          rw [e3] at hx ⊢
          by_cases b : Gone u.apex r.owner ⟨false, o, t⟩
          · rw [if_pos b] at hx; simp [recs] at hx
          · rw [if_neg b]
        · rw [e3, if_neg (fun h => absurd h.1 (by simp))]
      · rw [if_pos hty]
        obtain ⟨u', e, e1, e2, e3⟩ := rem_rrset_step hz hp.apart hp.inside ht
        refine ⟨u', e, e1, e2, step_of e3 ?_ ?_ (fun h => absurd h hna) ?_⟩
        · intro x
          have hdel : Deleted u.apex serialOf sn u.zone r r.owner r.type x ↔ ¬ (r.owner = u.apex ∧ r.type = ns) := by
            unfold Deleted
            rw [hc]
            simp only [show ¬ (classAny = classIn) by decide, show ¬ (classAny = classNone) by decide,
              false_and, false_or, or_false, or_true, true_and]
            exact ⟨fun h => h.2, fun h => ⟨ht, h⟩⟩
          rw [hdel]
          by_cases b : r.owner = u.apex ∧ r.type = ns
          · rw [if_pos b]
            simp only [b, and_self, not_true, not_false_eq_true, and_true, hna, false_and, or_false]
            rfl
          · rw [if_neg b]
            simp [recs, b, hna]
        · rintro t x hne ⟨_, hd | hd | hd⟩
          · rw [hc] at hd; exact absurd hd.1 (by decide)
          · rcases hd.2.1 with e | e
            · exact hty e
            · exact hne e
          · rw [hc] at hd; exact absurd hd.1 (by decide)
        · intro _ hv
          by_cases b : r.owner = u.apex ∧ r.type = ns
          · rw [if_pos b]; rfl
          · rw [if_neg b] at hv; simp at hv
  · -- a single record
    have hna : ¬ Accepted u.apex serialOf sn u.zone r := accepted_in (by rw [hc]; decide)
    by_cases ht : r.type = soa
    · refine ⟨u, ?_, rfl, hw, step_same (fun _ => rfl) hna ?_⟩
      · unfold doRec skipSoa
        rw [if_neg (fun e => e ht), if_pos (.inl hc), Res.bind_ok]; rfl
      · rintro t x _ ⟨_, hd | hd | hd⟩
        · rw [hc] at hd; exact absurd hd.1 (by decide)
        · rw [hc] at hd; exact absurd hd.1 (by decide)
        · exact hd.2.2.1 (hd.2.1.trans ht)
    · have hdo : doRec serialOf sn u r = processRr u r := by
        unfold doRec skipSoa
        rw [if_pos ht, Res.bind_ok]; rfl
      rw [hdo]
      unfold processRr
      rw [if_neg (by rw [hc]; decide), if_pos hc]
      obtain ⟨u', e, e1, e2, e3⟩ := rem_rr_step hz hp ht
      refine ⟨u', e, e1, e2, step_of e3 ?_ ?_ (fun h => absurd h hna) ?_⟩
      · intro x
        have hdel : Deleted u.apex serialOf sn u.zone r r.owner r.type x ↔ x = r.data ∧
            (r.owner = u.apex → r.type = ns → ∃ y, y ≠ x ∧ Has u.zone r.owner r.type y) := by
          unfold Deleted
          rw [hc]
          simp only [show ¬ (classNone = classIn) by decide, show ¬ (classNone = classAny) by decide,
            false_and, false_or, true_and]
          exact ⟨fun h => h.2, fun h => ⟨ht, h⟩⟩
        rw [hdel]
        simp only [hna, false_and, or_false]
        cases hl : lookup u.zone ⟨false, r.owner, r.type⟩ with
        | none => simp [recs, Has, hl, minus]
        | some d =>
          have hH : ∀ y, Has u.zone r.owner r.type y ↔ y ∈ d.data := by intro y; unfold Has; rw [hl]; rfl
          simp only [Option.some.injEq, exists_eq_left', hH]
          by_cases b : r.owner = u.apex ∧ r.type = ns ∧ d.data.length = 1
          · rw [if_pos b]
            obtain ⟨y0, hy0⟩ := List.length_eq_one_iff.mp b.2.2
            simp only [recs, hy0, List.mem_singleton]
            constructor
            · intro hx
              refine ⟨hx, ?_⟩
              rintro ⟨_, h⟩
              obtain ⟨y, h1, h2⟩ := h b.1 b.2.1
              exact h1 (h2.trans hx.symm)
            · exact fun h => h.1
          · rw [if_neg b, mem_recs_minus]
            simp only [recs, List.mem_singleton]
            constructor
            · rintro ⟨h1, h2⟩
              exact ⟨h1, fun h => h2 h.1⟩
            · rintro ⟨h1, h2⟩
              refine ⟨h1, fun hx => h2 ⟨hx, fun ha hb => ?_⟩⟩
              -- there is another record
              by_cases hall : ∃ y, y ≠ x ∧ y ∈ d.data
              · exact hall
              · exfalso
                have hall' : ∀ y ∈ d.data, y = x := fun y hy => by
                  by_cases e : y = x
                  · exact e
                  · exact absurd ⟨y, e, hy⟩ hall
                have hcan := (hw.good hl).2
                refine b ⟨ha, hb, ?_⟩
                match hdd : d.data with
                | [] => rw [hdd] at h1; cases h1
                | [_] => rfl
                | a :: a' :: l =>
                  rw [hdd] at hall' hcan
                  have q1 := hall' a (by simp)
                  have q2 := hall' a' (by simp)
                  have := (List.pairwise_cons.mp hcan).1 a' (by simp)
                  rw [q1, q2] at this
                  exact absurd this Rdataset.Less.irrefl
      · rintro t x hne ⟨_, hd | hd | hd⟩
        · exact hne hd.2.1
        · rw [hc] at hd; exact absurd hd.1 (by decide)
        · exact hne hd.2.1
      · intro _ hv
        unfold ttlOf
        by_cases b : r.owner = u.apex ∧ r.type = ns ∧
            ∃ d, lookup u.zone ⟨false, r.owner, r.type⟩ = some d ∧ d.data.length = 1
        · rw [if_pos b]
        · rw [if_neg b] at hv ⊢
          obtain ⟨m, hm⟩ := Option.isSome_iff_exists.mp hv
          obtain ⟨d, h1, h2⟩ := minus_ttl hm
          rw [hm, h1]
          simp [h2]

end Knot.Ddns
