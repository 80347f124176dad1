import Verif.Nsecchain.Lemmas2
/-!
# Lemmas: fixing the chain, continued
-/
namespace Knot.Nsecchain
open Dname (Name lowerName canonCmp)

theorem SameData.trans {a b c : Node} (h : SameData a b) (h' : SameData b c) : SameData a c := by
  obtain ⟨a1, a2, a3, a4, a5⟩ := h
  obtain ⟨b1, b2, b3, b4, b5⟩ := h'
  exact ⟨b1.trans a1, b2.trans a2, b3.trans a3, fun t ht => a4 t (b4 t ht), fun t ht h7 h0 => b5 t (a5 t ht h7 h0) h7 h0⟩

theorem noNsec_of {n n' : Node} (hs : SameData n n') (ht : n.types ≠ []) : noNsec n' = noNsec n := by
  have h1 : count n ≠ 0 := by
    have := List.length_pos_iff.mpr ht
    unfold count; omega
  have h2 : count n' ≠ 0 := by
    have := List.length_pos_iff.mpr (by rw [hs.1]; exact ht : n'.types ≠ [])
    unfold count; omega
  simp [noNsec, h1, h2, hs.2.1]

/-- The next of a member of the first part that is not its last. -/
theorem after_front {first : Name} {P : List Name} {x p : Name} (hnd : P.Nodup) (hx : x ∈ P)
    (hp : P.getLast? = some p) (hxp : x ≠ p) (Z Z' : List Name) :
    after first (P ++ Z) x = after first (P ++ Z') x := by
  obtain ⟨A, B, rfl⟩ := List.append_of_mem hx
  have hxA : x ∉ A := by
    have := (List.nodup_append.mp hnd).2.2
    intro q
    exact this x q x (by simp) rfl
  cases B with
  | nil =>
    exfalso
    simp at hp
    exact hxp hp
  | cons y B => rw [after_mid hxA, after_mid hxA]

/-- One node is done. -/
theorem fixOne_spec {ttl : Nat} {apex : Name} {names : List Name} {old new : Heap}
    (st : Start ttl apex names old new) {pre post : List Name} {c : Name} (hn : names = pre ++ c :: post)
    {h : Heap} {it : Option Name} (mid : Mid ttl apex old new pre (c :: post) h it) (hap : apex ∈ pre) :
    ∃ h' it', fixOne ttl names old h it c = .ok (h', it') ∧ Mid ttl apex old new (pre ++ [c]) post h' it' := by
  have hnd := sorted_nodup st.sorted
  have hcN : c ∈ names := by rw [hn]; simp
  have hcpre : c ∉ pre := by
    rw [hn] at hnd
    intro q
    exact (List.nodup_append.mp hnd).2.2 c q c (by simp) rfl
  have hcpost : c ∉ post := by
    rw [hn] at hnd
    exact (List.nodup_cons.mp (List.nodup_append.mp hnd).2.1).1
  have hdisj : ∀ x ∈ pre, x ∉ post := by
    rw [hn] at hnd
    intro x hx q
    exact (List.nodup_append.mp hnd).2.2 x hx x (by simp [q]) rfl
  have hPnd : (pre.filter (fun x => !noNsec (new x))).Nodup := by
    rw [hn] at hnd
    exact (List.nodup_append.mp hnd).1.filter _
  unfold fixOne
  simp only [mid.no c]
  cases ho : noNsec (old c) with
  | false =>
    cases hw : noNsec (new c) with
    | false =>
      -- in both zones
      refine ⟨h, it, by simp, mid.data, mid.no, ?_, fun x hx => mid.fresh x (by simp [hx]), mid.gone, ?_, ?_⟩
      · intro x hx hnx hor
        have hmix : mix old new (pre ++ [c]) post = mix old new pre (c :: post) := by
          simp [mix, ho, hw]
        rw [hmix]
        refine mid.points x (by simpa using hx) hnx ?_
        rcases hor with q | q
        · rcases List.mem_append.mp q with q | q
          · exact .inl q
          · have : x = c := by simpa using q
            rw [this]; exact .inr ho
        · exact .inr q
      · intro y hy
        obtain ⟨y1, y2, C, D, y3, y4⟩ := mid.itSome y hy
        refine ⟨y1, y2, C, D ++ [c], by rw [y3]; simp, ?_⟩
        intro z hz
        rcases List.mem_append.mp hz with q | q
        · exact y4 z q
        · have : z = c := by simpa using q
          rw [this]; exact fun _ => ho
      · intro hi z hz
        rcases List.mem_append.mp hz with q | q
        · exact mid.itNone hi z q
        · have : z = c := by simpa using q
          rw [this]; exact fun _ => ho
    | true =>
      -- removed
      obtain ⟨q, A, p, B, e1, e2, e3, e4, e5⟩ := nearer_spec st hn mid hap
      obtain ⟨t, b, o1, o2⟩ := st.oldNext c hcN ho
      have hpp : p ∈ pre := by rw [e3]; simp
      have hPs : pre.filter (fun x => !noNsec (new x)) = A.filter (fun x => !noNsec (new x)) ++ [p] := by
        rw [e3, List.filter_append, List.filter_cons_of_pos (by simp [e4])]
        have : B.filter (fun x => !noNsec (new x)) = [] := by
          rw [List.filter_eq_nil_iff]; intro z hz; simp [e5 z hz]
        rw [this]
      have hpA : p ∉ A.filter (fun x => !noNsec (new x)) := by
        rw [hPs] at hPnd
        intro q
        exact (List.nodup_append.mp hPnd).2.2 p q p (by simp) rfl
      have hlast : (pre.filter (fun x => !noNsec (new x))).getLast? = some p := by rw [hPs]; simp
      obtain ⟨u, p1, p2, p3⟩ := mid.points p (by simp [hpp]) e4 (.inl hpp)
      have hS : lowerName t = (post.filter (fun x => !noNsec (old x))).headD apex := by
        rw [o2, hn, List.filter_append, List.filter_cons_of_pos (by simp [ho]), after_split]
        intro q
        exact hcpre (List.mem_filter.mp q).1
      generalize hh' : put h p { h p with nsec := [(t, Bitmap.encode (listed (h p)))] } = h'
      have hh : h' p = { h p with nsec := [(t, Bitmap.encode (listed (h p)))] } := by rw [← hh', put_same]
      have hot : ∀ x, x ≠ p → h' x = h x := fun x hx => by rw [← hh']; exact put_other hx
      have hmix' : mix old new (pre ++ [c]) post =
          pre.filter (fun x => !noNsec (new x)) ++ post.filter (fun x => !noNsec (old x)) := by
        simp [mix, hw]
      have hmix : mix old new pre (c :: post) =
          pre.filter (fun x => !noNsec (new x)) ++ c :: post.filter (fun x => !noNsec (old x)) := by
        simp [mix, ho]
      have htyp : (new p).types ≠ [] := by
        have := st.newOnly p (by rw [hn]; simp [hpp]) e4
        simpa [onlyNsec] using this
      refine ⟨h', it, ?_, ?_, ?_, ?_, ?_, ?_, ?_, ?_⟩
      · simp only [Bool.not_false, Bool.and_self, if_true]
        rw [e1, Res.bind_ok, e2]
        rw [reconnect, o1, p1]
        simp only [Res.bind_ok]
        rw [hh']
      · intro x
        by_cases hx : x = p
        · rw [hx, hh]; exact mid.data p
        · rw [hot x hx]; exact mid.data x
      · intro x
        by_cases hx : x = p
        · rw [hx]
          refine noNsec_of ?_ htyp
          rw [hh]; exact mid.data p
        · rw [hot x hx]; exact mid.no x
      · intro x hx hnx hor
        rw [hmix']
        by_cases hxp : x = p
        · rw [hxp, hPs, List.append_assoc, List.singleton_append, after_split hpA]
          refine ⟨t, ?_, hS, ?_⟩
          · rw [hh]; rfl
          · rw [hh]; exact p3
        · have hxc : x ≠ c := by intro e; rw [e, hw] at hnx; cases hnx
          have hx' : x ∈ pre ++ c :: post := by simpa using hx
          have hor' : x ∈ pre ∨ noNsec (old x) = false := by
            rcases hor with q | q
            · rcases List.mem_append.mp q with q | q
              · exact .inl q
              · exact absurd (by simpa using q) hxc
            · exact .inr q
          have hm := mid.points x hx' hnx hor'
          rw [hot x hxp]
          rw [hmix] at hm
          by_cases hxpre : x ∈ pre
          · have hxP : x ∈ pre.filter (fun x => !noNsec (new x)) := List.mem_filter.mpr ⟨hxpre, by simp [hnx]⟩
            rw [after_front hPnd hxP hlast hxp _ (c :: post.filter (fun x => !noNsec (old x)))]
            exact hm
          · have hxP : x ∉ pre.filter (fun x => !noNsec (new x)) := fun q => hxpre (List.mem_filter.mp q).1
            rw [after_skip hxP]
            have hxP' : x ∉ pre.filter (fun x => !noNsec (new x)) ++ [c] := by
              simp only [List.mem_append, not_or]
              exact ⟨hxP, by simpa using hxc⟩
            have e : pre.filter (fun x => !noNsec (new x)) ++ c :: post.filter (fun x => !noNsec (old x)) =
                (pre.filter (fun x => !noNsec (new x)) ++ [c]) ++ post.filter (fun x => !noNsec (old x)) := by simp
            rw [e, after_skip hxP'] at hm
            exact hm
      · intro x hx hnx hox
        have hxp : x ≠ p := fun e => hdisj p hpp (e ▸ hx)
        rw [hot x hxp]
        exact mid.fresh x (by simp [hx]) hnx hox
      · intro x hx
        have hxp : x ≠ p := by intro e; rw [e, e4] at hx; cases hx
        rw [hot x hxp]
        exact mid.gone x hx
      · intro y hy
        obtain ⟨y1, y2, C, D, y3, y4⟩ := mid.itSome y hy
        refine ⟨y1, y2, C, D ++ [c], by rw [y3]; simp, ?_⟩
        intro z hz
        rcases List.mem_append.mp hz with q | q
        · exact y4 z q
        · have : z = c := by simpa using q
          rw [this, hw]; intro q; cases q
      · intro hi z hz
        rcases List.mem_append.mp hz with q | q
        · exact mid.itNone hi z q
        · have : z = c := by simpa using q
          rw [this, hw]; intro q; cases q
  | true =>
    cases hw : noNsec (new c) with
    | true =>
      -- in neither zone
      refine ⟨h, it, by simp, mid.data, mid.no, ?_, fun x hx => mid.fresh x (by simp [hx]), mid.gone, ?_, ?_⟩
      · intro x hx hnx hor
        have hmix : mix old new (pre ++ [c]) post = mix old new pre (c :: post) := by
          simp [mix, ho, hw]
        rw [hmix]
        have hxc : x ≠ c := by intro e; rw [e, hw] at hnx; cases hnx
        refine mid.points x (by simpa using hx) hnx ?_
        rcases hor with q | q
        · rcases List.mem_append.mp q with q | q
          · exact .inl q
          · exact absurd (by simpa using q) hxc
        · exact .inr q
      · intro y hy
        obtain ⟨y1, y2, C, D, y3, y4⟩ := mid.itSome y hy
        refine ⟨y1, y2, C, D ++ [c], by rw [y3]; simp, ?_⟩
        intro z hz
        rcases List.mem_append.mp hz with q | q
        · exact y4 z q
        · have : z = c := by simpa using q
          rw [this, hw]; intro q; cases q
      · intro hi z hz
        rcases List.mem_append.mp hz with q | q
        · exact mid.itNone hi z q
        · have : z = c := by simpa using q
          rw [this, hw]; intro q; cases q
    | false =>
      -- inserted
      obtain ⟨A, p, B, e3, e1, e4, e5⟩ := nsecPrev_split (names := names) (h := h) (x := c) (a := apex) hn hcpre hap
        (by rw [mid.no]; exact st.apexNew)
        (fun y hy hy' => by
          rw [mid.no] at hy'
          have := st.newOnly y (by rw [hn]; simp [hy]) hy'
          simp only [onlyNsec] at this ⊢
          rw [(mid.data y).1]; exact this)
      rw [mid.no] at e4
      have e5 : ∀ z ∈ B, noNsec (new z) = true := fun z hz => by rw [← mid.no]; exact e5 z hz
      have hpp : p ∈ pre := by rw [e3]; simp
      have hpc : p ≠ c := fun e => hcpre (e ▸ hpp)
      have hPs : pre.filter (fun x => !noNsec (new x)) = A.filter (fun x => !noNsec (new x)) ++ [p] := by
        rw [e3, List.filter_append, List.filter_cons_of_pos (by simp [e4])]
        have : B.filter (fun x => !noNsec (new x)) = [] := by
          rw [List.filter_eq_nil_iff]; intro z hz; simp [e5 z hz]
        rw [this]
      have hpA : p ∉ A.filter (fun x => !noNsec (new x)) := by
        rw [hPs] at hPnd
        intro q
        exact (List.nodup_append.mp hPnd).2.2 p q p (by simp) rfl
      have hlast : (pre.filter (fun x => !noNsec (new x))).getLast? = some p := by rw [hPs]; simp
      obtain ⟨u, p1, p2, p3⟩ := mid.points p (by simp [hpp]) e4 (.inl hpp)
      have hmix : mix old new pre (c :: post) =
          pre.filter (fun x => !noNsec (new x)) ++ post.filter (fun x => !noNsec (old x)) := by
        simp [mix, ho]
      have hmix' : mix old new (pre ++ [c]) post =
          pre.filter (fun x => !noNsec (new x)) ++ c :: post.filter (fun x => !noNsec (old x)) := by
        simp [mix, hw]
      have hu : lowerName u = (post.filter (fun x => !noNsec (old x))).headD apex := by
        rw [p2, hmix, hPs, List.append_assoc, List.singleton_append, after_split hpA]
      have hfc := mid.fresh c (by simp) hw ho
      obtain ⟨v, f1, f2⟩ := st.newFresh c hcN hw ho
      have hctyp : (new c).types ≠ [] := by
        have := st.newOnly c hcN hw
        simpa [onlyNsec] using this
      have hptyp : (new p).types ≠ [] := by
        have := st.newOnly p (by rw [hn]; simp [hpp]) e4
        simpa [onlyNsec] using this
      generalize hh1 : put h c { h c with nsec := [(u, Bitmap.encode (listed (new c)))] } = h1
      have hh1c : h1 c = { new c with nsec := [(u, Bitmap.encode (listed (new c)))] } := by rw [← hh1, put_same, hfc]
      have hh1o : ∀ x, x ≠ c → h1 x = h x := fun x hx => by rw [← hh1]; exact put_other hx
      have hauth : Auth (h1 c) := by
        rw [hh1c]
        refine ⟨?_, hctyp⟩
        have := hw
        simp only [noNsec, Bool.or_eq_false_iff] at this
        exact this.1
      generalize hh2 : put h1 p (setNext ttl (h1 p) c) = h'
      have hh'p : h' p = setNext ttl (h p) c := by rw [← hh2, put_same, hh1o p hpc]
      have hh'c : h' c = { new c with nsec := [(u, Bitmap.encode (listed (new c)))] } := by
        rw [← hh2, put_other (Ne.symm hpc), hh1c]
      have hot : ∀ x, x ≠ p → x ≠ c → h' x = h x := fun x hx hx' => by
        rw [← hh2, put_other hx, hh1o x hx']
      have hdp := (mid.data p).trans (setNext_same ttl (h p) c)
      have hdc : SameData (new c) { new c with nsec := [(u, Bitmap.encode (listed (new c)))] } :=
        ⟨rfl, rfl, rfl, fun _ h => h, fun _ h _ _ => h⟩
      have hbare : NoBareAt (h1 c) := by
        intro _ q
        exact absurd q hauth.2
      refine ⟨h', some c, ?_, ?_, ?_, ?_, ?_, ?_, ?_, by simp⟩
      · simp only [Bool.not_true, Bool.false_and, Bool.false_eq_true, if_false, Bool.not_false, Bool.and_self, if_true]
        rw [e1, Res.bind_ok]
        have : reconnect h (h p) c = .ok h1 := by rw [reconnect, p1, hfc, f1, ← hh1, hfc]
        rw [this, Res.bind_ok, connect_spec ttl h1 p c hbare, if_pos hauth]
        simp only [Bool.false_eq_true, if_false, hh2]
      · intro x
        by_cases hx : x = p
        · rw [hx, hh'p]; exact hdp
        · by_cases hxc : x = c
          · rw [hxc, hh'c]; exact hdc
          · rw [hot x hx hxc]; exact mid.data x
      · intro x
        by_cases hx : x = p
        · rw [hx, hh'p]; exact noNsec_of hdp hptyp
        · by_cases hxc : x = c
          · rw [hxc, hh'c]; exact noNsec_of hdc hctyp
          · rw [hot x hx hxc]; exact mid.no x
      · intro x hx hnx hor
        rw [hmix']
        by_cases hxp : x = p
        · rw [hxp, hPs, List.append_assoc, List.singleton_append, after_split hpA, hh'p]
          refine setNext_points ?_ (st.lower c hcN)
          rw [(mid.data p).1]
          exact st.types p (by rw [hn]; simp [hpp])
        · by_cases hxc : x = c
          · rw [hxc, after_split (fun q => hcpre (List.mem_filter.mp q).1), hh'c]
            exact ⟨u, rfl, hu, f2⟩
          · have hx' : x ∈ pre ++ c :: post := by simpa using hx
            have hor' : x ∈ pre ∨ noNsec (old x) = false := by
              rcases hor with q | q
              · rcases List.mem_append.mp q with q | q
                · exact .inl q
                · exact absurd (by simpa using q) hxc
              · exact .inr q
            have hm := mid.points x hx' hnx hor'
            rw [hot x hxp hxc]
            rw [hmix] at hm
            by_cases hxpre : x ∈ pre
            · have hxP : x ∈ pre.filter (fun x => !noNsec (new x)) := List.mem_filter.mpr ⟨hxpre, by simp [hnx]⟩
              rw [after_front hPnd hxP hlast hxp _ (post.filter (fun x => !noNsec (old x)))]
              exact hm
            · have hxP : x ∉ pre.filter (fun x => !noNsec (new x)) := fun q => hxpre (List.mem_filter.mp q).1
              rw [after_skip hxP] at hm
              have hxP' : x ∉ pre.filter (fun x => !noNsec (new x)) ++ [c] := by
                simp only [List.mem_append, not_or]
                exact ⟨hxP, by simpa using hxc⟩
              have e : pre.filter (fun x => !noNsec (new x)) ++ c :: post.filter (fun x => !noNsec (old x)) =
                  (pre.filter (fun x => !noNsec (new x)) ++ [c]) ++ post.filter (fun x => !noNsec (old x)) := by simp
              rw [e, after_skip hxP']
              exact hm
      · intro x hx hnx hox
        have hxp : x ≠ p := fun e => hdisj p hpp (e ▸ hx)
        have hxc : x ≠ c := fun e => hcpost (e ▸ hx)
        rw [hot x hxp hxc]
        exact mid.fresh x (by simp [hx]) hnx hox
      · intro x hx
        have hxp : x ≠ p := by intro e; rw [e, e4] at hx; cases hx
        have hxc : x ≠ c := by intro e; rw [e, hw] at hx; cases hx
        rw [hot x hxp hxc]
        exact mid.gone x hx
      · intro y hy
        have : c = y := by simpa using hy
        rw [← this]
        exact ⟨hw, ho, pre, [], rfl, by simp⟩

end Knot.Nsecchain
