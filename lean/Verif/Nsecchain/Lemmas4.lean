import Verif.Nsecchain.Lemmas3
/-!
# Lemmas: the whole fix
-/
namespace Knot.Nsecchain
open Dname (Name lowerName canonCmp)

theorem fixOne_id {ttl : Nat} {names : List Name} {old h : Heap} {it : Option Name} {c : Name}
    (he : noNsec (h c) = noNsec (old c)) : fixOne ttl names old h it c = .ok (h, it) := by
  unfold fixOne
  simp only [he]
  cases noNsec (old c) <;> simp

theorem fixLoop_spec {ttl : Nat} {apex : Name} {names : List Name} {old new : Heap}
    (st : Start ttl apex names old new) (P : Name → Bool) (hP : ∀ c, P c = false → noNsec (new c) = noNsec (old c))
    {ptrs rest : List Name} (hptrs : ptrs = apex :: rest) :
    ∀ (post pre : List Name) (h : Heap) (it : Option Name) (fuel : Nat), names = pre ++ post → apex ∈ pre →
      Mid ttl apex old new pre post h it → (post.filter P).length < fuel →
      ∃ h' it', fixLoop ttl names ptrs old fuel h (some apex) it (post.filter P) = .ok h' ∧
        Mid ttl apex old new names [] h' it' := by
  intro post
  induction post with
  | nil =>
    intro pre h it fuel hn hap mid hf
    cases fuel with
    | zero => omega
    | succ fuel =>
      refine ⟨h, it, ?_, ?_⟩
      · rw [fixLoop, hptrs]
        simp
      · rw [hn, List.append_nil]; exact mid
  | cons c post ih =>
    intro pre h it fuel hn hap mid hf
    obtain ⟨h', it', e1, e2⟩ := fixOne_spec st hn mid hap
    have hn' : names = (pre ++ [c]) ++ post := by rw [hn]; simp
    have hap' : apex ∈ pre ++ [c] := by simp [hap]
    cases hc : P c with
    | false =>
      rw [fixOne_id (by rw [mid.no, hP c hc])] at e1
      simp only [Res.ok.injEq, Prod.mk.injEq] at e1
      rw [← e1.1, ← e1.2] at e2
      rw [List.filter_cons_of_neg (by simp [hc])] at hf ⊢
      exact ih (pre ++ [c]) h it fuel hn' hap' e2 hf
    | true =>
      rw [List.filter_cons_of_pos hc] at hf ⊢
      cases fuel with
      | zero => simp at hf
      | succ fuel =>
        obtain ⟨h2, it2, f1, f2⟩ := ih (pre ++ [c]) h' it' fuel hn' hap' e2 (by simp at hf; omega)
        refine ⟨h2, it2, ?_, f2⟩
        have hca : c ≠ apex := by
          intro e
          have := sorted_nodup st.sorted
          rw [hn] at this
          exact (List.nodup_append.mp this).2.2 apex hap c (by simp) e.symm
        unfold fixLoop
        simp only [List.cons_ne_nil, if_false, Option.some.injEq, Ne.symm hca, reduceCtorEq, false_and, and_false]
        rw [e1, Res.bind_ok]
        exact f1

/-! ## Chains -/

theorem chain_of {ttl : Nat} {names : List Name} {h : Heap} {a : Name} {l : List Name} (hnd : names.Nodup)
    (hm : members h names = a :: l) (ho : ∀ x ∈ names, ¬ Auth (h x) → (h x).nsec = [])
    (hp : ∀ x ∈ names, Auth (h x) → Points ttl (h x) (after a (members h names) x)) : Chain ttl names h := by
  refine ⟨ho, ?_⟩
  intro L hL i x y hx hy
  have hL : L = a :: l := by rw [hL, ← hm]; rfl
  have hndm : (a :: l).Nodup := by rw [← hm]; exact hnd.filter _
  rw [hL] at hx hy
  have hxm : x ∈ members h names := by rw [hm]; exact List.mem_of_getElem? hx
  obtain ⟨q1, q2⟩ := List.mem_filter.mp hxm
  have := hp x q1 (by simpa using q2)
  rw [hm] at this
  rcases round_cases hx hy with ⟨A, B, e⟩ | ⟨e1, e2⟩
  · rw [e] at this hndm
    have hxA : x ∉ A := fun q => (List.nodup_append.mp hndm).2.2 x q x (by simp) rfl
    rw [after_split hxA] at this
    exact this
  · obtain ⟨Q, e1⟩ := List.getLast?_eq_some_iff.mp e1
    rw [e1] at this hndm
    have hxQ : x ∉ Q := fun q => (List.nodup_append.mp hndm).2.2 x q x (by simp) rfl
    rw [after_split hxQ] at this
    rw [e2]
    exact this

theorem chain_points {ttl : Nat} {names : List Name} {h : Heap} {a : Name} {l : List Name} (hnd : names.Nodup)
    (hm : members h names = a :: l) (hc : Chain ttl names h) :
    ∀ x ∈ names, Auth (h x) → Points ttl (h x) (after a (members h names) x) := by
  intro x hx ha
  have hxm : x ∈ a :: l := by rw [← hm]; exact List.mem_filter.mpr ⟨hx, by simpa using ha⟩
  have hndm : (a :: l).Nodup := by rw [← hm]; exact hnd.filter _
  obtain ⟨A, B, e⟩ := List.append_of_mem hxm
  have hxA : x ∉ A := by
    rw [e] at hndm
    exact fun q => (List.nodup_append.mp hndm).2.2 x q x (by simp) rfl
  rw [hm, e, after_split hxA]
  have hlinks := hc.links (a :: l) (by rw [← hm]; rfl) A.length x (B.headD a) (by rw [e]; simp)
  refine hlinks ?_
  have hlen : (a :: l).length = A.length + (B.length + 1) := by rw [e]; simp
  cases B with
  | nil =>
    rw [hlen]
    simp
  | cons b B =>
    rw [Nat.mod_eq_of_lt (by rw [hlen]; simp), e]
    simp

theorem noNsec_iff {n : Node} (hb : n.nonauth = false → n.types = [] → n.sigs = [] ∧ n.nsec = []) :
    (!noNsec n) = decide (Auth n) := by
  unfold noNsec Auth
  cases hn : n.nonauth with
  | true => simp
  | false =>
    by_cases ht : n.types = []
    · obtain ⟨h1, h2⟩ := hb hn ht
      simp [ht, count, h1, h2]
    · have : count n ≠ 0 := by
        have := List.length_pos_iff.mpr ht
        unfold count; omega
      simp [ht, this]

theorem members_no {h : Heap} {names : List Name}
    (hb : ∀ x ∈ names, (h x).nonauth = false → (h x).types = [] → (h x).sigs = [] ∧ (h x).nsec = []) :
    names.filter (fun x => !noNsec (h x)) = members h names :=
  List.filter_congr (fun x hx => noNsec_iff (hb x hx))

theorem updateBitmaps_at (ttl : Nat) : ∀ (ptrs : List Name) (h : Heap), ptrs.Nodup → ∀ x,
    updateBitmaps ttl ptrs h x = if x ∈ ptrs then updateBitmap ttl (h x) else h x := by
  intro ptrs
  induction ptrs with
  | nil => intro h _ x; simp [updateBitmaps]
  | cons p ptrs ih =>
    intro h hnd x
    rw [List.nodup_cons] at hnd
    have e : updateBitmaps ttl (p :: ptrs) h = updateBitmaps ttl ptrs (put h p (updateBitmap ttl (h p))) := rfl
    rw [e, ih _ hnd.2]
    by_cases hx : x = p
    · rw [hx, if_neg hnd.1, put_same]; simp
    · rw [put_other hx]; simp [hx]

theorem updateBitmap_same (ttl : Nat) (n : Node) : SameData n (updateBitmap ttl n) := by
  unfold updateBitmap
  split
  · exact removeNsec_same n
  · split <;> exact ⟨rfl, rfl, rfl, fun _ h => h, fun _ h _ _ => h⟩

theorem auth_not {n : Node} (ha : Auth n) : noNsec n = false ∧ onlyNsec n = false := by
  constructor
  · have := noNsec_iff (n := n) (fun _ h => absurd h ha.2)
    simpa [ha] using this
  · simp [onlyNsec, ha.2]

theorem start_of {ttl : Nat} {names ptrs : List Name} {old new : Heap} {apex : Name} {l : List Name}
    (hn : names = apex :: l) (to : Tree names old) (tn : Tree names new) (hb : NoBare names old)
    (hc : Chain ttl names old) (hnd : ptrs.Nodup) (hu : Upd names ptrs old new) :
    Start ttl apex names old (updateBitmaps ttl ptrs new) ∧
    (∀ x ∈ names, (updateBitmaps ttl ptrs new x).nonauth = false → (updateBitmaps ttl ptrs new x).types = [] →
      (updateBitmaps ttl ptrs new x).sigs = [] ∧ (updateBitmaps ttl ptrs new x).nsec = []) ∧
    (∀ x ∈ names, noNsec (updateBitmaps ttl ptrs new x) = true → (updateBitmaps ttl ptrs new x).nsec = []) := by
  have hup := updateBitmaps_at ttl ptrs new hnd
  generalize updateBitmaps ttl ptrs new = u at hup
  have hsame : ∀ x, SameData (new x) (u x) := by
    intro x
    rw [hup x]
    split
    · exact updateBitmap_same ttl (new x)
    · exact SameData.refl _
  have aold : Auth (old apex) := by
    obtain ⟨a, l', e1, e2⟩ := to.apex
    rw [hn] at e1
    simp only [List.cons.injEq] at e1
    rw [e1.1]; exact e2
  have anew : Auth (new apex) := by
    obtain ⟨a, l', e1, e2⟩ := tn.apex
    rw [hn] at e1
    simp only [List.cons.injEq] at e1
    rw [e1.1]; exact e2
  have hnames := sorted_nodup to.sorted
  have hbo : ∀ x ∈ names, (old x).nonauth = false → (old x).types = [] → (old x).sigs = [] ∧ (old x).nsec = [] := by
    intro x hx h1 h2
    have h3 := hc.others x hx (by simp [Auth, h2])
    exact ⟨hb.at hx h1 h2 h3, h3⟩
  have hbu : ∀ x ∈ names, (u x).nonauth = false → (u x).types = [] → (u x).sigs = [] ∧ (u x).nsec = [] := by
    intro x hx h1 h2
    by_cases hxp : x ∈ ptrs
    · rw [(hsame x).1] at h2
      have e : u x = removeNsec (new x) := by
        rw [hup x, if_pos hxp, updateBitmap, if_pos (by simp [onlyNsec, h2])]
      rw [e]
      refine ⟨?_, rfl⟩
      simp only [removeNsec]
      have := hu.signed x hx h2
      split
      · rw [List.filter_eq_nil_iff]
        intro t ht
        simp [this t ht]
      · next h47 =>
        rw [List.filter_eq_nil_iff]
        intro t ht
        exact absurd (this t ht ▸ ht) h47
    · rw [hup x, if_neg hxp, hu.unchanged x hxp] at h1 h2 ⊢
      exact hbo x hx h1 h2
  have huA : ∀ x ∈ names, noNsec (u x) = false → Auth (u x) := by
    intro x hx h
    have := noNsec_iff (hbu x hx)
    rw [h] at this
    simpa using this.symm
  have hoA : ∀ x ∈ names, noNsec (old x) = false → Auth (old x) := by
    intro x hx h
    have := noNsec_iff (hbo x hx)
    rw [h] at this
    simpa using this.symm
  have hmo := members_no hbo
  have hm : members old names = apex :: members old l := by rw [hn]; simp [members, aold]
  have hpt := chain_points hnames hm hc
  have htyp : ∀ x ∈ names, ∀ t ∈ (u x).types, t < 65536 := by
    intro x hx
    rw [(hsame x).1]
    exact tn.types x hx
  have hreal : ∀ x, Auth (u x) → x ∈ ptrs → u x = (match (new x).nsec with
      | [] => { new x with nsec := [createNsec (new x) []], ttl := ttl }
      | r :: _ => { new x with nsec := [createNsec (new x) r.1], ttl := ttl }) := by
    intro x ha hxp
    have han : Auth (new x) := by
      unfold Auth at ha ⊢
      rw [(hsame x).1, (hsame x).2.1] at ha
      exact ha
    rw [hup x, if_pos hxp, updateBitmap, if_neg (by simp [auth_not han])]
    cases (new x).nsec <;> rfl
  refine ⟨⟨to.sorted, to.lower, htyp, (auth_not aold).1, ?_, ?_, ?_, ?_, ?_, ?_⟩, hbu, ?_⟩
  · refine (auth_not ?_).1
    unfold Auth
    rw [(hsame apex).1, (hsame apex).2.1]
    exact anew
  · intro x hx h; exact (auth_not (hoA x hx h)).2
  · intro x hx h; exact (auth_not (huA x hx h)).2
  · intro x hx h
    obtain ⟨t, e1, e2, e3⟩ := hpt x hx (hoA x hx h)
    exact ⟨t, _, e1, by rw [e2, hmo]⟩
  · intro x hx h1 h2
    obtain ⟨t, e1, e2, e3⟩ := hpt x hx (hoA x hx h2)
    by_cases hxp : x ∈ ptrs
    · have e := hreal x (huA x hx h1) hxp
      rw [hu.nsec x, e1] at e
      simp only at e
      rw [createNsec_eq (tn.types x hx)] at e
      rw [hmo]
      refine ⟨t, ?_, e2, ?_⟩
      · rw [e]; rfl
      · rw [e]
    · rw [hup x, if_neg hxp, hu.unchanged x hxp, hmo]
      exact ⟨t, e1, e2, e3⟩
  · intro x hx h1 h2
    have hxp : x ∈ ptrs := by
      refine Classical.byContradiction fun hxp => ?_
      rw [hup x, if_neg hxp, hu.unchanged x hxp, h2] at h1
      cases h1
    have hno : (old x).nsec = [] := by
      refine hc.others x hx fun ha => ?_
      rw [(auth_not ha).1] at h2
      cases h2
    have e := hreal x (huA x hx h1) hxp
    rw [hu.nsec x, hno] at e
    simp only at e
    rw [createNsec_eq (tn.types x hx)] at e
    exact ⟨[], by rw [e]; rfl, by rw [e]⟩
  · intro x hx h
    by_cases hxp : x ∈ ptrs
    · have e : u x = removeNsec (new x) := by
        rw [hup x, if_pos hxp, updateBitmap, if_pos]
        refine Classical.byContradiction fun hno => ?_
        have : Auth (new x) := by
          simp only [Bool.or_eq_true, not_or, noNsec, onlyNsec] at hno
          exact ⟨by simpa using hno.1.1, by simpa using hno.2⟩
        have : Auth (u x) := by
          unfold Auth
          rw [(hsame x).1, (hsame x).2.1]
          exact this
        rw [(auth_not this).1] at h
        cases h
      rw [e]; rfl
    · have : u x = old x := by rw [hup x, if_neg hxp, hu.unchanged x hxp]
      rw [this] at h ⊢
      refine hc.others x hx fun ha => ?_
      rw [(auth_not ha).1] at h
      cases h

theorem auth_congr {n n' : Node} (h : SameData n n') : Auth n' ↔ Auth n := by
  unfold Auth
  rw [h.1, h.2.1]

theorem fix_spec {ttl : Nat} {names ptrs : List Name} {old new : Heap}
    (to : Tree names old) (tn : Tree names new) (hb : NoBare names old)
    (hc : Chain ttl names old) (hnd : ptrs.Nodup) (hu : Upd names ptrs old new) :
    ∃ h', fix ttl names ptrs old new = .ok h' ∧ Chain ttl names h' ∧ (∀ x, SameData (new x) (h' x)) ∧
      NoBare names h' := by
  obtain ⟨apex, l, hn, aold⟩ := to.apex
  obtain ⟨st, hbu, hgone⟩ := start_of hn to tn hb hc hnd hu
  have hup := updateBitmaps_at ttl ptrs new hnd
  unfold fix
  generalize updateBitmaps ttl ptrs new = u at st hbu hgone hup
  have hsame : ∀ x, SameData (new x) (u x) := by
    intro x
    rw [hup x]
    split
    · exact updateBitmap_same ttl (new x)
    · exact SameData.refl _
  have hpt : names.filter (fun x => ptrs.contains x || names.head? == some x) =
      apex :: l.filter (fun x => ptrs.contains x || names.head? == some x) := by
    rw [hn]; simp
  generalize hP : (fun x => ptrs.contains x || names.head? == some x) = P at hpt ⊢
  have hPn : ∀ c, P c = false → noNsec (u c) = noNsec (old c) := by
    intro c h
    rw [← hP] at h
    simp only [Bool.or_eq_false_iff, List.contains_eq_mem] at h
    have hcp : c ∉ ptrs := by simpa using h.1
    rw [hup c, if_neg hcp, hu.unchanged c hcp]
  have mid0 : Mid ttl apex old u [apex] l u none := by
    refine ⟨fun x => SameData.refl _, fun _ => rfl, ?_, fun _ _ _ _ => rfl, fun _ _ => rfl, by simp, ?_⟩
    · intro x hx hnx hor
      have hx' : x ∈ names := by rw [hn]; simpa using hx
      have : noNsec (old x) = false := by
        rcases hor with q | q
        · have : x = apex := by simpa using q
          rw [this]; exact st.apexOld
        · exact q
      have e := st.newNext x hx' hnx this
      have : mix old u [apex] l = names.filter (fun x => !noNsec (old x)) := by
        rw [hn]; simp [mix, st.apexOld, st.apexNew]
      rw [this]; exact e
    · intro _ z hz _
      have : z = apex := by simpa using hz
      rw [this]; exact st.apexOld
  have hlen : (l.filter P).length ≤ l.length := List.length_filter_le _ _
  have hnl : names.length = l.length + 1 := by rw [hn]; rfl
  obtain ⟨h', it', e1, e2⟩ := fixLoop_spec st P hPn hpt l [apex] u none (2 * names.length) hn (by simp) mid0 (by omega)
  refine ⟨h', ?_, ?_, ?_, ?_⟩
  · have e0 : fixOne ttl names old u none apex = .ok (u, none) :=
      fixOne_id (by rw [st.apexNew, st.apexOld])
    rw [← e1]
    conv => lhs; unfold fixLoop
    rw [hpt]
    simp only [List.cons_ne_nil, if_false, reduceCtorEq, st.apexOld, st.apexNew, and_true, and_self, if_true,
      and_false]
    rw [e0, Res.bind_ok]
  · have hmem : members h' names = members u names := by
      apply List.filter_congr
      intro x _
      rw [decide_eq_decide]
      exact auth_congr (e2.data x)
    have hau : Auth (u apex) := by
      have := noNsec_iff (hbu apex (by rw [hn]; simp))
      rw [st.apexNew] at this
      simpa using this.symm
    have hmu : members u names = apex :: members u l := by rw [hn]; simp [members, hau]
    refine chain_of (sorted_nodup st.sorted) (hmem.trans hmu) ?_ ?_
    · intro x hx ha
      have hno : noNsec (u x) = true := by
        have := noNsec_iff (hbu x hx)
        rw [auth_congr (e2.data x)] at ha
        simpa [ha] using this
      rw [e2.gone x hno]
      exact hgone x hx hno
    · intro x hx ha
      rw [auth_congr (e2.data x)] at ha
      have := e2.points x (by simpa using hx) (auth_not ha).1 (.inl hx)
      have hmx : mix old u names [] = members h' names := by
        rw [hmem, ← members_no hbu]; simp [mix]
      rw [hmx] at this
      exact this
  · exact fun x => (hsame x).trans (e2.data x)
  · intro x hx h1 h2 t ht
    have hd := e2.data x
    rw [hd.1] at h2
    rw [hd.2.1] at h1
    have := hd.2.2.2.1 t ht
    rw [(hbu x hx h1 h2).1] at this
    exact absurd this (by simp)

end Knot.Nsecchain
