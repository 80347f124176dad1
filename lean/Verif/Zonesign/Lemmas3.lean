import Verif.Zonesign.Lemmas2
/-! # Lemmas: nothing to do, no failure, threads -/
namespace Knot.Zonesign
open Knot
open Knot.Dname (Name)

/-! ## Nothing to do -/

theorem keyLoop_found (C : Crypto) (ctx : Ctx) (owner : Name) (r : RRset) (sigs : List Sig) (skip : Bool) (ks : List Key)
    (hk : ∀ k ∈ ks, useKey ctx owner r.type k = true → firstValid C ctx owner r k (margin ctx) skip sigs ≠ none) :
    ∀ w0, ∃ w, keyLoop C ctx owner r sigs skip ks w0 = .ok w ∧ w.add = w0.add := by
  induction ks with
  | nil => intro w0; exact ⟨w0, rfl, rfl⟩
  | cons k ks ih =>
    intro w0
    have ih := ih (fun k' h' => hk k' (List.mem_cons_of_mem _ h'))
    simp only [keyLoop]
    by_cases hu : useKey ctx owner r.type k = true
    · rw [if_neg (by simp [hu])]
      have := hk k List.mem_cons_self hu
      cases hf : firstValid C ctx owner r k (margin ctx) skip sigs with
      | none => exact absurd hf this
      | some s => exact ih _
    · rw [if_pos (by simpa using hu)]
      exact ih _

theorem addMissing_idle (C : Crypto) (ctx : Ctx) (n : Node) (r : RRset) (e : Nat) (hS : Sane ctx) (hR : Ready C ctx n)
    (hG : Signed C ctx n) (hM : Minimal C ctx n) (hr : r ∈ n.rrsets) (hs : Signable n r.type) :
    ∃ w, addMissing C ctx n.owner r n.sigs (n.verified && !ctx.tagConflict) e = .ok w ∧ w.rem = [] ∧ w.add = [] := by
  have hK := hR.known r hr hs
  have hchk : ∀ k ∈ ctx.keys, Signs ctx.apex n.owner r.type k → ∀ s ∈ n.sigs, Names k r s →
      (checkSig C ctx n.owner r k (margin ctx) (n.verified && !ctx.tagConflict) s = true ↔
        C.verify k n.owner r s = true ∧ Fresh ctx.now (ctx.refresh + ctx.prerefresh) s) := by
    intro k hk hsg s hsm hn
    rw [margin_eq ctx hS]
    exact checkSig_good C ctx n.owner r k _ _ s hS.safe hS.refresh hS.now.2 (hR.timely s hsm)
      (fun h => hK.flag h k hk hsg s hsm hn)
  have hfv : ∀ k ∈ ctx.keys, useKey ctx n.owner r.type k = true →
      firstValid C ctx n.owner r k (margin ctx) (n.verified && !ctx.tagConflict) n.sigs ≠ none := by
    intro k hk hu hf
    have hsg := (useKey_iff ..).1 hu
    obtain ⟨s, hsm, hg⟩ := hG.all r hr hs k hk hsg
    have := firstValid_none _ _ _ _ _ _ _ _ hf s hsm hg.1
    rw [(hchk k hk hsg s hsm hg.1).2 hg.2] at this
    cases this
  obtain ⟨w, hw, ha⟩ := keyLoop_found C ctx n.owner r n.sigs _ ctx.keys hfv (initWork ctx n.owner r.type n.sigs e)
  refine ⟨w, hw, ?_, ?_⟩
  · have H := keyLoop_spec _ _ _ _ _ _ _ _ _ hw
    refine List.eq_nil_iff_forall_not_mem.2 fun s hsr => ?_
    have h1 := (H.rem s).1 hsr
    simp only [initWork, List.mem_filter, mem_covering, decide_eq_true_eq] at h1
    obtain ⟨⟨⟨hsm, hsc⟩, hoff⟩, h2⟩ := h1
    obtain ⟨r', hr', hsn, hc, hx⟩ := hG.only s hsm
    have he : r' = r := type_inj n hR.proper r' r hr' hr (by rw [← hc, hsc])
    subst he
    rcases hx with ⟨k, hk, hsg, hg⟩ | ⟨ho, hom⟩
    · have hu := (useKey_iff ctx n.owner r'.type k).2 hsg
      cases hf : firstValid C ctx n.owner r' k (margin ctx) (n.verified && !ctx.tagConflict) n.sigs with
      | none => exact hfv k hk hu hf
      | some s' =>
        obtain ⟨g1, g2, g3⟩ := firstValid_some _ _ _ _ _ _ _ _ _ hf
        have g4 := (hchk k hk hsg s' g1 g2).1 g3
        have := hM r' hr k hk hsg s hsm s' g1 hg ⟨g2, g4.1, g4.2⟩
        subst this
        exact h2 k hk hu hf
    · rw [if_pos ho, mem_covering] at hoff
      exact hoff ⟨hom, hc⟩
  · rw [ha]
    simp only [initWork]
    refine List.eq_nil_iff_forall_not_mem.2 fun s hsr => ?_
    simp only [List.mem_filter, decide_eq_true_eq] at hsr
    obtain ⟨h1, h2⟩ := hsr
    split at h1
    · rename_i ho
      rw [mem_covering] at h1
      exact h2 (hG.offline ho s h1.1 r hr hs h1.2)
    · cases h1

theorem signAll_idle (C : Crypto) (ctx : Ctx) (n : Node) (hS : Sane ctx) (hR : Ready C ctx n)
    (hG : Signed C ctx n) (hM : Minimal C ctx n) (hd : ctx.dropExisting = false) (rs : List RRset) :
    (∀ r ∈ rs, r ∈ n.rrsets) → ∀ w, w.rem = [] → w.add = [] →
    ∃ w', signAll C ctx n (n.verified && !ctx.tagConflict) rs w = .ok w' ∧ w'.rem = [] ∧ w'.add = [] := by
  induction rs with
  | nil => intro _ w h1 h2; exact ⟨w, rfl, h1, h2⟩
  | cons r rs ih =>
    intro hm w h1 h2
    have hr := hm r List.mem_cons_self
    have ih := ih (fun r' h' => hm r' (List.mem_cons_of_mem _ h'))
    simp only [signAll]
    have hone : ∃ w1, signOne C ctx n (n.verified && !ctx.tagConflict) w r = .ok w1 ∧ w1.rem = [] ∧ w1.add = [] := by
      unfold signOne
      by_cases hs : shouldSign n r.type = true
      · rw [if_neg (by simp [hs]), if_neg (by simp [hd])]
        obtain ⟨x, hx, hx1, hx2⟩ := addMissing_idle C ctx n r w.expire hS hR hG hM hr ((shouldSign_iff ..).1 hs)
        rw [hx]
        exact ⟨_, rfl, by simp [h1, hx1], by simp [h2, hx2]⟩
      · rw [if_pos (by simpa using hs)]
        refine ⟨_, rfl, ?_, h2⟩
        show w.rem ++ covering r.type n.sigs = []
        rw [h1, List.nil_append]
        refine List.eq_nil_iff_forall_not_mem.2 fun s hsm => ?_
        rw [mem_covering] at hsm
        obtain ⟨r', hr', hsn, hc, _⟩ := hG.only s hsm.1
        have he : r' = r := type_inj n hR.proper r' r hr' hr (by rw [← hc, hsm.2])
        subst he
        exact hs ((shouldSign_iff ..).2 hsn)
    obtain ⟨w1, e1, e2, e3⟩ := hone
    rw [e1]
    exact ih w1 e2 e3

theorem signNode_idle (C : Crypto) (ctx : Ctx) (n : Node) (hS : Sane ctx) (hR : Ready C ctx n)
    (hG : Signed C ctx n) (hM : Minimal C ctx n) (hd : ctx.dropExisting = false) :
    ∃ w, signNode C ctx n = .ok w ∧ applyWork n w = n := by
  obtain ⟨w, h1, h2, h3⟩ := signAll_idle C ctx n hS hR hG hM hd n.rrsets (fun _ h => h) ⟨[], [], 0⟩ rfl rfl
  unfold signNode
  dsimp only
  rw [h1]
  refine ⟨_, rfl, ?_⟩
  have hst : covering 46 n.sigs = [] ∧ standalone n = [] := by
    constructor <;> refine List.eq_nil_iff_forall_not_mem.2 fun s hsm => ?_
    · rw [mem_covering] at hsm
      obtain ⟨r', hr', hsn, hc, _⟩ := hG.only s hsm.1
      exact hR.proper.rrsig (List.mem_map.2 ⟨r', hr', by rw [← hc, hsm.2]⟩)
    · rw [mem_standalone] at hsm
      obtain ⟨r', hr', hsn, hc, _⟩ := hG.only s hsm.1
      exact hsm.2.1 (List.mem_map.2 ⟨r', hr', hc.symm⟩)
  unfold applyWork
  rw [if_pos (by simp [h2, h3, hst])]

/-! ## No failure -/

theorem keyLoop_defined (C : Crypto) (ctx : Ctx) (owner : Name) (r : RRset) (sigs : List Sig) (skip : Bool) (hS : Sane ctx)
    (ks : List Key) : ∀ w0, keyLoop C ctx owner r sigs skip ks w0 ≠ .ub ∧
      ((∀ k o r h, (C.sign k o r h).isSome) → ∃ w, keyLoop C ctx owner r sigs skip ks w0 = .ok w) := by
  induction ks with
  | nil => intro w0; exact ⟨by simp [keyLoop], fun _ => ⟨w0, rfl⟩⟩
  | cons k ks ih =>
    intro w0
    simp only [keyLoop]
    by_cases hu : useKey ctx owner r.type k = true
    · rw [if_neg (by simp [hu])]
      cases hf : firstValid C ctx owner r k (margin ctx) skip sigs with
      | some s => exact ih _
      | none =>
        dsimp only
        rw [signRRset_eq C ctx owner r k hS]
        cases hc : C.sign k owner r (made ctx owner r k) with
        | none =>
          refine ⟨by simp only [Res.bind_err, ne_eq, reduceCtorEq, not_false_eq_true], fun h => ?_⟩
          have := h k owner r (made ctx owner r k)
          rw [hc] at this; cases this
        | some d => exact ih _
    · rw [if_pos (by simpa using hu)]
      exact ih _

theorem signOne_defined (C : Crypto) (ctx : Ctx) (n : Node) (skip : Bool) (w : Work) (r : RRset) (hS : Sane ctx) :
    signOne C ctx n skip w r ≠ .ub ∧
      ((∀ k o r h, (C.sign k o r h).isSome) → ∃ w', signOne C ctx n skip w r = .ok w') := by
  unfold signOne addMissing
  split
  · exact ⟨by simp, fun _ => ⟨_, rfl⟩⟩
  · split
    · have H := keyLoop_defined C ctx n.owner r [] false hS ctx.keys (initWork ctx n.owner r.type [] w.expire)
      cases hk : keyLoop C ctx n.owner r [] false ctx.keys (initWork ctx n.owner r.type [] w.expire) with
      | ok x => exact ⟨by simp, fun _ => ⟨_, rfl⟩⟩
      | err e =>
        refine ⟨by simp, fun h => ?_⟩
        obtain ⟨x, hx⟩ := H.2 h
        rw [hk] at hx; cases hx
      | ub => exact absurd hk H.1
    · have H := keyLoop_defined C ctx n.owner r n.sigs skip hS ctx.keys (initWork ctx n.owner r.type n.sigs w.expire)
      cases hk : keyLoop C ctx n.owner r n.sigs skip ctx.keys (initWork ctx n.owner r.type n.sigs w.expire) with
      | ok x => exact ⟨by simp, fun _ => ⟨_, rfl⟩⟩
      | err e =>
        refine ⟨by simp, fun h => ?_⟩
        obtain ⟨x, hx⟩ := H.2 h
        rw [hk] at hx; cases hx
      | ub => exact absurd hk H.1

theorem signAll_defined (C : Crypto) (ctx : Ctx) (n : Node) (skip : Bool) (hS : Sane ctx) (rs : List RRset) :
    ∀ w, signAll C ctx n skip rs w ≠ .ub ∧
      ((∀ k o r h, (C.sign k o r h).isSome) → ∃ w', signAll C ctx n skip rs w = .ok w') := by
  induction rs with
  | nil => intro w; exact ⟨by simp [signAll], fun _ => ⟨w, rfl⟩⟩
  | cons r rs ih =>
    intro w
    simp only [signAll]
    have H := signOne_defined C ctx n skip w r hS
    cases h1 : signOne C ctx n skip w r with
    | ok w1 => exact ih w1
    | err e =>
      refine ⟨by simp, fun h => ?_⟩
      obtain ⟨x, hx⟩ := H.2 h
      rw [h1] at hx; cases hx
    | ub => exact absurd h1 H.1

theorem signNode_defined (C : Crypto) (ctx : Ctx) (n : Node) (hS : Sane ctx) :
    signNode C ctx n ≠ .ub ∧ ((∀ k o r h, (C.sign k o r h).isSome) → ∃ w, signNode C ctx n = .ok w) := by
  have H := signAll_defined C ctx n (n.verified && !ctx.tagConflict) hS n.rrsets ⟨[], [], 0⟩
  unfold signNode
  dsimp only
  cases h1 : signAll C ctx n (n.verified && !ctx.tagConflict) n.rrsets ⟨[], [], 0⟩ with
  | ok w => exact ⟨by simp, fun _ => ⟨_, rfl⟩⟩
  | err e =>
    refine ⟨by simp, fun h => ?_⟩
    obtain ⟨x, hx⟩ := H.2 h
    rw [h1] at hx; cases hx
  | ub => exact absurd h1 H.1

/-! ## Threads -/

/-- The thread a node belongs to; none for an empty node. -/
def owners (num : Nat) : Nat → List Node → List (Node × Option Nat)
  | _, [] => []
  | c, n :: ns =>
    if n.rrsets = [] ∧ n.sigs = [] then (n, none) :: owners num c ns else (n, some (c % num)) :: owners num (c + 1) ns

theorem owners_fst (num : Nat) (ns : List Node) : ∀ c, (owners num c ns).map (·.1) = ns := by
  induction ns with
  | nil => intro c; rfl
  | cons n ns ih => intro c; simp only [owners]; split <;> simp [ih]

theorem owners_lt (num : Nat) (hn : 0 < num) (ns : List Node) : ∀ c, ∀ p ∈ owners num c ns, ∀ i, p.2 = some i → i < num := by
  induction ns with
  | nil => intro c p hp; cases hp
  | cons n ns ih =>
    intro c p hp i hi
    simp only [owners] at hp
    split at hp
    · rcases List.mem_cons.1 hp with rfl | hp
      · cases hi
      · exact ih c p hp i hi
    · rcases List.mem_cons.1 hp with rfl | hp
      · cases hi; exact Nat.mod_lt _ hn
      · exact ih _ p hp i hi

theorem owners_none (num : Nat) (ns : List Node) : ∀ c, ∀ p ∈ owners num c ns, p.2 = none → p.1.rrsets = [] ∧ p.1.sigs = [] := by
  induction ns with
  | nil => intro c p hp; cases hp
  | cons n ns ih =>
    intro c p hp hi
    simp only [owners] at hp
    split at hp
    · rename_i he
      rcases List.mem_cons.1 hp with rfl | hp
      · exact he
      · exact ih c p hp hi
    · rcases List.mem_cons.1 hp with rfl | hp
      · cases hi
      · exact ih _ p hp hi

/-- The work for a node, if there is no error. -/
def workOf (C : Crypto) (ctx : Ctx) (n : Node) : Work :=
  match signNode C ctx n with
  | .ok w => w
  | _ => ⟨[], [], 0⟩

theorem workOf_eq (C : Crypto) (ctx : Ctx) (n : Node) (w : Work) (h : signNode C ctx n = .ok w) : workOf C ctx n = w := by
  simp [workOf, h]

theorem signNode_empty (C : Crypto) (ctx : Ctx) (n : Node) (h : n.rrsets = [] ∧ n.sigs = []) :
    signNode C ctx n = .ok ⟨[], [], 0⟩ := by
  unfold signNode
  dsimp only
  rw [h.1]
  simp [signAll, h.2, covering, standalone]

theorem threadRun_iff (C : Crypto) (ctx : Ctx) (num idx : Nat) (ns : List Node) : ∀ (c : Nat) (ws : List (Option Work)),
    threadRun C ctx num idx c ns = .ok ws ↔
      (∀ p ∈ owners num c ns, p.2 = some idx → ∃ w, signNode C ctx p.1 = .ok w) ∧
      ws = (owners num c ns).map (fun p => if p.2 = some idx then some (workOf C ctx p.1) else none) := by
  induction ns with
  | nil =>
    intro c ws
    simp only [threadRun, owners, List.map_nil, Res.ok.injEq, List.not_mem_nil, false_implies, implies_true, true_and]
    exact eq_comm
  | cons n ns ih =>
    intro c ws
    simp only [threadRun, owners]
    by_cases he : n.rrsets = [] ∧ n.sigs = []
    · rw [if_pos he, if_pos he]
      simp only [List.mem_cons, forall_eq_or_imp, reduceCtorEq, false_implies, true_and, List.map_cons, if_false]
      have ih := ih c
      constructor
      · intro h
        cases hr : threadRun C ctx num idx c ns with
        | ok r =>
          rw [hr] at h
          cases h
          have := (ih r).1 hr
          exact ⟨this.1, by rw [← this.2]⟩
        | err e => rw [hr] at h; cases h
        | ub => rw [hr] at h; cases h
      · rintro ⟨h1, rfl⟩
        rw [(ih _).2 ⟨h1, rfl⟩]
        rfl
    · rw [if_neg he, if_neg he]
      have ih := ih (c + 1)
      by_cases hc : c % num = idx
      · rw [if_neg (by simpa using hc)]
        simp only [List.mem_cons, forall_eq_or_imp, hc, forall_const, List.map_cons, if_true]
        constructor
        · intro h
          cases hw : signNode C ctx n with
          | err e => rw [hw] at h; cases h
          | ub => rw [hw] at h; cases h
          | ok w =>
            rw [hw] at h
            simp only [Res.bind_ok] at h
            cases hr : threadRun C ctx num idx (c + 1) ns with
            | ok r =>
              rw [hr] at h
              cases h
              have := (ih r).1 hr
              refine ⟨⟨⟨w, rfl⟩, this.1⟩, ?_⟩
              rw [workOf_eq C ctx n w hw, ← this.2]
            | err e => rw [hr] at h; cases h
            | ub => rw [hr] at h; cases h
        · rintro ⟨⟨⟨w, hw⟩, h1⟩, rfl⟩
          rw [hw, workOf_eq C ctx n w hw]
          simp only [Res.bind_ok]
          rw [(ih _).2 ⟨h1, rfl⟩]
          rfl
      · rw [if_pos (by simpa using hc)]
        simp only [List.mem_cons, forall_eq_or_imp, Option.some.injEq, hc, false_implies, true_and, List.map_cons, if_false]
        constructor
        · intro h
          cases hr : threadRun C ctx num idx (c + 1) ns with
          | ok r =>
            rw [hr] at h
            cases h
            have := (ih r).1 hr
            exact ⟨this.1, by rw [← this.2]⟩
          | err e => rw [hr] at h; cases h
          | ub => rw [hr] at h; cases h
        · rintro ⟨h1, rfl⟩
          rw [(ih _).2 ⟨h1, rfl⟩]
          rfl

theorem applyAll_map (P : List (Node × Option Nat)) (f : Node × Option Nat → Node) (g : Node × Option Nat → Option Work) :
    applyAll (P.map f) (P.map g) = P.map (fun p => match g p with | some w => applyWork (f p) w | none => f p) := by
  induction P with
  | nil => rfl
  | cons p P ih =>
    simp only [List.map_cons]
    cases hg : g p with
    | none => simp only [applyAll, ih]
    | some w => simp only [applyAll, ih]

/-- The earliest time among those given. -/
structure IsMin (e : Nat) (S : Nat → Prop) : Prop where
  le : ∀ x, S x → Le e x
  mem : e ≠ 0 → S e

theorem IsMin.unique {e e' : Nat} {S : Nat → Prop} (h : IsMin e S) (h' : IsMin e' S) : e = e' := by
  by_cases h0 : e = 0
  · by_cases h1 : e' = 0
    · omega
    · have := h.le e' (h'.mem h1) h1; omega
  · have a := h'.le e (h.mem h0) h0
    have b := h.le e' (h'.mem a.1) a.1
    omega

theorem isMin_timeMin {a b : Nat} {S T : Nat → Prop} (h : IsMin a S) (h' : IsMin b T) :
    IsMin (timeMin a b) (fun x => S x ∨ T x) := by
  refine ⟨?_, ?_⟩
  · rintro x (hx | hx)
    · exact (timeMin_left a b).trans (h.le x hx)
    · exact (timeMin_right a b).trans (h'.le x hx)
  · intro h0
    rcases timeMin_or a b with he | he
    · rw [he] at h0 ⊢; exact .inl (h.mem h0)
    · rw [he] at h0 ⊢; exact .inr (h'.mem h0)

theorem isMin_zero : IsMin 0 (fun _ => False) := ⟨fun _ h => h.elim, fun h => absurd rfl h⟩

theorem IsMin.congr {e : Nat} {S T : Nat → Prop} (h : IsMin e S) (hst : ∀ x, x ≠ 0 → (S x ↔ T x)) : IsMin e T := by
  refine ⟨fun x hx hx0 => h.le x ((hst x hx0).2 hx) hx0, fun h0 => (hst e h0).1 (h.mem h0)⟩

theorem threadExpire_min (ws : List (Option Work)) : ∀ e S, IsMin e S →
    IsMin (ws.foldl (fun e w => match w with | some w => timeMin e w.expire | none => e) e)
      (fun x => S x ∨ ∃ w, some w ∈ ws ∧ x = w.expire) := by
  induction ws with
  | nil => intro e S h; exact h.congr (by simp)
  | cons a ws ih =>
    intro e S h
    simp only [List.foldl_cons]
    cases a with
    | none => exact (ih e S h).congr (by simp)
    | some w =>
      have h1 : IsMin (timeMin e w.expire) (fun x => S x ∨ x = w.expire) :=
        isMin_timeMin h ⟨fun x hx => by rw [hx]; exact Le.refl _, fun _ => rfl⟩
      refine (ih _ _ h1).congr ?_
      intro x _
      simp only [List.mem_cons, Option.some.injEq]
      constructor
      · rintro ((h | h) | ⟨w', h, h'⟩)
        · exact .inl h
        · exact .inr ⟨w, .inl rfl, h⟩
        · exact .inr ⟨w', .inr h, h'⟩
      · rintro (h | ⟨w', h | h, h'⟩)
        · exact .inl (.inl h)
        · exact .inl (.inr (by rw [h', h]))
        · exact .inr ⟨w', h, h'⟩

theorem collect_spec (C : Crypto) (ctx : Ctx) (num : Nat) (orig : List Node) (is : List Nat) :
    ∀ (past : List Nat) (e : Nat) (S : Nat → Prop), is.Nodup → (∀ i ∈ is, i ∉ past) → IsMin e S →
    ((∃ ns e', collect C ctx num orig is ((owners num 0 orig).map (fun p =>
        if ∃ i ∈ past, p.2 = some i then applyWork p.1 (workOf C ctx p.1) else p.1)) e = .ok (ns, e')) ↔
      (∀ p ∈ owners num 0 orig, ∀ i ∈ is, p.2 = some i → ∃ w, signNode C ctx p.1 = .ok w)) ∧
    ∀ ns e', collect C ctx num orig is ((owners num 0 orig).map (fun p =>
        if ∃ i ∈ past, p.2 = some i then applyWork p.1 (workOf C ctx p.1) else p.1)) e = .ok (ns, e') →
      ns = (owners num 0 orig).map (fun p =>
        if ∃ i ∈ past ++ is, p.2 = some i then applyWork p.1 (workOf C ctx p.1) else p.1) ∧
      IsMin e' (fun x => S x ∨ ∃ p ∈ owners num 0 orig, ∃ i ∈ is, p.2 = some i ∧ x = (workOf C ctx p.1).expire) := by
  induction is with
  | nil =>
    intro past e S _ _ hm
    refine ⟨⟨fun _ p _ i hi => (by cases hi), fun _ => ⟨_, _, rfl⟩⟩, ?_⟩
    intro ns e' h
    simp only [collect, Res.ok.injEq, Prod.mk.injEq] at h
    refine ⟨by rw [← h.1]; simp, ?_⟩
    rw [← h.2]
    exact hm.congr (by simp)
  | cons i is ih =>
    intro past e S hnd hdis hm
    simp only [List.nodup_cons] at hnd
    simp only [collect]
    have T := threadRun_iff C ctx num i orig 0
    have hstep : ∀ ws, threadRun C ctx num i 0 orig = .ok ws →
        applyAll ((owners num 0 orig).map (fun p =>
          if ∃ i ∈ past, p.2 = some i then applyWork p.1 (workOf C ctx p.1) else p.1)) ws =
        (owners num 0 orig).map (fun p =>
          if ∃ j ∈ past ++ [i], p.2 = some j then applyWork p.1 (workOf C ctx p.1) else p.1) := by
      intro ws hws
      rw [((T ws).1 hws).2, applyAll_map]
      apply List.map_congr_left
      intro p _
      by_cases hp : p.2 = some i
      · have h1 : ¬ ∃ j ∈ past, p.2 = some j := by
          rintro ⟨j, hj, hj'⟩
          rw [hp] at hj'
          cases hj'
          exact hdis i List.mem_cons_self hj
        have h2 : ∃ j ∈ past ++ [i], p.2 = some j := ⟨i, by simp, hp⟩
        rw [if_pos hp, if_neg h1, if_pos h2]
      · rw [if_neg hp]
        dsimp only
        congr 1
        simp only [List.mem_append, List.mem_singleton, eq_iff_iff]
        constructor
        · rintro ⟨j, hj, h⟩; exact ⟨j, .inl hj, h⟩
        · rintro ⟨j, hj | rfl, h⟩
          · exact ⟨j, hj, h⟩
          · exact absurd h hp
    have hdis' : ∀ j ∈ is, j ∉ past ++ [i] := by
      intro j hj
      simp only [List.mem_append, List.mem_singleton, not_or]
      exact ⟨hdis j (List.mem_cons_of_mem _ hj), fun he => hnd.1 (he ▸ hj)⟩
    have hmin : ∀ ws, threadRun C ctx num i 0 orig = .ok ws → IsMin (timeMin e (threadExpire ws))
        (fun x => S x ∨ ∃ p ∈ owners num 0 orig, p.2 = some i ∧ x = (workOf C ctx p.1).expire) := by
      intro ws hws
      have h1 := isMin_timeMin hm (threadExpire_min ws 0 _ isMin_zero)
      refine h1.congr ?_
      intro x _
      rw [((T ws).1 hws).2]
      simp only [false_or, List.mem_map]
      constructor
      · rintro (h | ⟨w, ⟨p, hp, h⟩, hx⟩)
        · exact .inl h
        · split at h
          · rename_i hpi
            cases h
            exact .inr ⟨p, hp, hpi, hx⟩
          · cases h
      · rintro (h | ⟨p, hp, hpi, hx⟩)
        · exact .inl h
        · exact .inr ⟨workOf C ctx p.1, ⟨p, hp, by rw [if_pos hpi]⟩, hx⟩
    refine ⟨⟨?_, ?_⟩, ?_⟩
    · rintro ⟨ns, e', h⟩
      cases hws : threadRun C ctx num i 0 orig with
      | err e => rw [hws] at h; cases h
      | ub => rw [hws] at h; cases h
      | ok ws =>
        rw [hws] at h
        simp only [Res.bind_ok] at h
        rw [hstep ws hws] at h
        have H := ih (past ++ [i]) _ _ hnd.2 hdis' (hmin ws hws)
        have h2 := H.1.1 ⟨ns, e', h⟩
        intro p hp j hj hpj
        rcases List.mem_cons.1 hj with rfl | hj
        · exact ((T ws).1 hws).1 p hp hpj
        · exact h2 p hp j hj hpj
    · intro hall
      have hws := (T _).2 ⟨fun p hp hpi => hall p hp i List.mem_cons_self hpi, rfl⟩
      rw [hws]
      simp only [Res.bind_ok]
      rw [hstep _ hws]
      exact (ih (past ++ [i]) _ _ hnd.2 hdis' (hmin _ hws)).1.2
        (fun p hp j hj hpj => hall p hp j (List.mem_cons_of_mem _ hj) hpj)
    · intro ns e' h
      cases hws : threadRun C ctx num i 0 orig with
      | err e => rw [hws] at h; cases h
      | ub => rw [hws] at h; cases h
      | ok ws =>
        rw [hws] at h
        simp only [Res.bind_ok] at h
        rw [hstep ws hws] at h
        obtain ⟨g1, g2⟩ := (ih (past ++ [i]) _ _ hnd.2 hdis' (hmin ws hws)).2 ns e' h
        refine ⟨by rw [g1, List.append_assoc]; rfl, g2.congr ?_⟩
        intro x _
        constructor
        · rintro ((h | ⟨p, hp, hpi, hx⟩) | ⟨p, hp, j, hj, hpj, hx⟩)
          · exact .inl h
          · exact .inr ⟨p, hp, i, List.mem_cons_self, hpi, hx⟩
          · exact .inr ⟨p, hp, j, List.mem_cons_of_mem _ hj, hpj, hx⟩
        · rintro (h | ⟨p, hp, j, hj, hpj, hx⟩)
          · exact .inl (.inl h)
          · rcases List.mem_cons.1 hj with rfl | hj
            · exact .inl (.inr ⟨p, hp, hpj, hx⟩)
            · exact .inr ⟨p, hp, j, hj, hpj, hx⟩

/-- Signing a tree is signing every node, whatever the number of threads. -/
theorem signTree_iff (C : Crypto) (ctx : Ctx) (num : Nat) (hn : 0 < num) (nodes ns : List Node) (e : Nat) :
    signTree C ctx num nodes = .ok (ns, e) ↔
      (∀ n ∈ nodes, ∃ w, signNode C ctx n = .ok w) ∧ ns = nodes.map (fun n => applyWork n (workOf C ctx n)) ∧
      IsMin e (fun x => ∃ n ∈ nodes, x = (workOf C ctx n).expire) := by
  have H := collect_spec C ctx num nodes (List.range num) [] 0 _ List.nodup_range (by simp) isMin_zero
  have hid : (owners num 0 nodes).map (fun p =>
      if ∃ i ∈ ([] : List Nat), p.2 = some i then applyWork p.1 (workOf C ctx p.1) else p.1) = nodes := by
    simp [owners_fst]
  rw [hid] at H
  have hmem : ∀ n ∈ nodes, ∃ p ∈ owners num 0 nodes, p.1 = n := by
    intro n hn
    rw [← owners_fst num nodes 0] at hn
    obtain ⟨p, hp, he⟩ := List.mem_map.1 hn
    exact ⟨p, hp, he⟩
  have hmem' : ∀ p ∈ owners num 0 nodes, p.1 ∈ nodes := by
    intro p hp
    have := List.mem_map_of_mem (f := (·.1)) hp
    rw [owners_fst] at this
    exact this
  have hres : (owners num 0 nodes).map (fun p =>
      if ∃ i ∈ [] ++ List.range num, p.2 = some i then applyWork p.1 (workOf C ctx p.1) else p.1) =
      nodes.map (fun n => applyWork n (workOf C ctx n)) := by
    have h1 : nodes.map (fun n => applyWork n (workOf C ctx n)) =
        (owners num 0 nodes).map (fun p => applyWork p.1 (workOf C ctx p.1)) := by
      have := congrArg (List.map (fun n => applyWork n (workOf C ctx n))) (owners_fst num nodes 0)
      rw [List.map_map] at this
      exact this.symm
    rw [h1]
    apply List.map_congr_left
    intro p hp
    split
    · rfl
    · rename_i hx
      cases hp2 : p.2 with
      | none =>
        have h0 := owners_none num nodes 0 p hp hp2
        rw [workOf_eq C ctx p.1 _ (signNode_empty C ctx p.1 h0)]
        rfl
      | some i =>
        exact absurd ⟨i, by simpa using owners_lt num hn nodes 0 p hp i hp2, hp2⟩ hx
  have hall : (∀ p ∈ owners num 0 nodes, ∀ i ∈ List.range num, p.2 = some i → ∃ w, signNode C ctx p.1 = .ok w) ↔
      (∀ n ∈ nodes, ∃ w, signNode C ctx n = .ok w) := by
    constructor
    · intro h n hnm
      obtain ⟨p, hp, rfl⟩ := hmem n hnm
      cases hp2 : p.2 with
      | none => exact ⟨_, signNode_empty C ctx p.1 (owners_none num nodes 0 p hp hp2)⟩
      | some i => exact h p hp i (List.mem_range.2 (owners_lt num hn nodes 0 p hp i hp2)) hp2
    · intro h p hp _ _ _
      exact h p.1 (hmem' p hp)
  have hset : ∀ x, x ≠ 0 → ((False ∨ ∃ p ∈ owners num 0 nodes, ∃ i ∈ List.range num, p.2 = some i ∧
      x = (workOf C ctx p.1).expire) ↔ ∃ n ∈ nodes, x = (workOf C ctx n).expire) := by
    intro x hx0
    simp only [false_or]
    constructor
    · rintro ⟨p, hp, i, _, _, hx⟩
      exact ⟨p.1, hmem' p hp, hx⟩
    · rintro ⟨n, hnm, hx⟩
      obtain ⟨p, hp, rfl⟩ := hmem n hnm
      cases hp2 : p.2 with
      | none =>
        rw [workOf_eq C ctx p.1 _ (signNode_empty C ctx p.1 (owners_none num nodes 0 p hp hp2))] at hx
        exact absurd hx hx0
      | some i => exact ⟨p, hp, i, List.mem_range.2 (owners_lt num hn nodes 0 p hp i hp2), hp2, hx⟩
  unfold signTree
  constructor
  · intro h
    have h1 := H.1.1 ⟨ns, e, h⟩
    obtain ⟨g1, g2⟩ := H.2 ns e h
    exact ⟨hall.1 h1, g1.trans hres, g2.congr hset⟩
  · rintro ⟨h1, rfl, h3⟩
    obtain ⟨ns', e', h⟩ := H.1.2 (hall.2 h1)
    obtain ⟨g1, g2⟩ := H.2 ns' e' h
    rw [h, g1, hres, (g2.congr hset).unique h3]

end Knot.Zonesign
