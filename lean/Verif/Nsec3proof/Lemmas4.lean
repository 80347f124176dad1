import Verif.Nsec3proof.Lemmas3
import Verif.Nsecproof.Lemmas8
/-!
# NSEC3 proofs: the records are those of the zone; the chain
-/
namespace Knot.Nsec3proof
open Dname (Name Label)
open Answer
open Nsecproof (path_steps foldl_mem extend_mem)

theorem step_own {z : Zone3} (hs : Signed z) {t : Nat} {l : Link} (h : Step z.toZone t l) :
    l.source ∈ z.names ∧ Owns z.toZone l.source l.type ∧ Auth z.toZone l.type l.source := by
  cases h with
  | cname h =>
    cases h with
    | alias h1 h2 h3 h4 =>
      refine ⟨h1.1, h3, fun d hd hds => ?_⟩
      exfalso
      obtain ⟨e, _⟩ := h2 d hd hds
      have h5 : 5 ∈ (z.node d).types := by
        rw [e]
        rcases h3 with h | h | h
        · exact h
        · omega
        · omega
      have := hs.plan.cname d hd.1 (fun d' b1 b2 => ⟨(h2 d' b1 (e ▸ b2)).1.trans e.symm, rfl⟩) h5 2 hd.2.2
      omega
  | dname h =>
    cases h with
    | dname h1 h2 h3 h4 =>
      refine ⟨h3.1, h4, fun d hd hds => ?_⟩
      obtain ⟨x, hx⟩ := cut_exists _ ⟨d, hd, hds.trans h3.2.1⟩
      exact absurd hx (h2 x)

theorem ends_own {z : Zone3} (hs : Signed z) {t : Nat} (ht : t ≠ 255) {n : Name} {ls : List Link} {m : Name} {ans : List Rec} {σ : State}
    {rc : Nat} {au : Option (Name × Nat)} (hp : Path z.toZone t n ls m) (he : Ends z.toZone t ls m ans σ rc au) {o s : Name} {u : Nat}
    (h : .rr o s u ∈ ans) : s ∈ z.names ∧ Owns z.toZone s u ∧ Auth z.toZone u s := by
  have hst := fun l hl => (path_steps hp l hl).1
  have hrec : .rr o s u ∈ records ls → s ∈ z.names ∧ Owns z.toZone s u ∧ Auth z.toZone u s := by
    intro h
    rcases foldl_mem ls [] hst h with h | ⟨l, h1, rfl, rfl⟩
    · simp at h
    · exact step_own hs (hst l h1)
  have hext : ∀ {l}, Step z.toZone t l → .rr o s u ∈ extend (records ls) l → s ∈ z.names ∧ Owns z.toZone s u ∧ Auth z.toZone u s := by
    intro l hl h
    rcases extend_mem (by cases hl <;> simp) h with h | ⟨rfl, rfl⟩
    · exact hrec h
    · exact step_own hs hl
  cases he with
  | data hl =>
    rcases List.mem_append.mp h with h | h
    · exact hrec h
    · simp only [List.mem_singleton, Rec.rr.injEq] at h
      obtain ⟨_, rfl, rfl⟩ := h
      cases hl with
      | data h1 h2 h3 h4 =>
        unfold Match at h4
        rw [if_neg ht] at h4
        obtain ⟨rfl, h4⟩ := h4
        exact ⟨h1.1, h4, h2⟩
  | long h1 h2 h3 =>
    split at h
    · exact hrec h
    · rcases List.mem_append.mp h with h | h
      · exact hrec h
      · simp only [List.mem_singleton, Rec.rr.injEq] at h
        obtain ⟨_, rfl, rfl⟩ := h
        cases h1 with
        | dname a1 a2 a3 a4 =>
          refine ⟨a3.1, a4, fun d hd hds => ?_⟩
          obtain ⟨x, hx⟩ := cut_exists _ ⟨d, hd, hds.trans a3.2.1⟩
          exact absurd hx (a2 x)
  | made _ hl _ _ _ => exact hext hl h
  | wild hl _ _ _ _ _ => exact hext hl h
  | _ => exact hrec h

theorem agrees_self {z : Zone3} (hs : Signed z) {q : Req} (ht : q.type ≠ 255) (hu : Unlimited q) {n : Name} (hn : z.apex <:+ n)
    (hreg : Regular z.toZone q.type n) {ls : List Link} {m : Name} {st : St} {r : Resp} {p : Denial} (w : Whole z q n ls m st r p) :
    Agrees z z r p := by
  obtain ⟨k1, k2⟩ := denial_own hs.plan.wf hu hn hreg w.den
  refine ⟨rfl, rfl, fun _ _ => rfl, fun d hd => ?_, fun o s u h => ?_⟩
  · obtain ⟨a, n0, hc⟩ := k2 d hd
    exact ⟨hc.1.1, a, cut_auth hc⟩
  · obtain ⟨a, b, c⟩ := ends_own hs ht w.path w.ends h
    exact ⟨a, b, c, rfl⟩

/-! ## Without opt-out -/

theorem all_listed {z : Zone3} (hs : Signed z) (ho : ∀ h r, z.nsec3 h = some r → r.optout = false) {A : Name → Prop} (hA : Sep z A)
    {x : Name} (hx : x ∈ z.names) (ha : Auth z.toZone 43 x) : Listed z x := by
  apply Classical.byContradiction
  intro hn
  obtain ⟨h1, h2⟩ := unlisted hs.chain hA (hA.names x hx) hn
  obtain ⟨p, r, _, h3, h4⟩ := findPrev_spec hs h1 h2
  have := (hs.chain.all x hx ha h1).2 p r h3 h4
  rw [ho p r h3] at this
  cases this

theorem noWildCpe {z : Zone3} (hs : Signed z) (ho : ∀ h r, z.nsec3 h = some r → r.optout = false) {t : Nat} {n : Name}
    (hA : Apart z z t n) : NoWildCpe z t n := by
  intro ls m _ h e he hl
  cases h with
  | nxdomain h1 h2 h3 h4 =>
    rename_i c
    have hc : Listed z c := by
      refine all_listed hs ho hA.sep h3.1 (fun d hd hdc => ?_)
      obtain ⟨x, hx⟩ := cut_exists m ⟨d, hd, hdc.trans h3.2.1⟩
      exact absurd hx (h2 x)
    have e1 := he.2.2 c hc h3.2.1
    have e2 := h3.2.2 e he.1.1 he.2.1
    have : e = c := List.IsSuffix.eq_of_length e2 (Nat.le_antisymm e2.length_le e1.length_le)
    subst this
    have hm : m ∉ z.names := fun hm => h1 m ⟨hm, .inl rfl⟩
    exact h1 _ ⟨hl.1, .inr ⟨hm, e, h3, rfl⟩⟩

/-! ## DS -/

/-- No other zone has DS where this one does not. -/
theorem ds_move {z z' : Zone3} (hs : Signed z) (hs' : Signed z') {q : Req} {n : Name} {ls : List Link} {m : Name} {st : St} {r : Resp}
    {p : Denial} (w : Whole z q n ls m st r p) (ag : Agrees z z' r p) (ap : Apart z z' q.type n) {d : Name}
    (h1 : r.state = .deleg) (h2 : r.authority = some (d, 2)) (hpl : d <:+ m ∨ Listed z d) (hd : d ∈ z'.names)
    (ha : Auth z'.toZone 43 d) : 43 ∈ (z'.node d).types ↔ 43 ∈ (z.node d).types := by
  obtain ⟨d', e, hl⟩ := (Nsecproof.ends_cases w.ends).2.2.2 h1
  rw [h2] at e
  cases e
  obtain ⟨k1, k2⟩ := w.known.deleg h1 d hl
  obtain ⟨n0, hc0⟩ := Nsecproof.referral_deleg hl
  by_cases h43 : 43 ∈ (z.node d).types
  · simp [h43, (ag.ds d (k1 h43)).2.1]
  · simp only [h43, iff_false]
    obtain ⟨_, k3, k4⟩ := k2 h43
    by_cases hli : Listed z d
    · obtain ⟨b1, b2, l, b3, b4⟩ := listed_move hs hs' ag ap hli (k3 hli)
      rw [← bitmap_type b4 (.inr rfl), bitmap_type b3 (.inr rfl)]
      exact h43
    · have hdm := hpl.resolve_right hli
      obtain ⟨e, l, c1, c2⟩ := k4 hli
      have hem : e <:+ m := List.IsSuffix.trans (List.suffix_cons l e) c2.suf
      have hxd : (l :: e) <:+ d := by
        rcases Nat.lt_or_ge e.length d.length with hlt | hge
        · exact suffix_linear c2.suf hdm (by simp; omega)
        · have := (c2.listed.2.1 d hc0.1 (suffix_linear hdm hem hge)).1
          exact absurd (this ▸ c2.listed) hli
      have hx : l :: e ∈ z.names := closed_up hs.plan.wf.closed hc0.1.1 hxd
        ((hs.plan.wf.closed.under e c2.listed.1).trans (List.suffix_cons _ _))
      have ho := opt_move hs hs' ag ap w.path c2 c1 hx (auth_le (cut_auth hc0) hxd)
      intro h
      obtain ⟨d2, h3, h4⟩ := ho.2.2 d hd hxd (fun e => by rw [e] at h; simp at h)
      rw [(ha d2 h3.1 h3.2.1).1] at h4
      exact h4 h

/-! ## The chain -/

theorem insert_mem (a : Nat × List Nat) : ∀ (l : List (Nat × List Nat)), (∀ b ∈ l, b.1 ≠ a.1) → ∀ b, b ∈ insert l a ↔ b = a ∨ b ∈ l
  | [], _, b => by simp [insert]
  | c :: l, h, b => by
    have hc := h c (by simp)
    unfold insert
    split
    · simp
    · split
      · next e => exact absurd e.symm hc
      · simp only [List.mem_cons, insert_mem a l (fun b hb => h b (by simp [hb])) b]
        constructor
        · rintro (h | h | h) <;> simp [h]
        · rintro (h | h | h) <;> simp [h]

theorem insert_sorted (a : Nat × List Nat) : ∀ (l : List (Nat × List Nat)), (∀ b ∈ l, b.1 ≠ a.1) → l.Pairwise (fun x y => x.1 < y.1) →
    (insert l a).Pairwise (fun x y => x.1 < y.1)
  | [], _, _ => by simp [insert]
  | c :: l, h, hs => by
    have hc := h c (by simp)
    have hs' := List.pairwise_cons.mp hs
    unfold insert
    split
    · next hlt =>
      refine List.pairwise_cons.mpr ⟨fun b hb => ?_, hs⟩
      rcases List.mem_cons.mp hb with rfl | hb
      · exact hlt
      · exact Nat.lt_trans hlt (hs'.1 b hb)
    · next hlt =>
      split
      · next e => exact absurd e.symm hc
      · have hr : ∀ b ∈ l, b.1 ≠ a.1 := fun b hb => h b (by simp [hb])
        refine List.pairwise_cons.mpr ⟨fun b hb => ?_, insert_sorted a l hr hs'.2⟩
        rcases (insert_mem a l hr b).mp hb with rfl | hb
        · omega
        · exact hs'.1 b hb

theorem foldl_insert (f : Name → Nat) (g : Name → List Nat) : ∀ (l : List Name) (acc : List (Nat × List Nat)),
    (∀ x ∈ l, ∀ y ∈ l, f x = f y → x = y) → l.Nodup → (∀ b ∈ acc, ∀ x ∈ l, b.1 ≠ f x) → acc.Pairwise (fun x y => x.1 < y.1) →
    (l.foldl (fun l x => insert l (f x, g x)) acc).Pairwise (fun x y => x.1 < y.1) ∧
    ∀ b, b ∈ l.foldl (fun l x => insert l (f x, g x)) acc ↔ b ∈ acc ∨ ∃ x ∈ l, b = (f x, g x)
  | [], acc, _, _, _, hs => by simp [hs]
  | x :: l, acc, hi, hn, ha, hs => by
    have hn' := List.nodup_cons.mp hn
    have hacc : ∀ b ∈ acc, b.1 ≠ (f x, g x).1 := fun b hb => ha b hb x (by simp)
    obtain ⟨h1, h2⟩ := foldl_insert f g l (insert acc (f x, g x)) (fun a ha b hb => hi a (by simp [ha]) b (by simp [hb])) hn'.2
      (fun b hb y hy => by
        rcases (insert_mem _ acc hacc b).mp hb with rfl | hb
        · intro e
          have := hi x (by simp) y (by simp [hy]) e
          exact hn'.1 (this ▸ hy)
        · exact ha b hb y (by simp [hy])) (insert_sorted _ acc hacc hs)
    refine ⟨h1, fun b => ?_⟩
    rw [List.foldl_cons, h2 b, insert_mem _ acc hacc b]
    constructor
    · rintro ((h | h) | ⟨y, hy, h⟩)
      · exact .inr ⟨x, by simp, h⟩
      · exact .inl h
      · exact .inr ⟨y, by simp [hy], h⟩
    · rintro (h | ⟨y, hy, h⟩)
      · exact .inl (.inr h)
      · rcases List.mem_cons.mp hy with rfl | hy
        · exact .inl (.inl h)
        · exact .inr ⟨y, hy, h⟩

/-- The links: to the next hash, or from the last one to the first. -/
theorem connect_spec (o : Bool) (f : Nat) : ∀ (l : List (Nat × List Nat)), l.Pairwise (fun x y => x.1 < y.1) →
    ∀ h r, (h, r) ∈ connect o f l → (h, r.types) ∈ l ∧ r.optout = o ∧
      ((r.next = f ∧ ∀ k ∈ l, k.1 ≤ h) ∨ ((∃ k ∈ l, k.1 = r.next) ∧ h < r.next ∧ ∀ k ∈ l, k.1 ≤ h ∨ r.next ≤ k.1))
  | [], _, h, r, hm => by simp [connect] at hm
  | [a], _, h, r, hm => by
    simp only [connect, List.mem_singleton, Prod.mk.injEq] at hm
    obtain ⟨rfl, rfl⟩ := hm
    simp
  | a :: b :: l, hs, h, r, hm => by
    have hs' := List.pairwise_cons.mp hs
    have hs2 := List.pairwise_cons.mp hs'.2
    simp only [connect, List.mem_cons, Prod.mk.injEq] at hm
    rcases hm with ⟨rfl, rfl⟩ | hm
    · refine ⟨by simp, rfl, .inr ⟨⟨b, by simp, rfl⟩, hs'.1 b (by simp), fun k hk => ?_⟩⟩
      rcases List.mem_cons.mp hk with rfl | hk
      · exact .inl (Nat.le_refl _)
      · rcases List.mem_cons.mp hk with rfl | hk
        · exact .inr (Nat.le_refl _)
        · exact .inr (Nat.le_of_lt (hs2.1 k hk))
    · obtain ⟨h1, h2, h3⟩ := connect_spec o f (b :: l) hs'.2 h r hm
      refine ⟨List.mem_cons_of_mem _ h1, h2, ?_⟩
      have hah : a.1 < h := hs'.1 _ h1
      rcases h3 with ⟨h3, h4⟩ | ⟨⟨k, h5, h6⟩, h7, h8⟩
      · refine .inl ⟨h3, fun k hk => ?_⟩
        rcases List.mem_cons.mp hk with rfl | hk
        · omega
        · exact h4 k hk
      · refine .inr ⟨⟨k, List.mem_cons_of_mem _ h5, h6⟩, h7, fun k hk => ?_⟩
        rcases List.mem_cons.mp hk with rfl | hk
        · omega
        · exact h8 k hk

theorem connect_keys (o : Bool) (f : Nat) : ∀ (l : List (Nat × List Nat)), (connect o f l).map (·.1) = l.map (·.1)
  | [] => rfl
  | [a] => rfl
  | a :: b :: l => by simp only [connect, List.map_cons, connect_keys o f (b :: l)]

theorem lookup_mem {α : Type} {h : Nat} {r : α} : ∀ {l : List (Nat × α)}, l.lookup h = some r → (h, r) ∈ l
  | [], hl => by simp at hl
  | (a, b) :: l, hl => by
    rw [List.lookup_cons] at hl
    split at hl
    · next e =>
      simp only [beq_iff_eq] at e
      simp only [Option.some.injEq] at hl
      rw [e, hl]; simp
    · exact List.mem_cons_of_mem _ (lookup_mem hl)

theorem lookup_none {α : Type} {h : Nat} : ∀ {l : List (Nat × α)}, l.lookup h = none ↔ h ∉ l.map (·.1)
  | [] => by simp
  | (a, b) :: l => by
    rw [List.lookup_cons]
    split
    · next e =>
      simp only [beq_iff_eq] at e
      simp [e]
    · next e =>
      have : h ≠ a := by simpa using e
      rw [lookup_none (l := l)]
      simp [this]

theorem deleg_flag {z : Zone} (wf : Wf z) {x : Name} (hx : x ∈ z.names) (ha : Auth z 43 x) : (z.node x).deleg = true ↔ Deleg z x := by
  rw [deleg_iff_cut wf hx]
  exact ⟨fun h => h.1, fun h => ⟨h, List.suffix_refl _, fun d h1 h2 => by rw [(ha d h1 h2).1]; exact List.suffix_refl _⟩⟩

theorem bitmap_spec {z : Zone3} (hp : Plan z) (hr : Ready z) {x : Name} (hx : x ∈ z.names) (ha : Auth z.toZone 43 x) :
    Bitmap z x (bitmapTypes z x) := by
  intro t
  have hd := deleg_flag hp.wf hx ha
  have hap : x = z.apex → 51 ∈ (z.node x).types ∧ ¬ Deleg z.toZone x := by
    rintro rfl
    exact ⟨hr.param, fun h => h.2.1 rfl⟩
  rw [hr.sigs x hx ha]
  unfold bitmapTypes Nsecchain.bitmapTypes shouldSign
  by_cases hde : Deleg z.toZone x
  · have hne : x ≠ z.apex := hde.2.1
    simp only [hd.mpr hde, hde, hne]
    simp
    grind
  · have hf : (z.node x).deleg = false := by
      cases e : (z.node x).deleg with
      | false => rfl
      | true => exact absurd (hd.mp e) hde
    simp only [hf, hde]
    simp
    grind

theorem chain_of {z : Zone3} (hp : Plan z) (hr : Ready z) (o : Bool) (hi : ∀ x ∈ z.names, ∀ y ∈ z.names, z.hash x = z.hash y → x = y) :
    ∃ z', createChain z o = .ok z' ∧ z'.toZone = z.toZone ∧ z'.hash = z.hash ∧ Signed z' ∧
      (∀ x, Listed z' x ↔ x ∈ z.names ∧ Auth z.toZone 43 x ∧ ¬ (o = true ∧ Insecure z x)) ∧
      ∀ h, h ∈ z'.tree ↔ z'.nsec3 h ≠ none := by
  have hnd : z.names.Nodup := Nsecchain.sorted_nodup hp.wf.closed.sorted
  obtain ⟨hsort, hmem⟩ := foldl_insert z.hash (bitmapTypes z)
    (z.names.filter (fun x => !(z.node x).nonauth && !nsec3Empty z o x)) []
    (fun x hx y hy => hi x (List.mem_filter.mp hx).1 y (List.mem_filter.mp hy).1) (hnd.filter _) (by simp) (by simp)
  change (createNodes z o).Pairwise _ at hsort
  have hmem' : ∀ b, b ∈ createNodes z o ↔ ∃ x ∈ z.names, (z.node x).nonauth = false ∧ nsec3Empty z o x = false ∧
      b = (z.hash x, bitmapTypes z x) := by
    intro b
    refine (hmem b).trans ?_
    simp only [List.not_mem_nil, false_or, List.mem_filter, Bool.and_eq_true, Bool.not_eq_true']
    constructor
    · rintro ⟨x, ⟨a, b, c⟩, d⟩; exact ⟨x, a, b, c, d⟩
    · rintro ⟨x, a, b, c, d⟩; exact ⟨x, ⟨a, b, c⟩, d⟩
  have hemp : ∀ x ∈ z.names, Auth z.toZone 43 x → (nsec3Empty z o x = true ↔ (o = true ∧ Insecure z x)) := by
    intro x hx ha
    unfold nsec3Empty
    cases o with
    | true =>
      simp only [if_true, Bool.not_eq_true', true_and]
      exact ⟨subtree_insecure hp hx ha, insecure_subtree hp⟩
    | false =>
      simp only [Bool.false_eq_true, if_false, false_and, iff_false, Bool.not_eq_true', Bool.not_eq_false]
      obtain ⟨y, h1, h2, h3⟩ := hp.empty x hx
      exact List.any_eq_true.mpr ⟨y, h1, by simp [h2, h3]⟩
  have hkey : ∀ x ∈ z.names, Auth z.toZone 43 x → (z.hash x ∈ (createNodes z o).map (·.1) ↔ ¬ (o = true ∧ Insecure z x)) := by
    intro x hx ha
    rw [← hemp x hx ha]
    constructor
    · intro h
      obtain ⟨b, h1, h2⟩ := List.mem_map.mp h
      obtain ⟨y, h3, h4, h5, rfl⟩ := (hmem' b).mp h1
      have := hi y h3 x hx h2
      rw [← this, h5]; simp
    · intro h
      exact List.mem_map.mpr ⟨(z.hash x, bitmapTypes z x), (hmem' _).mpr ⟨x, hx, (auth_nonauth' hp.wf hx).mp ha, by simpa using h, rfl⟩, rfl⟩
  have hapau : Auth z.toZone 43 z.apex := by
    intro d h1 h2
    have := hp.wf.closed.under d h1.1
    exact absurd (List.IsSuffix.eq_of_length h2 (Nat.le_antisymm h2.length_le this.length_le)) h1.2.1
  have hapex : z.hash z.apex ∈ (createNodes z o).map (·.1) := by
    refine (hkey _ hp.wf.apex hapau).mpr ?_
    rintro ⟨_, h⟩
    obtain ⟨d, h1, _⟩ := h _ hp.wf.apex (List.suffix_refl _) (fun e => by have := hp.wf.soa; rw [e] at this; simp at this)
    exact h1.1.2.1 (hapau d h1.1 h1.2.1).1
  cases hc : createNodes z o with
  | nil => rw [hc] at hapex; simp at hapex
  | cons a l =>
    have hcr : createChain z o = .ok { z with tree := (a :: l).map (·.1), nsec3 := fun h => (connect o a.1 (a :: l)).lookup h } := by
      unfold createChain
      rw [hc]
    rw [hc] at hsort hmem' hkey
    have hn3 : ∀ h, (connect o a.1 (a :: l)).lookup h = none ↔ h ∉ (a :: l).map (·.1) := by
      intro h
      rw [lookup_none, connect_keys]
    have hlist : ∀ x, x ∈ z.names ∧ Auth z.toZone 43 x ∧ (connect o a.1 (a :: l)).lookup (z.hash x) ≠ none ↔
        x ∈ z.names ∧ Auth z.toZone 43 x ∧ ¬ (o = true ∧ Insecure z x) := by
      intro x
      refine and_congr_right (fun hx => and_congr_right (fun ha => ?_))
      rw [← hkey x hx ha, ne_eq, hn3, Classical.not_not]
    refine ⟨_, hcr, rfl, rfl, ⟨⟨hp.wf, hp.nsec, hp.sigs, hp.empty, hp.cname, hp.dname, hp.ds⟩, ?_⟩, hlist, fun h => ?_⟩
    · constructor
      · exact List.pairwise_map.mpr hsort
      · intro h hh
        apply Classical.byContradiction
        exact fun h' => hh ((hn3 h).mpr h')
      · intro h r hh
        obtain ⟨h1, _⟩ := connect_spec o a.1 _ hsort h r (lookup_mem hh)
        obtain ⟨x, h2, h3, h4, h5⟩ := (hmem' _).mp h1
        simp only [Prod.mk.injEq] at h5
        have hau := (auth_nonauth' hp.wf h2).mpr h3
        refine ⟨x, h2, hau, h5.1.symm, ?_⟩
        rw [h5.2]
        exact bitmap_spec hp hr h2 hau
      · intro h r hh
        obtain ⟨h1, _, h2⟩ := connect_spec o a.1 _ hsort h r (lookup_mem hh)
        have hmin : ∀ k ∈ a :: l, a.1 ≤ k.1 := by
          intro k hk
          rcases List.mem_cons.mp hk with rfl | hk
          · exact Nat.le_refl _
          · exact Nat.le_of_lt ((List.pairwise_cons.mp hsort).1 k hk)
        have hnx : r.next ∈ (a :: l).map (·.1) := by
          rcases h2 with ⟨h2, _⟩ | ⟨⟨k, h2, h3⟩, _⟩
          · rw [h2]; simp
          · exact List.mem_map.mpr ⟨k, h2, h3⟩
        refine ⟨fun h' => (hn3 _).mp h' hnx, fun h' hcv => (hn3 h').mpr (fun hk => ?_)⟩
        obtain ⟨k, hk1, rfl⟩ := List.mem_map.mp hk
        rcases h2 with ⟨h2, h3⟩ | ⟨_, h3, h4⟩
        · have := h3 k hk1
          have := hmin k hk1
          have := hmin _ h1
          simp only at this
          rcases hcv with hcv | hcv <;> omega
        · have := h4 k hk1
          rcases hcv with hcv | hcv <;> omega
      · intro x hx ha hno
        have hnl : ¬ (x ∈ z.names ∧ Auth z.toZone 43 x ∧ ¬ (o = true ∧ Insecure z x)) := fun h => ((hlist x).mpr h).2.2 hno
        have : o = true ∧ Insecure z x := Classical.not_not.mp (fun h => hnl ⟨hx, ha, h⟩)
        refine ⟨this.2, fun h r hh _ => ?_⟩
        rw [(connect_spec o a.1 _ hsort h r (lookup_mem hh)).2.1, this.1]
    · change _ ↔ (connect o a.1 (a :: l)).lookup h ≠ none
      rw [ne_eq, hn3, Classical.not_not]

end Knot.Nsec3proof
