import Verif.Connpool.Spec
/-!
# Lemmas about the pool of connections
-/
namespace Knot.Connpool
open Sockaddr (Addr Fam)
open Spec

theorem cmp_lt (a b : Nat) : timeCmp a b < 0 ↔ a ≠ 0 ∧ (b = 0 ∨ a < b) := by
  unfold timeCmp
  by_cases h1 : a = b
  · rw [if_pos h1]; simp; omega
  · rw [if_neg h1]
    by_cases h2 : a = 0 ∨ b = 0
    · rw [if_pos h2]
      by_cases h3 : a < b
      · rw [if_pos h3]; simp; omega
      · rw [if_neg h3]; simp; omega
    · rw [if_neg h2]
      by_cases h3 : a < b
      · rw [if_pos h3]; simp; omega
      · rw [if_neg h3]; simp; omega

/-- The number of live places with a property. -/
def cnt (f : Memb → Bool) (l : List Memb) : Nat := l.countP fun c => c.last ≠ 0 && f c

theorem cnt_set (f : Memb → Bool) (x : Memb) : ∀ (l : List Memb) (i : Nat) (c : Memb), l[i]? = some c →
    cnt f (l.set i x) + (if c.last ≠ 0 && f c then 1 else 0) = cnt f l + (if x.last ≠ 0 && f x then 1 else 0)
  | [], i, c, h => by simp at h
  | y :: l, 0, c, h => by
    simp only [List.getElem?_cons_zero, Option.some.injEq] at h
    subst h
    simp only [cnt, List.set_cons_zero, List.countP_cons]
    omega
  | y :: l, i + 1, c, h => by
    have := cnt_set f x l i c (by simpa using h)
    simp only [cnt, List.set_cons_succ, List.countP_cons] at this ⊢
    omega

theorem holds_cnt (p : Pool) (fd : Int) : holds p fd = cnt (fun c => c.fd == fd) p.conns := by
  unfold holds held cnt
  rw [List.count, List.countP_map, List.countP_filter]
  apply List.countP_congr
  intro c _
  simp [and_comm]

theorem held_length (p : Pool) : (held p).length = cnt (fun _ => true) p.conns := by
  unfold held cnt
  rw [List.countP_eq_length_filter]
  simp

/-- What holds between operations. -/
structure Inv (p : Pool) : Prop where
  usage : p.usage = (held p).length
  fds : ∀ c ∈ held p, c.fd ≠ -1

theorem mem_held {p : Pool} {c : Memb} : c ∈ held p ↔ c ∈ p.conns ∧ c.last ≠ 0 := by simp [held]

/-- The pool with a place replaced. -/
def put1 (p : Pool) (i : Nat) (x : Memb) : List Memb := p.conns.set i x

theorem held_pos {p : Pool} {i : Nat} {c : Memb} (h : p.conns[i]? = some c) (hc : c.last ≠ 0) : 0 < (held p).length :=
  List.length_pos_of_mem (mem_held.2 ⟨List.mem_of_getElem? h, hc⟩)

/-- The pool after `pop`. -/
def popped (p : Pool) (i : Nat) : Pool := { p with conns := p.conns.set i unused, usage := p.usage - 1 }

theorem pop_ok {p : Pool} (hi : Inv p) {i : Nat} {c : Memb} (h : p.conns[i]? = some c) (hc : c.last ≠ 0) :
    pop p i = .ok (c.fd, popped p i) ∧ Inv (popped p i) ∧ c.fd ≠ -1 ∧
      (∀ fd, holds (popped p i) fd + (if c.fd = fd then 1 else 0) = holds p fd) ∧
      (held (popped p i)).length + 1 = (held p).length ∧
      (∀ x ∈ held (popped p i), x ∈ held p) := by
  have hp := held_pos h hc
  have hu := hi.usage
  have hl : (held (popped p i)).length + 1 = (held p).length := by
    have := cnt_set (fun _ => true) unused p.conns i c h
    rw [held_length, held_length]
    simp only [popped] at this ⊢
    simpa [hc, unused] using this
  have hsub : ∀ x ∈ held (popped p i), x ∈ held p := by
    intro x hx
    obtain ⟨h1, h2⟩ := mem_held.1 hx
    rcases List.mem_or_eq_of_mem_set h1 with h1 | h1
    · exact mem_held.2 ⟨h1, h2⟩
    · subst h1; exact absurd rfl h2
  refine ⟨?_, ⟨?_, fun x hx => hi.fds x (hsub x hx)⟩, hi.fds c (mem_held.2 ⟨List.mem_of_getElem? h, hc⟩), ?_, hl, hsub⟩
  · unfold pop
    rw [h]
    dsimp only
    rw [if_neg (by omega)]
    rfl
  · simp only [popped] at hl ⊢
    omega
  · intro fd
    have := cnt_set (fun c => c.fd == fd) unused p.conns i c h
    rw [holds_cnt, holds_cnt]
    simp only [popped] at this ⊢
    simpa [hc, unused] using this

/-- The pool after `push`. -/
def pushed (p : Pool) (i now : Nat) (src dst : Addr) (fd : Int) : Pool :=
  { p with conns := p.conns.set i ⟨now, src, dst, fd⟩, usage := p.usage + 1 }

theorem push_ok {p : Pool} (hi : Inv p) {i : Nat} {c : Memb} (h : p.conns[i]? = some c) (hc : c.last = 0) {now : Nat} (hn : now ≠ 0)
    (src dst : Addr) {fd : Int} (hf : fd ≠ -1) :
    push p i now src dst fd = .ok (pushed p i now src dst fd) ∧ Inv (pushed p i now src dst fd) ∧
      (∀ f, holds (pushed p i now src dst fd) f = holds p f + (if fd = f then 1 else 0)) ∧
      (∀ x ∈ held (pushed p i now src dst fd), x ∈ held p ∨ x = ⟨now, src, dst, fd⟩) := by
  have hlen : (held p).length < p.conns.length := by
    unfold held
    rw [List.length_filter_lt_length_iff_exists]
    exact ⟨c, List.mem_of_getElem? h, by simp [hc]⟩
  have hu := hi.usage
  have hsub : ∀ x ∈ held (pushed p i now src dst fd), x ∈ held p ∨ x = ⟨now, src, dst, fd⟩ := by
    intro x hx
    obtain ⟨h1, h2⟩ := mem_held.1 hx
    rcases List.mem_or_eq_of_mem_set h1 with h1 | h1
    · exact .inl (mem_held.2 ⟨h1, h2⟩)
    · exact .inr h1
  refine ⟨?_, ⟨?_, ?_⟩, ?_, hsub⟩
  · unfold push
    rw [h]
    dsimp only
    rw [if_neg (by omega)]
    rfl
  · have := cnt_set (fun _ => true) ⟨now, src, dst, fd⟩ p.conns i c h
    have e : (held (pushed p i now src dst fd)).length = (held p).length + 1 := by
      rw [held_length, held_length]
      simp only [pushed] at this ⊢
      simpa [hc, hn] using this
    simp only [pushed] at e ⊢
    omega
  · intro x hx
    rcases hsub x hx with h | rfl
    · exact hi.fds x h
    · exact hf
  · intro f
    have := cnt_set (fun c => c.fd == f) ⟨now, src, dst, fd⟩ p.conns i c h
    rw [holds_cnt, holds_cnt]
    simp only [pushed] at this ⊢
    simpa [hc, hn] using this

theorem place_eq {p : Pool} {i : Nat} {c : Memb} (h : p.conns[i]? = some c) : place p i = c := by simp [place, h]

/-- Is the connection older than the limit? A limit of 0 is none. -/
def Older (older : Nat) (c : Memb) : Prop := c.last ≠ 0 ∧ (older = 0 ∨ c.last < older)

instance (older : Nat) (c : Memb) : Decidable (Older older c) := by unfold Older; infer_instance

theorem old_rest (older : Nat) (fd : Int) (hf : fd ≠ -1) (p : Pool) : ∀ n i next, ∃ next', oldLoop older n i fd next p = .ok (fd, next', p)
  | 0, _, next => ⟨next, rfl⟩
  | n + 1, i, next => by
    unfold oldLoop
    rw [if_neg (fun h => hf h.1)]
    exact old_rest older fd hf p n (i + 1) _

/-- The oldest time of the first `i` places, 0 if there is none. -/
def Oldest (p : Pool) (i next : Nat) : Prop :=
  (∀ k < i, ∀ c, p.conns[k]? = some c → c.last ≠ 0 → next ≠ 0 ∧ next ≤ c.last) ∧
  (next ≠ 0 → ∃ k < i, ∃ c, p.conns[k]? = some c ∧ c.last = next)

theorem old_spec (older : Nat) {p : Pool} (hi : Inv p) : ∀ n i next, i + n = p.conns.length → Oldest p i next →
    (∀ k < i, ∀ c, p.conns[k]? = some c → ¬Older older c) →
    (∃ next', oldLoop older n i (-1) next p = .ok (-1, next', p) ∧ Oldest p p.conns.length next' ∧ ∀ c ∈ p.conns, ¬Older older c) ∨
    (∃ j c next', p.conns[j]? = some c ∧ Older older c ∧ (∀ k < j, ∀ d, p.conns[k]? = some d → ¬Older older d) ∧
      oldLoop older n i (-1) next p = .ok (c.fd, next', popped p j))
  | 0, i, next, hl, ho, hk => by
    left
    have : i = p.conns.length := by omega
    subst this
    refine ⟨next, rfl, ho, fun c hc => ?_⟩
    obtain ⟨k, hk1, hk2⟩ := List.getElem_of_mem hc
    exact hk k hk1 c (by rw [List.getElem?_eq_getElem hk1, hk2])
  | n + 1, i, next, hl, ho, hk => by
    have hlt : i < p.conns.length := by omega
    have hc := List.getElem?_eq_getElem hlt
    generalize p.conns[i] = c at hc
    unfold oldLoop
    rw [place_eq hc]
    by_cases hx : Older older c
    · right
      obtain ⟨h1, h2, h3, _⟩ := pop_ok hi hc hx.1
      rw [if_pos ⟨rfl, (cmp_lt _ _).2 hx⟩, h1]
      simp only [Res.bind_ok]
      obtain ⟨next', h⟩ := old_rest older c.fd h3 (popped p i) n (i + 1) next
      exact ⟨i, c, next', hc, hx, hk, h⟩
    · rw [if_neg (fun h => hx ((cmp_lt _ _).1 h.2))]
      apply old_spec older hi n (i + 1) _ (by omega)
      · obtain ⟨o1, o2⟩ := ho
        by_cases hn : timeCmp c.last next < 0
        · rw [if_pos hn]
          rw [cmp_lt] at hn
          refine ⟨?_, fun _ => ⟨i, by omega, c, hc, rfl⟩⟩
          intro k hk d hd hd0
          by_cases hki : k = i
          · subst hki; rw [hc] at hd; cases hd; exact ⟨hd0, Nat.le_refl _⟩
          · have := o1 k (by omega) d hd hd0
            exact ⟨hn.1, by omega⟩
        · rw [if_neg hn]
          rw [cmp_lt] at hn
          refine ⟨?_, fun h => by obtain ⟨k, h1, h2⟩ := o2 h; exact ⟨k, by omega, h2⟩⟩
          intro k hk d hd hd0
          by_cases hki : k = i
          · subst hki; rw [hc] at hd; cases hd; clear o1 o2; omega
          · exact o1 k (by omega) d hd hd0
      · intro k hk' d hd
        by_cases hki : k = i
        · subst hki; rw [hc] at hd; cases hd; exact hx
        · exact hk k (by omega) d hd

theorem getOld_spec (older : Nat) {p : Pool} (hi : Inv p) :
    (∃ next, getOld p older = .ok (-1, next, p) ∧ Oldest p p.conns.length next ∧ ∀ c ∈ p.conns, ¬Older older c) ∨
    (∃ j c next, p.conns[j]? = some c ∧ Older older c ∧ (∀ k < j, ∀ d, p.conns[k]? = some d → ¬Older older d) ∧
      getOld p older = .ok (c.fd, next, popped p j)) :=
  old_spec older hi p.conns.length 0 0 (by omega) ⟨fun k hk => by omega, fun h => absurd rfl h⟩ (fun k hk => by omega)

/-- The connections that are not older. -/
def keep (older : Nat) (c : Memb) : Memb := if Older older c then unused else c

theorem close_spec (older : Nat) : ∀ (fuel : Nat) (p : Pool), Inv p → (held p).length < fuel →
    ∃ fds next q, closeLoop older fuel p = .ok (fds, next, q) ∧ Inv q ∧ q.timeout = p.timeout ∧
      q.conns = p.conns.map (keep older) ∧ Oldest q q.conns.length next ∧
      fds = (p.conns.filter fun c => decide (Older older c)).map Memb.fd
  | 0, p, _, hf => by omega
  | fuel + 1, p, hi, hf => by
    unfold closeLoop
    rcases getOld_spec older hi with ⟨next, h1, h2, h3⟩ | ⟨j, c, next, h1, h2, h3, h4⟩
    · rw [h1]
      simp only [Res.bind_ok, if_true]
      refine ⟨[], next, p, rfl, hi, rfl, ?_, h2, ?_⟩
      · conv => lhs; rw [← List.map_id p.conns]
        apply List.map_congr_left
        intro c hc
        unfold keep
        rw [if_neg (h3 c hc)]; rfl
      · rw [List.filter_eq_nil_iff.2]
        · rfl
        · intro c hc; simpa using h3 c hc
    · obtain ⟨g1, g2, g3, g4, g5, _⟩ := pop_ok hi h1 h2.1
      rw [h4]
      simp only [Res.bind_ok, if_neg g3]
      obtain ⟨fds, next', q, e1, e2, e3, e4, e5, e6⟩ := close_spec older fuel (popped p j) g2 (by omega)
      rw [e1]
      simp only [Res.bind_ok]
      have hj : j < p.conns.length := (List.getElem?_eq_some_iff.1 h1).1
      have hjc : p.conns[j] = c := (List.getElem?_eq_some_iff.1 h1).2
      have hsplit : p.conns = p.conns.take j ++ c :: p.conns.drop (j + 1) := by
        rw [← hjc, ← List.drop_eq_getElem_cons hj, List.take_append_drop]
      have hset : (popped p j).conns = p.conns.take j ++ unused :: p.conns.drop (j + 1) := by
        simp only [popped]
        rw [List.set_eq_take_append_cons_drop, if_pos hj]
      have hpre : ∀ d ∈ p.conns.take j, ¬Older older d := by
        intro d hd
        obtain ⟨k, hk1, hk2⟩ := List.getElem_of_mem hd
        rw [List.length_take] at hk1
        refine h3 k (by omega) d ?_
        rw [List.getElem_take] at hk2
        rw [List.getElem?_eq_getElem (by omega), hk2]
      have hun : ¬Older older unused := fun h => h.1 rfl
      refine ⟨_, _, _, rfl, e2, e3, ?_, e5, ?_⟩
      · rw [e4, hset]
        conv => rhs; rw [hsplit]
        simp only [List.map_append, List.map_cons]
        congr 2
        unfold keep
        rw [if_neg hun, if_pos h2]
      · rw [e6, hset]
        conv => rhs; rw [hsplit]
        rw [List.filter_append, List.filter_append, List.filter_cons, List.filter_cons, if_neg (by simpa using hun), if_pos (by simpa using h2),
          List.filter_eq_nil_iff.2 (by intro d hd; simpa using hpre d hd)]
        rfl

end Knot.Connpool
