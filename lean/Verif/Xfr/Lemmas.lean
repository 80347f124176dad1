import Verif.Xfr.Spec
import Verif.Changeset.Lemmas5
/-! # Transfers: what the server sends -/
namespace Knot.Xfr
open Knot.Dname (Name)
open Knot.Changeset

/-! ## Answers of several messages -/

/-- `R x` is what is still to be sent. -/
structure Sends {X : Type} (step : X → List RRset × X × St) (P : X → Prop) (R : X → List RRset) : Prop where
  more : ∀ x m x', P x → step x = (m, x', .produce) → P x' ∧ R x = m ++ R x' ∧ m ≠ []
  last : ∀ x m x', P x → step x = (m, x', .done) → R x = m ∧ m ≠ []

theorem Sends.answer {X : Type} {step : X → List RRset × X × St} {P : X → Prop} {R : X → List RRset}
    (h : Sends step P R) {n : Nat} {x : X} {ms : List (List RRset)} (hp : P x)
    (ha : answer step n x = (ms, .done)) : ms.flatten = R x ∧ ∀ m ∈ ms, m ≠ [] := by
  induction n generalizing x ms with
  | zero => simp [Xfr.answer] at ha
  | succ n ih =>
    unfold Xfr.answer at ha
    split at ha
    · rename_i m x' he
      obtain ⟨p', hr, hm⟩ := h.more _ _ _ hp he
      simp only [Prod.mk.injEq] at ha
      obtain ⟨i1, i2⟩ := ih (ms := (Xfr.answer step n x').1) p' (Prod.ext rfl ha.2)
      rw [← ha.1, List.flatten_cons, i1, hr]
      exact ⟨rfl, fun m' hm' => by
        rcases List.mem_cons.mp hm' with e | e
        · rw [e]; exact hm
        · exact i2 _ e⟩
    · rename_i m x' he
      obtain ⟨hr, hm⟩ := h.last _ _ _ hp he
      simp only [Prod.mk.injEq, and_true] at ha
      rw [← ha, hr]
      simp [hm]
    · rename_i st hp' hd he
      simp only [Prod.mk.injEq] at ha
      exact absurd ha.2 hd

theorem Sends.ends {X : Type} {step : X → List RRset × X × St} {P : X → Prop} {R : X → List RRset}
    (h : Sends step P R) {n : Nat} {x : X} (hp : P x) (hn : (R x).length < n) :
    (Xfr.answer step n x).2 ≠ .produce := by
  induction n generalizing x with
  | zero => omega
  | succ n ih =>
    unfold Xfr.answer
    split
    · rename_i m x' he
      obtain ⟨p', hr, hm⟩ := h.more _ _ _ hp he
      refine ih p' ?_
      rw [hr, List.length_append] at hn
      have := List.length_pos_iff.mpr hm
      omega
    · simp
    · rename_i st hp' hd he
      exact hp'

/-- It ends well if no step fails. -/
theorem Sends.done {X : Type} {step : X → List RRset × X × St} {P : X → Prop} {R : X → List RRset}
    (h : Sends step P R) (hs : ∀ x, P x → (step x).2.2 = .produce ∨ (step x).2.2 = .done)
    {n : Nat} {x : X} (hp : P x) (hn : (R x).length < n) : (Xfr.answer step n x).2 = .done := by
  induction n generalizing x with
  | zero => omega
  | succ n ih =>
    unfold Xfr.answer
    split
    · rename_i m x' he
      obtain ⟨p', hr, hm⟩ := h.more _ _ _ hp he
      refine ih p' ?_
      rw [hr, List.length_append] at hn
      have := List.length_pos_iff.mpr hm
      omega
    · rfl
    · rename_i m' x' st hp' hd he
      rcases hs x hp with e | e <;> rw [he] at e <;> simp only at e <;> subst e
      · exact absurd rfl hp'
      · rfl

/-! ## The list of items -/

/-- `put` sends what `ρ` says is left. -/
structure Puts {I S : Type} (pk : Pack) (put : I → S → List RRset → List RRset × S × Code)
    (P : List I → S → Prop) (ρ : List I → S → List RRset) : Prop where
  nil : ∀ s, ρ [] s = []
  ok : ∀ i is s pkt pkt' s', P (i :: is) s → put i s pkt = (pkt', s', .ok) →
    P is s' ∧ ∃ M, pkt' = pkt ++ M ∧ ρ (i :: is) s = M ++ ρ is s'
  espace : ∀ i is s pkt pkt' s', P (i :: is) s → put i s pkt = (pkt', s', .espace) →
    P (i :: is) s' ∧ ∃ M, pkt' = pkt ++ M ∧ ρ (i :: is) s = M ++ ρ (i :: is) s' ∧
      (pkt' = [] → ∃ rr ∈ ρ (i :: is) s, pk.fits [] rr = false)

theorem Puts.items {I S : Type} {pk : Pack} {put : I → S → List RRset → List RRset × S × Code}
    {P : List I → S → Prop} {ρ : List I → S → List RRset} (h : Puts pk put P ρ) {is is' : List I} {s s' : S}
    {pkt pkt' : List RRset} {c : Code} (hp : P is s) (hi : items put is s pkt = (pkt', is', s', c)) :
    (c = .ok → is' = [] ∧ P [] s' ∧ pkt' = pkt ++ ρ is s) ∧
    (c = .espace → P is' s' ∧ ∃ M, pkt' = pkt ++ M ∧ ρ is s = M ++ ρ is' s' ∧
      (pkt' = [] → ∃ rr ∈ ρ is s, pk.fits [] rr = false)) := by
  induction is generalizing s pkt with
  | nil =>
    simp only [Xfr.items, Prod.mk.injEq] at hi
    obtain ⟨rfl, rfl, rfl, rfl⟩ := hi
    exact ⟨fun _ => ⟨rfl, hp, by rw [h.nil]; simp⟩, fun e => by simp at e⟩
  | cons i is ih =>
    unfold Xfr.items at hi
    split at hi
    · rename_i p1 s1 he
      obtain ⟨hp', M, hm, hr⟩ := h.ok _ _ _ _ _ _ hp he
      obtain ⟨i1, i2⟩ := ih hp' hi
      refine ⟨fun e => ?_, fun e => ?_⟩
      · obtain ⟨a, b, e3⟩ := i1 e
        exact ⟨a, b, by rw [e3, hm, hr, List.append_assoc]⟩
      · obtain ⟨a, N, hn, b, e3⟩ := i2 e
        refine ⟨a, M ++ N, by rw [hn, hm, List.append_assoc], by rw [hr, b, List.append_assoc], fun e4 => ?_⟩
        obtain ⟨rr, h1, h2⟩ := e3 e4
        exact ⟨rr, by rw [hr]; exact List.mem_append_right _ h1, h2⟩
    · rename_i p1 s1 c1 hc he
      simp only [Prod.mk.injEq] at hi
      obtain ⟨rfl, rfl, rfl, rfl⟩ := hi
      refine ⟨fun e => absurd e hc, fun e => ?_⟩
      subst e
      exact h.espace _ _ _ _ _ _ hp he

/-- What is left of a transfer. -/
def toSend {I S : Type} (soaRr : RRset) (ρ : List I → S → List RRset) (x : Proc I S) : List RRset :=
  (if x.messages = 0 then [soaRr] else []) ++ (ρ x.nodes x.st ++ [soaRr])

theorem processRest_spec {I S : Type} {pk : Pack} {put : I → S → List RRset → List RRset × S × Code}
    {P : List I → S → Prop} {ρ : List I → S → List RRset} (h : Puts pk put P ρ) {soaRr : RRset} {x x' : Proc I S}
    {pkt m : List RRset} {c : Code} (hp : P x.nodes x.st) (he : processRest pk put soaRr x pkt = (m, x', c)) :
    (c = .ok → P x'.nodes x'.st ∧ m = pkt ++ (ρ x.nodes x.st ++ [soaRr])) ∧
    (c = .espace → P x'.nodes x'.st ∧ x'.messages = x.messages ∧ m ≠ [] ∧
      ∃ M, m = pkt ++ M ∧ ρ x.nodes x.st ++ [soaRr] = M ++ (ρ x'.nodes x'.st ++ [soaRr])) ∧
    (c = .failed → (∃ rr ∈ ρ x.nodes x.st ++ [soaRr], pk.fits [] rr = false) ∨
      (items put x.nodes x.st pkt).2.2.2 = .failed) := by
  unfold processRest at he
  split at he
  · rename_i p1 is s hi
    obtain ⟨h1, h2, h3⟩ := (h.items hp hi).1 rfl
    subst h1
    split at he
    · rename_i p2 hput
      simp only [Prod.mk.injEq] at he
      obtain ⟨rfl, rfl, rfl⟩ := he
      refine ⟨fun _ => ⟨h2, ?_⟩, fun e => by simp at e, fun e => by simp at e⟩
      unfold pktPut at hput
      split at hput
      · simp only [Option.some.injEq] at hput
        rw [← hput, h3, List.append_assoc]
      · simp at hput
    · rename_i hput
      simp only [Prod.mk.injEq] at he
      obtain ⟨rfl, rfl, rfl⟩ := he
      refine ⟨fun e => by split at e <;> simp at e, fun e => ?_, fun e => ?_⟩
      · refine ⟨h2, rfl, ?_, ρ x.nodes x.st, h3, by rw [h.nil]; simp⟩
        intro e'
        rw [if_pos e'] at e
        simp at e
      · by_cases e' : p1 = []
        · refine .inl ⟨soaRr, by simp, ?_⟩
          unfold pktPut at hput
          rw [e'] at hput
          split at hput
          · simp at hput
          · rename_i hf; simpa using hf
        · rw [if_neg e'] at e; simp at e
  · rename_i p1 is s hi
    obtain ⟨h2, M, h3, h4, h5⟩ := (h.items hp hi).2 rfl
    simp only [Prod.mk.injEq] at he
    obtain ⟨rfl, rfl, rfl⟩ := he
    refine ⟨fun e => by split at e <;> simp at e, fun e => ?_, fun e => ?_⟩
    · refine ⟨h2, rfl, ?_, M, h3, by rw [h4, List.append_assoc]⟩
      intro e'
      rw [if_pos e'] at e
      simp at e
    · by_cases e' : p1 = []
      · obtain ⟨rr, h6, h7⟩ := h5 e'
        exact .inl ⟨rr, List.mem_append_left _ h6, h7⟩
      · rw [if_neg e'] at e; simp at e
  · rename_i p1 is s hi
    simp only [Prod.mk.injEq] at he
    obtain ⟨rfl, rfl, rfl⟩ := he
    exact ⟨fun e => by simp at e, fun e => by simp at e, fun _ => .inr (by rw [hi])⟩

theorem processList_spec {I S : Type} {pk : Pack} {put : I → S → List RRset → List RRset × S × Code}
    {P : List I → S → Prop} {ρ : List I → S → List RRset} (h : Puts pk put P ρ) {soaRr : RRset}
    (hs : pk.fits [] soaRr = true) {x x' : Proc I S} {m : List RRset} {c : Code} (hp : P x.nodes x.st)
    (he : processList pk put soaRr x = (m, x', c)) :
    (c = .ok → P x'.nodes x'.st ∧ toSend soaRr ρ x = m ∧ m ≠ []) ∧
    (c = .espace → P x'.nodes x'.st ∧ m ≠ [] ∧
      toSend soaRr ρ x = m ++ toSend soaRr ρ { x' with messages := x'.messages + 1 }) ∧
    (c = .failed → (∃ rr ∈ toSend soaRr ρ x, pk.fits [] rr = false) ∨
      ∃ pkt, (items put x.nodes x.st pkt).2.2.2 = .failed) := by
  unfold processList at he
  unfold toSend
  split at he
  · rename_i h0
    simp only [pktPut, hs, if_true, List.nil_append] at he
    obtain ⟨h1, h2, h3⟩ := processRest_spec h hp he
    simp only [h0, if_true]
    refine ⟨fun e => ?_, fun e => ?_, fun e => ?_⟩
    · obtain ⟨a, b⟩ := h1 e
      exact ⟨a, b.symm, by rw [b]; simp⟩
    · obtain ⟨a, _, b, M, e3, e4⟩ := h2 e
      refine ⟨a, b, ?_⟩
      rw [e3, e4]
      simp
    · rcases h3 e with ⟨rr, m1, f⟩ | f
      · exact .inl ⟨rr, List.mem_append_right _ m1, f⟩
      · exact .inr ⟨_, f⟩
  · rename_i h0
    obtain ⟨h1, h2, h3⟩ := processRest_spec h hp he
    simp only [h0, if_false, List.nil_append]
    refine ⟨fun e => ?_, fun e => ?_, fun e => ?_⟩
    · obtain ⟨a, b⟩ := h1 e
      exact ⟨a, by rw [b]; simp, by rw [b]; simp⟩
    · obtain ⟨a, _, b, M, e3, e4⟩ := h2 e
      refine ⟨a, b, ?_⟩
      rw [e3, e4]
      simp
    · rcases h3 e with ⟨rr, m1, f⟩ | f
      · exact .inl ⟨rr, m1, f⟩
      · exact .inr ⟨_, f⟩

/-! ## AXFR -/

/-- What is left of the nodes, from RRset `cur` of the first one on. -/
def restNodes : List (List RRset) → Nat → List RRset
  | [], _ => []
  | n :: ns, cur => n.drop cur ++ ns.flatten

theorem putFrom_spec {pk : Pack} {l : List RRset} {i : Nat} {pkt pkt' : List RRset} {cur : Nat} {c : Code}
    (h : putFrom pk l i pkt = (pkt', cur, c)) :
    (c = .ok → cur = 0 ∧ pkt' = pkt ++ notSoa l) ∧
    (c = .espace → ∃ l1 l2, l = l1 ++ l2 ∧ cur = i + l1.length ∧ pkt' = pkt ++ notSoa l1 ∧
      (pkt' = [] → ∃ rr ∈ notSoa l, pk.fits [] rr = false)) ∧ c ≠ .failed := by
  induction l generalizing i pkt with
  | nil =>
    simp only [putFrom, Prod.mk.injEq] at h
    obtain ⟨rfl, rfl, rfl⟩ := h
    exact ⟨fun _ => ⟨rfl, by simp [notSoa]⟩, fun e => by simp at e, by simp⟩
  | cons rr t ih =>
    unfold putFrom at h
    split at h
    · rename_i hs
      obtain ⟨h1, h2, h3⟩ := ih h
      have hn : notSoa (rr :: t) = notSoa t := by simp [notSoa, hs]
      refine ⟨fun e => by rw [hn]; exact h1 e, fun e => ?_, h3⟩
      obtain ⟨l1, l2, e1, e2, e3, e4⟩ := h2 e
      refine ⟨rr :: l1, l2, by rw [e1]; rfl, by rw [e2]; simp; omega, ?_, by rw [hn]; exact e4⟩
      rw [e3]; simp [notSoa, hs]
    · rename_i hs
      have hn : notSoa (rr :: t) = rr :: notSoa t := by simp [notSoa, hs]
      split at h
      · rename_i hput
        simp only [Prod.mk.injEq] at h
        obtain ⟨rfl, rfl, rfl⟩ := h
        refine ⟨fun e => by simp at e, fun _ => ⟨[], rr :: t, rfl, by simp, by simp [notSoa], fun e => ?_⟩, by simp⟩
        refine ⟨rr, by rw [hn]; simp, ?_⟩
        unfold pktPut at hput
        rw [e] at hput
        split at hput
        · simp at hput
        · rename_i hf; simpa using hf
      · rename_i p1 hput
        have hp1 : p1 = pkt ++ [rr] := by
          unfold pktPut at hput
          split at hput
          · simpa using hput.symm
          · simp at hput
        split at h
        · simp only [Prod.mk.injEq] at h
          obtain ⟨rfl, rfl, rfl⟩ := h
          refine ⟨fun e => by simp at e, fun _ => ⟨[rr], t, rfl, rfl, ?_, fun e => ?_⟩, by simp⟩
          · rw [hp1]; simp [notSoa, hs]
          · rw [hp1] at e; simp at e
        · obtain ⟨h1, h2, h3⟩ := ih h
          refine ⟨fun e => ?_, fun e => ?_, h3⟩
          · obtain ⟨a, b⟩ := h1 e
            exact ⟨a, by rw [b, hp1, hn]; simp⟩
          · obtain ⟨l1, l2, e1, e2, e3, e4⟩ := h2 e
            refine ⟨rr :: l1, l2, by rw [e1]; rfl, by rw [e2]; simp; omega, ?_, fun e5 => ?_⟩
            · rw [e3, hp1]; simp [notSoa, hs]
            · rw [e3, hp1] at e5; simp at e5

theorem notSoa_append (a b : List RRset) : notSoa (a ++ b) = notSoa a ++ notSoa b := by simp [notSoa]

theorem putNodes_spec {pk : Pack} {ns rest : List (List RRset)} {cur cur' : Nat} {pkt pkt' : List RRset} {c : Code}
    (hc : ns = [] → cur = 0) (h : putNodes pk ns cur pkt = (pkt', rest, cur', c)) :
    (c = .ok → cur' = 0 ∧ pkt' = pkt ++ notSoa (restNodes ns cur)) ∧
    (c = .espace → rest ≠ [] ∧ ∃ M, pkt' = pkt ++ M ∧ notSoa (restNodes ns cur) = M ++ notSoa (restNodes rest cur') ∧
      (pkt' = [] → ∃ rr ∈ notSoa (restNodes ns cur), pk.fits [] rr = false)) ∧ c ≠ .failed := by
  induction ns generalizing cur pkt with
  | nil =>
    simp only [putNodes, Prod.mk.injEq] at h
    obtain ⟨rfl, rfl, rfl, rfl⟩ := h
    exact ⟨fun _ => ⟨hc rfl, by simp [restNodes, notSoa]⟩, fun e => by simp at e, by simp⟩
  | cons n ns ih =>
    unfold putNodes putRrsets at h
    split at h
    · rename_i p1 c1 he
      obtain ⟨a, b⟩ := (putFrom_spec he).1 rfl
      subst a
      obtain ⟨h1, h2, h3⟩ := ih (fun _ => rfl) h
      have hf : restNodes ns 0 = ns.flatten := by cases ns <;> simp [restNodes]
      rw [hf] at h1 h2
      refine ⟨fun e => ?_, fun e => ?_, h3⟩
      · obtain ⟨e1, e2⟩ := h1 e
        exact ⟨e1, by rw [e2, b, restNodes, notSoa_append]; simp⟩
      · obtain ⟨e0, M, e1, e2, e3⟩ := h2 e
        refine ⟨e0, notSoa (n.drop cur) ++ M, by rw [e1, b]; simp, by rw [restNodes, notSoa_append, e2]; simp, fun e5 => ?_⟩
        obtain ⟨rr, f1, f2⟩ := e3 e5
        exact ⟨rr, by rw [restNodes, notSoa_append]; exact List.mem_append_right _ f1, f2⟩
    · rename_i p1 c1 c2 hne he
      simp only [Prod.mk.injEq] at h
      obtain ⟨rfl, rfl, rfl, rfl⟩ := h
      obtain ⟨_, h2, h3⟩ := putFrom_spec he
      refine ⟨fun e => absurd e hne, fun e => ?_, h3⟩
      obtain ⟨l1, l2, e1, e2, e3, e4⟩ := h2 e
      refine ⟨by simp, notSoa l1, e3, ?_, fun e5 => ?_⟩
      · simp only [restNodes]
        rw [e2, ← List.drop_drop, e1, List.drop_left, ← notSoa_append, List.append_assoc]
      · obtain ⟨rr, f1, f2⟩ := e4 e5
        exact ⟨rr, by rw [restNodes, notSoa_append]; exact List.mem_append_left _ f1, f2⟩

def axfrLeft : List (List (List RRset)) → AxfrSt → List RRset
  | [], _ => []
  | t :: ts, s => notSoa (restNodes (s.it.getD t) s.cur) ++ notSoa (ts.flatten.flatten)

theorem axfr_puts (pk : Pack) :
    Puts pk (putTree pk) (fun _ s => (s.it = none → s.cur = 0) ∧ s.it ≠ some []) axfrLeft where
  nil _ := rfl
  ok t ts s pkt pkt' s' hp he := by
    unfold putTree at he
    split at he
    · rename_i p1 rest cur hn
      simp only [Prod.mk.injEq] at he
      obtain ⟨rfl, rfl, _⟩ := he
      have hc : s.it.getD t = [] → s.cur = 0 := by
        intro h
        cases hi : s.it with
        | none => exact hp.1 hi
        | some l => rw [hi] at h; simp only [Option.getD_some] at h; rw [h] at hi; exact absurd hi hp.2
      obtain ⟨h1, _⟩ := putNodes_spec hc hn
      obtain ⟨e1, e2⟩ := h1 rfl
      refine ⟨⟨fun _ => e1, by simp⟩, _, e2, ?_⟩
      cases ts with
      | nil => simp [axfrLeft, notSoa]
      | cons t2 ts =>
        have : restNodes t2 0 = t2.flatten := by cases t2 <;> simp [restNodes]
        simp [axfrLeft, e1, this, notSoa_append]
    · rename_i hc _
      simp only [Prod.mk.injEq] at he
      exact absurd he.2.2 hc
  espace t ts s pkt pkt' s' hp he := by
    unfold putTree at he
    split at he
    · simp at he
    · rename_i p1 rest cur c hcne hn
      simp only [Prod.mk.injEq] at he
      obtain ⟨rfl, rfl, rfl⟩ := he
      have hc : s.it.getD t = [] → s.cur = 0 := by
        intro h
        cases hi : s.it with
        | none => exact hp.1 hi
        | some l => rw [hi] at h; simp only [Option.getD_some] at h; rw [h] at hi; exact absurd hi hp.2
      obtain ⟨_, h2, _⟩ := putNodes_spec hc hn
      obtain ⟨e0, M, e1, e2, e3⟩ := h2 rfl
      refine ⟨⟨by simp, by simpa using e0⟩, M, e1, ?_, fun e => ?_⟩
      · simp [axfrLeft, e2]
      · obtain ⟨rr, f1, f2⟩ := e3 e
        exact ⟨rr, by simp only [axfrLeft]; exact List.mem_append_left _ f1, f2⟩

theorem putTree_not_failed (pk : Pack) (t : List (List RRset)) (s : AxfrSt) (pkt : List RRset)
    (hp : (s.it = none → s.cur = 0) ∧ s.it ≠ some []) : (putTree pk t s pkt).2.2 ≠ .failed := by
  unfold putTree
  split
  · simp
  · rename_i p1 rest cur c hcne hn
    have hc : s.it.getD t = [] → s.cur = 0 := by
      intro h
      cases hi : s.it with
      | none => exact hp.1 hi
      | some l => rw [hi] at h; simp only [Option.getD_some] at h; rw [h] at hi; exact absurd hi hp.2
    exact (putNodes_spec hc hn).2.2

theorem items_not_failed {I S : Type} {pk : Pack} {put : I → S → List RRset → List RRset × S × Code}
    {P : List I → S → Prop} {ρ : List I → S → List RRset} (h : Puts pk put P ρ)
    (hf : ∀ i is s pkt, P (i :: is) s → (put i s pkt).2.2 ≠ .failed) {is : List I} {s : S} {pkt : List RRset}
    (hp : P is s) : (items put is s pkt).2.2.2 ≠ .failed := by
  induction is generalizing s pkt with
  | nil => simp [items]
  | cons i is ih =>
    unfold items
    split
    · rename_i p1 s1 he
      exact ih (h.ok _ _ _ _ _ _ hp he).1
    · rename_i p1 s1 c hc he
      have := hf i is s pkt hp
      rw [he] at this
      exact this

theorem axfr_sends {pk : Pack} {soaRr : RRset} (hs : pk.fits [] soaRr = true) :
    Sends (axfrStep pk soaRr) (fun x => (x.st.it = none → x.st.cur = 0) ∧ x.st.it ≠ some [])
      (toSend soaRr axfrLeft) where
  more x m x' hp he := by
    unfold axfrStep at he
    split at he
    · rename_i m1 x1 hl
      simp only [Prod.mk.injEq, and_true] at he
      obtain ⟨rfl, rfl⟩ := he
      obtain ⟨a, b, e⟩ := (processList_spec (axfr_puts pk) hs hp hl).2.1 rfl
      exact ⟨a, e, b⟩
    · simp at he
    · simp at he
  last x m x' hp he := by
    unfold axfrStep at he
    split at he
    · simp at he
    · rename_i m1 x1 hl
      simp only [Prod.mk.injEq, and_true] at he
      obtain ⟨rfl, rfl⟩ := he
      exact ((processList_spec (axfr_puts pk) hs hp hl).1 rfl).2
    · simp at he

theorem axfrInit_left (t : Trees) (soaRr : RRset) :
    toSend soaRr axfrLeft (axfrInit t) = soaRr :: (notSoa t.contents ++ [soaRr]) := by
  have h0 : ∀ t : List (List RRset), restNodes t 0 = t.flatten := fun t => by cases t <;> simp [restNodes]
  unfold axfrInit toSend
  by_cases h : t.nsec3 = []
  · simp [h, axfrLeft, h0, Trees.contents, notSoa]
  · simp [h, axfrLeft, h0, Trees.contents, notSoa]

end Knot.Xfr
