import Verif.Xfr.Lemmas
/-! # Transfers: what the server sends for IXFR -/
namespace Knot.Xfr
open Knot.Dname (Name)
open Knot.Changeset

theorem pktPut_some {pk : Pack} {pkt p : List RRset} {rr : RRset} (h : pktPut pk pkt rr = some p) :
    p = pkt ++ [rr] ∧ pk.fits pkt rr = true := by
  unfold pktPut at h
  split at h
  · rename_i hf; exact ⟨by simpa using h.symm, hf⟩
  · simp at h

theorem pktPut_none {pk : Pack} {pkt : List RRset} {rr : RRset} (h : pktPut pk pkt rr = none) :
    pk.fits pkt rr = false := by
  unfold pktPut at h
  split at h
  · simp at h
  · rename_i hf; simpa using hf

theorem putChg_spec {serialOf : Bytes → Nat} {pk : Pack} (hb : pk.big [] = false) {s s' : IxfrSt}
    {l : List RRset} {inR : Bool} {sl : Nat} {pkt pkt' : List RRset} {c : Code}
    (h : putChg serialOf pk s l inR sl pkt = (pkt', s', c)) :
    s'.soaTo = s.soaTo ∧ s'.broken = s.broken ∧
    (c = .ok → pkt' = pkt ++ cut serialOf s.soaTo inR l ∧ s'.soaLast = lastSerial serialOf s.soaTo inR l sl) ∧
    (c = .espace → ∃ M, pkt' = pkt ++ M ∧
      cut serialOf s.soaTo inR l = M ++ (s'.cur.toList ++ cut serialOf s.soaTo s'.inRemove s'.stream) ∧
      lastSerial serialOf s.soaTo inR l sl = lastSerial serialOf s.soaTo s'.inRemove s'.stream s'.soaLast ∧
      (pkt' = [] → ∃ rr ∈ cut serialOf s.soaTo inR l, pk.fits [] rr = false)) ∧
    (c = .failed → s.broken = true) := by
  induction l generalizing inR sl pkt with
  | nil =>
    simp only [putChg, Prod.mk.injEq] at h
    obtain ⟨rfl, rfl, rfl⟩ := h
    refine ⟨rfl, rfl, fun _ => ⟨by simp [cut], rfl⟩, fun e => by split at e <;> simp at e, fun e => ?_⟩
    split at e
    · assumption
    · simp at e
  | cons rr t ih =>
    unfold putChg at h
    dsimp only at h
    by_cases hs : rr.1.type = soa
    · simp only [hs, decide_true, if_true, true_and] at h
      split at h
      · rename_i hc
        simp only [Prod.mk.injEq] at h
        obtain ⟨rfl, rfl, rfl⟩ := h
        have hi : inR = false := by simpa using hc.1
        refine ⟨rfl, rfl, fun _ => ⟨by simp [cut, hs, hi, hc.2], by simp [lastSerial, hs, hi, hc.2]⟩, fun e => by simp at e, fun e => by simp at e⟩
      · rename_i hc
        have hc' : ¬ (inR = false ∧ serial serialOf rr = s.soaTo) := by
          intro e; apply hc; simpa using e
        have hcut : cut serialOf s.soaTo inR (rr :: t) = rr :: cut serialOf s.soaTo (!inR) t := by
          simp only [cut, hs, if_true, if_neg hc']
        have hls : ∀ q, lastSerial serialOf s.soaTo inR (rr :: t) q =
            lastSerial serialOf s.soaTo (!inR) t (if inR then serial serialOf rr else q) := by
          intro q; simp only [lastSerial, hs, if_true, if_neg hc']
        have hq : (if ¬ (!inR) = true then serial serialOf rr else sl) = if inR then serial serialOf rr else sl := by
          cases inR <;> simp
        rw [hq] at h
        split at h
        · rename_i hbig
          simp only [Prod.mk.injEq] at h
          obtain ⟨rfl, rfl, rfl⟩ := h
          refine ⟨rfl, rfl, fun e => by simp at e, fun _ => ⟨[], by simp, by simp [hcut], hls sl, fun e => ?_⟩, fun e => by simp at e⟩
          rw [e] at hbig; simp [hb] at hbig
        · split at h
          · rename_i hp
            simp only [Prod.mk.injEq] at h
            obtain ⟨rfl, rfl, rfl⟩ := h
            refine ⟨rfl, rfl, fun e => by simp at e, fun _ => ⟨[], by simp, by simp [hcut], hls sl, fun e => ?_⟩, fun e => by simp at e⟩
            exact ⟨rr, by simp [hcut], by rw [e] at hp; exact pktPut_none hp⟩
          · rename_i p hp
            obtain ⟨hp1, _⟩ := pktPut_some hp
            obtain ⟨i1, i2, i3, i4, i5⟩ := ih h
            refine ⟨i1, i2, fun e => ?_, fun e => ?_, i5⟩
            · obtain ⟨a, b⟩ := i3 e
              exact ⟨by rw [a, hp1, hcut]; simp, by rw [b, hls]⟩
            · obtain ⟨M, a, b, e3, e4⟩ := i4 e
              refine ⟨rr :: M, by rw [a, hp1]; simp, by rw [hcut, b]; simp, by rw [hls, e3], fun e5 => ?_⟩
              rw [a, hp1] at e5; simp at e5
    · have hcut : cut serialOf s.soaTo inR (rr :: t) = rr :: cut serialOf s.soaTo inR t := by
        simp only [cut, if_neg hs]
      have hls : ∀ q, lastSerial serialOf s.soaTo inR (rr :: t) q = lastSerial serialOf s.soaTo inR t q := by
        intro q; simp only [lastSerial, if_neg hs]
      simp only [hs, decide_false, Bool.false_eq_true, if_false, false_and] at h
      split at h
      · rename_i hbig
        simp only [Prod.mk.injEq] at h
        obtain ⟨rfl, rfl, rfl⟩ := h
        refine ⟨rfl, rfl, fun e => by simp at e, fun _ => ⟨[], by simp, by simp [hcut], hls sl, fun e => ?_⟩, fun e => by simp at e⟩
        rw [e] at hbig; simp [hb] at hbig
      · split at h
        · rename_i hp
          simp only [Prod.mk.injEq] at h
          obtain ⟨rfl, rfl, rfl⟩ := h
          refine ⟨rfl, rfl, fun e => by simp at e, fun _ => ⟨[], by simp, by simp [hcut], hls sl, fun e => ?_⟩, fun e => by simp at e⟩
          exact ⟨rr, by simp [hcut], by rw [e] at hp; exact pktPut_none hp⟩
        · rename_i p hp
          obtain ⟨hp1, _⟩ := pktPut_some hp
          obtain ⟨i1, i2, i3, i4, i5⟩ := ih h
          refine ⟨i1, i2, fun e => ?_, fun e => ?_, i5⟩
          · obtain ⟨a, b⟩ := i3 e
            exact ⟨by rw [a, hp1, hcut]; simp, by rw [b, hls]⟩
          · obtain ⟨M, a, b, e3, e4⟩ := i4 e
            refine ⟨rr :: M, by rw [a, hp1]; simp, by rw [hcut, b]; simp, by rw [hls, e3], fun e5 => ?_⟩
            rw [a, hp1] at e5; simp at e5

def ixfrLeft (serialOf : Bytes → Nat) : List Unit → IxfrSt → List RRset
  | [], _ => []
  | _ :: _, s => s.cur.toList ++ cut serialOf s.soaTo s.inRemove s.stream

/-- Where the answer is going. -/
structure IxfrInv (serialOf : Bytes → Nat) (to last : Nat) (broken : Bool) (is : List Unit) (s : IxfrSt) : Prop where
  one : is = [()] ∨ is = []
  hto : s.soaTo = to
  hbroken : s.broken = broken
  hlast : last = if is = [] then s.soaLast else lastSerial serialOf to s.inRemove s.stream s.soaLast

theorem ixfr_puts (serialOf : Bytes → Nat) {pk : Pack} (hb : pk.big [] = false) (to last : Nat) (broken : Bool) :
    Puts pk (putJournal serialOf pk) (IxfrInv serialOf to last broken) (ixfrLeft serialOf) where
  nil _ := rfl
  ok i is s pkt pkt' s' hp he := by
    have his : is = [] := by rcases hp.one with e | e <;> simp at e; exact e
    subst his
    have hto := hp.hto
    have hl := hp.hlast
    simp only [List.cons_ne_nil, if_false] at hl
    unfold putJournal at he
    split at he
    · rename_i hc
      obtain ⟨h1, h2, h3, _⟩ := putChg_spec hb he
      obtain ⟨a, b⟩ := h3 rfl
      refine ⟨⟨.inr rfl, by rw [h1, hto], by rw [h2, hp.hbroken], by simp only [if_true]; rw [hl, b, hto]⟩, _, a, ?_⟩
      simp [ixfrLeft, hc]
    · rename_i rr hc
      split at he
      · simp at he
      · rename_i p hput
        obtain ⟨h1, h2, h3, _⟩ := putChg_spec hb he
        obtain ⟨a, b⟩ := h3 rfl
        refine ⟨⟨.inr rfl, by rw [h1, hto], by rw [h2, hp.hbroken], by simp only [if_true]; rw [hl, b, hto]⟩, rr :: cut serialOf s.soaTo s.inRemove s.stream, ?_, ?_⟩
        · rw [a, (pktPut_some hput).1]; simp
        · simp [ixfrLeft, hc]
  espace i is s pkt pkt' s' hp he := by
    have hto := hp.hto
    have hl := hp.hlast
    simp only [List.cons_ne_nil, if_false] at hl
    unfold putJournal at he
    split at he
    · rename_i hc
      obtain ⟨h1, h2, _, h4, _⟩ := putChg_spec hb he
      obtain ⟨M, a, b, e3, e4⟩ := h4 rfl
      refine ⟨⟨hp.one, by rw [h1, hto], by rw [h2, hp.hbroken], ?_⟩, M, a, ?_, fun e => ?_⟩
      · simp only [List.cons_ne_nil, if_false]; rw [hl, ← hto, e3]
      · simp only [ixfrLeft, hc, h1]; simpa using b
      · obtain ⟨rr, f1, f2⟩ := e4 e
        exact ⟨rr, by simp [ixfrLeft, hc, f1], f2⟩
    · rename_i rr hc
      split at he
      · rename_i hput
        simp only [Prod.mk.injEq, and_true] at he
        obtain ⟨rfl, rfl⟩ := he
        refine ⟨hp, [], by simp, by simp, fun e => ⟨rr, by simp [ixfrLeft, hc], ?_⟩⟩
        rw [e] at hput; exact pktPut_none hput
      · rename_i p hput
        obtain ⟨h1, h2, _, h4, _⟩ := putChg_spec hb he
        obtain ⟨M, a, b, e3, e4⟩ := h4 rfl
        dsimp only at h1 h2 b e3
        refine ⟨⟨hp.one, by rw [h1, hto], by rw [h2, hp.hbroken], ?_⟩, rr :: M, ?_, ?_, fun e => ?_⟩
        · simp only [List.cons_ne_nil, if_false]; rw [hl, ← hto, e3]
        · rw [a, (pktPut_some hput).1]; simp
        · simp only [ixfrLeft, hc, h1, Option.toList_some]; simp [b]
        · rw [a, (pktPut_some hput).1] at e; simp at e

theorem putJournal_not_failed (serialOf : Bytes → Nat) {pk : Pack} (hb : pk.big [] = false) (i : Unit) (s : IxfrSt)
    (pkt : List RRset) (h : s.broken = false) : (putJournal serialOf pk i s pkt).2.2 ≠ .failed := by
  unfold putJournal
  split
  · intro e
    have := (putChg_spec hb rfl).2.2.2.2 e
    rw [h] at this; simp at this
  · split
    · simp
    · intro e
      have := (putChg_spec hb rfl).2.2.2.2 e
      dsimp only at this
      rw [h] at this; simp at this

/-- The invariant of a whole answer. -/
def IxfrOk (serialOf : Bytes → Nat) (to last : Nat) (broken : Bool) (x : Proc Unit IxfrSt) : Prop :=
  IxfrInv serialOf to last broken x.nodes x.st

theorem ixfr_sends {serialOf : Bytes → Nat} {pk : Pack} (hb : pk.big [] = false) {soaRr : RRset} (hs : pk.fits [] soaRr = true)
    (to last : Nat) (broken : Bool) :
    Sends (ixfrStep serialOf pk soaRr) (IxfrOk serialOf to last broken) (toSend soaRr (ixfrLeft serialOf)) where
  more x m x' hp he := by
    unfold ixfrStep at he
    split at he
    · rename_i m1 x1 hl
      simp only [Prod.mk.injEq, and_true] at he
      obtain ⟨rfl, rfl⟩ := he
      obtain ⟨a, b, e⟩ := (processList_spec (ixfr_puts serialOf hb to last broken) hs hp hl).2.1 rfl
      exact ⟨a, e, b⟩
    · split at he <;> simp at he
    · simp at he
  last x m x' hp he := by
    unfold ixfrStep at he
    split at he
    · simp at he
    · rename_i m1 x1 hl
      split at he
      · simp at he
      simp only [Prod.mk.injEq, and_true] at he
      obtain ⟨rfl, rfl⟩ := he
      exact ((processList_spec (ixfr_puts serialOf hb to last broken) hs hp hl).1 rfl).2
    · simp at he

theorem Sends.ends_at {X : Type} {step : X → List RRset × X × St} {P : X → Prop} {R : X → List RRset}
    (h : Sends step P R) {n : Nat} {x : X} {ms : List (List RRset)} (hp : P x)
    (ha : Xfr.answer step n x = (ms, .done)) : ∃ y, P y ∧ (step y).2.2 = .done := by
  induction n generalizing x ms with
  | zero => simp [Xfr.answer] at ha
  | succ n ih =>
    unfold Xfr.answer at ha
    split at ha
    · rename_i m x' he
      simp only [Prod.mk.injEq] at ha
      exact ih (ms := (Xfr.answer step n x').1) (h.more _ _ _ hp he).1 (Prod.ext rfl ha.2)
    · rename_i m x' he
      exact ⟨x, hp, by rw [he]⟩
    · rename_i st hp' hd he
      simp only [Prod.mk.injEq] at ha
      exact absurd ha.2 hd

theorem ixfrStep_done {serialOf : Bytes → Nat} {pk : Pack} (hb : pk.big [] = false) {soaRr : RRset}
    (hs : pk.fits [] soaRr = true) {to last : Nat} {broken : Bool} {x : Proc Unit IxfrSt}
    (hp : IxfrOk serialOf to last broken x) (h : (ixfrStep serialOf pk soaRr x).2.2 = .done) : last = to := by
  unfold ixfrStep at h
  split at h
  · simp at h
  · rename_i m1 x1 hl
    have hx := (processList_spec (ixfr_puts serialOf hb to last broken) hs hp hl).1 rfl
    split at h
    · simp at h
    · rename_i hne
      have hi := hx.1
      have hn : x1.nodes = [] := by
        unfold processList at hl
        have aux : ∀ pkt, processRest pk (putJournal serialOf pk) soaRr x pkt = (m1, x1, .ok) → x1.nodes = [] := by
          intro pkt h
          unfold processRest at h
          split at h
          · rename_i p1 is s hi
            have := ((ixfr_puts serialOf hb to last broken).items hp hi).1 rfl
            split at h
            · simp only [Prod.mk.injEq] at h; rw [← h.2.1]; exact this.1
            · simp only [Prod.mk.injEq] at h; rw [← h.2.1]; exact this.1
          · simp only [Prod.mk.injEq] at h
            have := h.2.2; split at this <;> simp at this
          · simp at h
        split at hl
        · split at hl
          · simp at hl
          · exact aux _ hl
        · exact aux _ hl
      have := hi.hlast
      rw [hn] at this
      simp only [if_true] at this
      rw [this, ← hi.hto]
      simpa using hne
  · simp at h

theorem axfrStep_goes {pk : Pack} {soaRr : RRset} (hs : pk.fits [] soaRr = true) {x : Proc (List (List RRset)) AxfrSt}
    (hp : (x.st.it = none → x.st.cur = 0) ∧ x.st.it ≠ some [])
    (hf : ∀ rr ∈ toSend soaRr axfrLeft x, pk.fits [] rr = true) :
    (axfrStep pk soaRr x).2.2 = .produce ∨ (axfrStep pk soaRr x).2.2 = .done := by
  unfold axfrStep
  split
  · exact .inl rfl
  · exact .inr rfl
  · rename_i m1 x1 hl
    rcases (processList_spec (axfr_puts pk) hs hp hl).2.2 rfl with ⟨rr, f1, f2⟩ | ⟨pkt, f⟩
    · rw [hf rr f1] at f2; simp at f2
    · exact absurd f (items_not_failed (axfr_puts pk) (fun i is s pkt h => putTree_not_failed pk i s pkt h) hp)

theorem ixfrStep_goes {serialOf : Bytes → Nat} {pk : Pack} (hb : pk.big [] = false) {soaRr : RRset} (hs : pk.fits [] soaRr = true)
    {to : Nat} {x : Proc Unit IxfrSt} (hp : IxfrOk serialOf to to false x)
    (hf : ∀ rr ∈ toSend soaRr (ixfrLeft serialOf) x, pk.fits [] rr = true) :
    (ixfrStep serialOf pk soaRr x).2.2 = .produce ∨ (ixfrStep serialOf pk soaRr x).2.2 = .done := by
  unfold ixfrStep
  split
  · exact .inl rfl
  · rename_i m1 x1 hl
    split
    · rename_i hne
      exfalso
      apply hne
      have hx := (processList_spec (ixfr_puts serialOf hb to to false) hs hp hl).1 rfl
      have hi := hx.1
      have hn : x1.nodes = [] := by
        unfold processList at hl
        have aux : ∀ pkt, processRest pk (putJournal serialOf pk) soaRr x pkt = (m1, x1, .ok) → x1.nodes = [] := by
          intro pkt h
          unfold processRest at h
          split at h
          · rename_i p1 is s hi
            have := ((ixfr_puts serialOf hb to to false).items hp hi).1 rfl
            split at h
            · simp only [Prod.mk.injEq] at h; rw [← h.2.1]; exact this.1
            · simp only [Prod.mk.injEq] at h; rw [← h.2.1]; exact this.1
          · simp only [Prod.mk.injEq] at h
            have := h.2.2; split at this <;> simp at this
          · simp at h
        split at hl
        · split at hl
          · simp at hl
          · exact aux _ hl
        · exact aux _ hl
      have := hi.hlast
      rw [hn] at this
      simp only [if_true] at this
      rw [← this, hi.hto]
    · exact .inr rfl
  · rename_i m1 x1 hl
    rcases (processList_spec (ixfr_puts serialOf hb to to false) hs hp hl).2.2 rfl with ⟨rr, f1, f2⟩ | ⟨pkt, f⟩
    · rw [hf rr f1] at f2; simp at f2
    · exact absurd f (items_not_failed (ixfr_puts serialOf hb to to false)
        (fun i is s pkt h => putJournal_not_failed serialOf hb i s pkt h.hbroken) hp)

end Knot.Xfr
