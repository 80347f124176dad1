import Verif.Journal.Lemmas4
/-!
# C13: the journal keeps a contiguous, replayable history
-/
namespace Knot
open Journal

namespace Journal

variable {Z D : Type}

theorem serialsOk_ok (ch : Ch D) (h1 : ch.from_ < 4294967296) (h2 : ch.to < 4294967296) :
    ∃ b, serialsOk ch = .ok b ∧ (b = true ↔ SerialLt ch.from_ ch.to) := by
  obtain ⟨c, hc⟩ := C08_compare_total ch.from_ ch.to
  have hs := (C08_compare_rfc1982 ch.from_ ch.to h1 h2).2.1
  refine ⟨decide (c = .lower), by unfold serialsOk; rw [hc]; rfl, ?_⟩
  rw [decide_eq_true_eq, ← hs, hc]
  exact ⟨fun e => by rw [e], fun e => by cases e; rfl⟩

/-- All that journal_insert() may do. -/
theorem insert_ends {cfg : Cfg Z D} (hl : Laws cfg) {w : World Z D} (hi : Inv cfg w) {ch : Ch D}
    (hf : ch.from_ = w.cur.1) (hsm : ch.to < 4294967296)
    (hal : cfg.flush = false → w.db.zij = none → ch.to ≠ w.file.1) (occupied need : Nat)
    (hneed : needFree cfg occupied (cfg.dlen ch.body) = need) :
    (∃ r, insert cfg occupied w.db ch = .ok r ∧
      (Ends cfg need w ch (∃ p1 m, Work cfg w.db w.file w.cur p1 [] m) r ∨
        (r = (w.db, some .esemcheck) ∧ ¬ SerialLt ch.from_ ch.to))) ∨
    (insert cfg occupied w.db ch = .ub ∧ cfg.flush = true ∧ w.db.zij.isSome) := by
  unfold insert
  by_cases hu : cfg.dlen ch.body ≥ cfg.maxUsage
  · rw [if_pos hu]
    exact .inl ⟨_, rfl, .inl ⟨rfl, .inl hu⟩⟩
  · rw [if_neg hu]
    obtain ⟨b, hb, hbi⟩ := serialsOk_ok ch (by rw [hf]; exact hi.1) hsm
    rw [hb, Res.bind_ok]
    by_cases hbt : b = true
    · rw [if_neg (by simp [hbt])]
      rcases insertTxn_ends hl hi hf hsm (hbi.mp hbt) hal occupied need hneed with ⟨t, t1, t2⟩ | ⟨t1, t2, t3⟩
      · rw [t1]
        exact .inl ⟨_, rfl, .inl t2⟩
      · rw [t1]
        exact .inr ⟨rfl, t2, t3⟩
    · rw [if_pos hbt]
      exact .inl ⟨_, rfl, .inr ⟨rfl, fun e => hbt (hbi.mpr e)⟩⟩

theorem step_change (cfg : Cfg Z D) (w : World Z D) (occupied to : Nat) (body : D) {r : Db Z D × Option Err}
    (h : insert cfg occupied w.db ⟨w.cur.1, to, body⟩ = .ok r) : step cfg w (.change occupied to body) =
      .ok { w with db := r.1, cur := if r.2 = none then (to, cfg.act body w.cur.2) else w.cur } := by
  simp only [step, h, Res.bind_ok]

theorem step_change_ub (cfg : Cfg Z D) (w : World Z D) (occupied to : Nat) (body : D)
    (h : insert cfg occupied w.db ⟨w.cur.1, to, body⟩ = .ub) : step cfg w (.change occupied to body) = .ub := by
  simp only [step, h, Res.bind_ub]

theorem work_written {cfg : Cfg Z D} {db : Db Z D} {file cur : Nat × Z} {p1 p2 : Ents D} {m : Option (Entry D)}
    (h : Work cfg db file cur p1 p2 m) (ha : cfg.flush = true ∨ db.zij.isSome) :
    Work cfg db cur cur p1 p2 m := by
  refine { h with tail := ?_ }
  have ht := h.tail
  unfold Tail at ht ⊢
  cases hz : db.zij with
  | some z =>
    rw [hz] at ht
    cases hm : m with
    | some x => rw [hm] at ht; exact ht.elim
    | none => rw [hm] at ht; exact ht
  | none =>
    rw [hz] at ht
    have hf : cfg.flush = true := by
      rcases ha with q | q
      · exact q
      · rw [hz] at q; cases q
    cases hm : m with
    | some x =>
      rw [hm] at ht
      exact absurd (hf.symm.trans ht.1) (by decide)
    | none =>
      have hu : upto db = db.md.flushed := by simp [upto, hz]
      refine ⟨p2, [], by simp, ?_, ?_, rfl, fun q => absurd (hf.symm.trans q) (by decide)⟩
      · rw [h.last, ← hu]; exact h.link2
      · exact h.last

theorem work_flushed {cfg : Cfg Z D} {db : Db Z D} {file cur : Nat × Z} {p1 p2 : Ents D} {m : Option (Entry D)}
    (h : Work cfg db file cur p1 p2 m) (ha : cfg.flush = true ∨ db.zij.isSome) :
    ∃ p1' p2', Work cfg (setFlushed db) cur cur p1' p2' m ∧ p1' ++ p2' = p1 ++ p2 ∧
      (db.zij = none → p2' = []) ∧ (db.zij ≠ none → p2' = p2) := by
  cases hz : db.zij with
  | some z =>
    have hu : upto (setFlushed db) = upto db := by simp [upto, hz, setFlushed]
    refine ⟨p1, p2, ?_, rfl, by simp, by simp⟩
    refine ⟨by rw [hu]; exact h.link1, by rw [hu]; exact h.link2, h.nodup, h.small, h.count, h.mv, h.apart,
      h.stores, h.size, h.valid, h.last, ?_⟩
    have ht := h.tail
    unfold Tail at ht ⊢
    have hz' : (setFlushed db).zij = some z := hz
    rw [hz'] ; rw [hz] at ht
    cases hm : m with
    | some x => rw [hm] at ht; exact ht.elim
    | none =>
      rw [hm] at ht
      refine ⟨ht.1, fun _ _ => ⟨p2, [], by simp, ?_, rfl⟩⟩
      have := h.link2
      simp only [upto, hz] at this
      exact this
  | none =>
    have hu : upto (setFlushed db) = db.md.serialTo := by simp [upto, hz, setFlushed]
    have hf : cfg.flush = true := by
      rcases ha with q | q
      · exact q
      · rw [hz] at q; cases q
    have ht := h.tail
    have hm : m = none := by
      unfold Tail at ht
      rw [hz] at ht
      cases hm : m with
      | none => rfl
      | some x => rw [hm] at ht; exact absurd (hf.symm.trans ht.1) (by decide)
    refine ⟨p1 ++ p2, [], ?_, by simp, by simp, by simp⟩
    refine ⟨by rw [hu]; exact h.link, by rw [hu]; rfl, by simpa [setFlushed] using h.nodup,
      by simpa [setFlushed] using h.small, by simpa [setFlushed] using h.count, h.mv,
      by simpa [setFlushed] using h.apart, ?_, by simpa using h.size, by simpa [setFlushed] using h.valid, h.last, ?_⟩
    · have := h.stores
      simp only [setFlushed, List.nil_append]
      rw [List.append_assoc]
      exact this
    · have hz' : (setFlushed db).zij = none := hz
      unfold Tail
      rw [hz', hm]
      exact ⟨[], [], rfl, h.last.symm, h.last, rfl, fun _ => rfl⟩

theorem inv_step {cfg : Cfg Z D} (hl : Laws cfg) {w w' : World Z D} {op : Op Z D} (hi : Inv cfg w)
    (ha : Allowed cfg w op) (hs : step cfg w op = .ok w') : Inv cfg w' := by
  cases op with
  | change occupied to body =>
    rcases insert_ends hl hi (ch := ⟨w.cur.1, to, body⟩) rfl ha.1 ha.2 occupied _ rfl with ⟨r, r1, r2⟩ | ⟨r1, _⟩
    · rw [step_change _ _ _ _ _ r1] at hs
      obtain ⟨db, c⟩ := r
      cases hs
      rcases r2 with r2 | ⟨r2, _⟩
      · cases c with
        | none => exact r2.1
        | some e =>
          cases e with
          | espace => rw [show db = w.db from r2.1]; exact hi
          | ebusy => exact r2.2.1
          | _ => exact r2.elim
      · cases r2
        exact hi
    · rw [step_change_ub _ _ _ _ _ r1] at hs; cases hs
  | whole serial z =>
    simp only [step, insertZone] at hs
    cases hs
    by_cases hu : cfg.zlen z ≥ cfg.maxUsage
    · simp only [if_pos hu]
      exact hi
    · simp only [if_neg hu, if_true]
      refine ⟨ha, .inr ⟨[], [], none, ⟨rfl, rfl, by simp [nodes], ?_, rfl, rfl, by simp, ?_, by simp, by simp, rfl, ?_⟩, rfl, by simp⟩⟩
      · intro s hs
        simp [nodes] at hs
        rw [hs]; exact ha
      · exact ⟨by simp [mlist], fun k => rfl⟩
      · exact ⟨rfl, fun _ q => by simp at q⟩
  | written =>
    cases hs
    refine ⟨hi.1, ?_⟩
    rcases hi.2 with ⟨h1, h2⟩ | ⟨p1, p2, m, h, hv, hz⟩
    · exact .inl ⟨h1, rfl⟩
    · exact .inr ⟨p1, p2, m, work_written h ha, hv, hz⟩
  | flush =>
    cases hs
    refine ⟨hi.1, ?_⟩
    rcases hi.2 with ⟨h1, h2⟩ | ⟨p1, p2, m, h, hv, hz⟩
    · left
      rw [h1]
      exact ⟨rfl, rfl⟩
    · right
      simp only [hv, if_true]
      obtain ⟨p1', p2', h', he, _, _⟩ := work_flushed h ha
      exact ⟨p1', p2', m, h', hv, fun q => by rw [he]; exact hz q⟩

theorem reach_inv {cfg : Cfg Z D} (hl : Laws cfg) {w : World Z D} (h : Reach cfg w) : Inv cfg w := by
  induction h with
  | init s z hs => exact ⟨hs, .inl ⟨rfl, rfl⟩⟩
  | step _ ha hs ih => exact inv_step hl ih ha hs

deriving instance DecidableEq for Except

/-- A small configuration for examples: zones and changesets are lists of numbers. -/
def demo (flush : Bool) (maxDepth : Nat) : Cfg (List Nat) (List Nat) where
  flush := flush
  maxUsage := 1000
  maxDepth := maxDepth
  act := fun d z => z ++ d
  comp := fun a b => a ++ b
  zsize := fun z => z.length + 10
  dsize := fun d => d.length + 10
  dlen := fun d => d.length + 1
  zlen := fun z => z.length + 1

theorem demo_laws (flush : Bool) (n : Nat) (h : 2 ≤ n) : Laws (demo flush n) where
  comp := fun a b z => by simp [demo, List.append_assoc]
  size := fun d => by simp [demo]
  depth := h

/-- Whether all events are allowed and possible: a reachable world results. -/
theorem reach_run {cfg : Cfg Z D} : ∀ (ops : List (Op Z D)) (w w' : World Z D), Reach cfg w →
    (∀ pre op post, ops = pre ++ op :: post → ∀ v, run cfg w pre = .ok v → Allowed cfg v op) →
    run cfg w ops = .ok w' → Reach cfg w'
  | [], w, w', h, _, hr => by cases hr; exact h
  | op :: ops, w, w', h, ha, hr => by
    simp only [run] at hr
    cases hs : step cfg w op with
    | err e => rw [hs] at hr; cases hr
    | ub => rw [hs] at hr; cases hr
    | ok v =>
      rw [hs, Res.bind_ok] at hr
      refine reach_run ops v w' (Reach.step h (ha [] op ops rfl w rfl) hs) ?_ hr
      intro pre op' post he u hu
      refine ha (op :: pre) op' post (by rw [he]; rfl) u ?_
      simp only [run, hs, Res.bind_ok]
      exact hu

end Journal

variable {Z D : Type}

/-- Whatever changes were stored, zones stored, zone files written and the journal told of it or not, and
with whatever limits: loading the zone from the disk gives the zone the server had. No change that is in
neither the zone file nor the zone or merged changeset of the journal is ever discarded.

Missing: the events `Allowed` excludes, for which it is false (`C13_merged_cycle`, `C13_forced_flush`,
`C13_merged_deleted`, `C13_gap`), and changesets stored together with an extra one. -/
theorem C13_restore_partial {cfg : Cfg Z D} (hl : Laws cfg) {w : World Z D} (h : Reach cfg w) :
    Restorable cfg w := by
  obtain ⟨_, hi⟩ := reach_inv hl h
  unfold Restorable
  rcases hi with ⟨h1, h2⟩ | ⟨p1, p2, m, h, hv, _⟩
  · rw [h1]
    simp only [Option.isSome_none, Bool.false_eq_true, if_false]
    unfold loadFile readSerial
    simp [h2]
  · have ht := h.tail
    unfold Tail at ht
    cases hz : w.db.zij with
    | some z =>
      rw [hz] at ht
      simp only [Option.isSome_some, if_true]
      unfold loadZone
      rw [h.read_zone hv hz]
      cases hm : m with
      | some x => rw [hm] at ht; exact ht.elim
      | none => rw [hm] at ht; exact congrArg _ ht.1
    | none =>
      rw [hz] at ht
      simp only [Option.isSome_none, Bool.false_eq_true, if_false]
      unfold loadFile
      cases hm : m with
      | some x =>
        rw [hm] at ht h
        simp only at ht
        rw [ht.2.1, h.read_merged hv hz]
        exact congrArg _ ht.2.2.2
      | none =>
        rw [hm] at ht
        obtain ⟨q1, q2, g1, g2, g3, g4, _⟩ := ht
        have hu : upto w.db = w.db.md.flushed := by simp [upto, hz]
        have hlk := h.link1
        rw [hu] at hlk
        rw [h.read_serial hv (l1 := p1 ++ q1) (l2 := q2) (by rw [g1, List.append_assoc])
          (linked_append.mpr ⟨_, hlk, g2⟩) g3]
        by_cases q : q2 = []
        · rw [if_pos q]
          rw [q] at g4
          exact congrArg _ g4
        · rw [if_neg q]
          exact congrArg _ g4

/-- And walking the journal gives a chain without gaps. -/
theorem C13_walk_partial {cfg : Cfg Z D} (hl : Laws cfg) {w : World Z D} (h : Reach cfg w) : Contiguous w := by
  obtain ⟨_, hi⟩ := reach_inv hl h
  unfold Contiguous
  rcases hi with ⟨h1, h2⟩ | ⟨p1, p2, m, h, hv, hne⟩
  · refine ⟨none, [], w.cur.1, by rw [h1]; rfl, rfl, [], [], w.cur.1, rfl, rfl, rfl, by rw [h2]⟩
  · have hrs := h.read_serial hv (l1 := []) (l2 := p1 ++ p2) rfl rfl h.link
    have ht := h.tail
    unfold Tail at ht
    unfold walk
    simp only [hv, not_true_eq_false, if_false]
    cases hz : w.db.zij with
    | some z =>
      rw [hz] at ht
      have hu : upto w.db = z.to := by simp [upto, hz]
      refine ⟨some (.inl z), p1 ++ p2, w.db.md.first, ?_, by rw [h.last]; exact h.link, p1, p2, z.to, rfl,
        by rw [← hu]; exact h.link1, by rw [← hu, h.last]; exact h.link2, rfl⟩
      simp only [hrs]
      by_cases q : p1 ++ p2 = []
      · simp [q]
      · simp [q]
    | none =>
      rw [hz] at ht
      have hu : upto w.db = w.db.md.flushed := by simp [upto, hz]
      have hne' := hne hz
      rw [if_neg hne'] at hrs
      cases hm : m with
      | some x =>
        rw [hm] at ht h
        simp only at ht
        have hmv : w.db.md.mergedValid = true := h.mv
        have hx : x.to = w.db.md.flushed := ht.2.2.1.symm
        have hxne : x.to ≠ w.db.md.merged := by
          intro q
          refine h.apart rfl ?_
          rw [← q, hx, ← hu, nodes_append h.link1]
          refine List.mem_append_right _ ?_
          simp [nodes]
        refine ⟨some (.inr x), p1 ++ p2, w.db.md.first, ?_, by rw [h.last]; exact h.link, p1, p2, x.to, rfl,
          by rw [hx, ← hu]; exact h.link1, by rw [hx, ← hu, h.last]; exact h.link2, rfl⟩
        simp only [hmv, if_true, h.get_merged, if_neg hxne, hrs]
      | none =>
        rw [hm] at ht h
        obtain ⟨q1, q2, g1, g2, g3, _, _⟩ := ht
        have hmv : w.db.md.mergedValid = false := h.mv
        refine ⟨none, p1 ++ p2, w.db.md.first, ?_, by rw [h.last]; exact h.link, p1 ++ q1, q2, w.file.1,
          by rw [g1, List.append_assoc], ?_, by rw [h.last]; exact g3, rfl⟩
        · simp [hmv, hrs]
        · have := h.link1
          rw [hu] at this
          exact linked_append.mpr ⟨_, this, g2⟩

/-- Storing a change fails only as it should, never trips an assertion when the journal has no whole zone
or the zone file is not written (see `C13_flush_assert`), and keeps the number of changesets within the
limit:
* if the serial does not rise, the journal stays as it is;
* lack of space is only reported when there is a lack of space, and nothing changes;
* EBUSY is only returned if the zone file may be written, and the journal still has everything. -/
theorem C13_insert {cfg : Cfg Z D} (hl : Laws cfg) {w : World Z D} (h : Reach cfg w)
    (occupied to : Nat) (body : D) (ha : Allowed cfg w (.change occupied to body))
    (hz : cfg.flush = false ∨ w.db.zij = none) :
    ∃ db c, insert cfg occupied w.db ⟨w.cur.1, to, body⟩ = .ok (db, c) ∧
      ((c = none ∧ SerialLt w.cur.1 to ∧ db.md.count ≤ cfg.maxDepth ∧ db.md.serialTo = to) ∨
       (c = some .esemcheck ∧ ¬ SerialLt w.cur.1 to ∧ db = w.db) ∨
       (c = some .espace ∧ db = w.db ∧
          (cfg.maxUsage ≤ cfg.dlen body ∨ 0 < needFree cfg occupied (cfg.dlen body))) ∨
       (c = some .ebusy ∧ cfg.flush = true ∧ Restorable cfg ⟨db, w.file, w.cur⟩)) := by
  have hi := reach_inv hl h
  rcases insert_ends hl hi (ch := ⟨w.cur.1, to, body⟩) rfl ha.1 ha.2 occupied _ rfl with ⟨r, r1, r2⟩ | ⟨r1, r2, r3⟩
  · obtain ⟨db, c⟩ := r
    refine ⟨db, c, r1, ?_⟩
    rcases r2 with r2 | ⟨r2, r3⟩
    · cases c with
      | none =>
        left
        obtain ⟨i1, i2, i3, i4⟩ := r2
        refine ⟨rfl, ?_, i2, ?_⟩
        · -- otherwise the code would be ESEMCHECK
          obtain ⟨b, b1, b2⟩ := serialsOk_ok (⟨w.cur.1, to, body⟩ : Ch D) hi.1 ha.1
          apply b2.mp
          unfold Journal.insert at r1
          by_cases hu : cfg.dlen body ≥ cfg.maxUsage
          · rw [if_pos hu] at r1; cases r1
          · rw [if_neg hu, b1, Res.bind_ok] at r1
            cases hb : b with
            | true => rfl
            | false => rw [hb] at r1; simp at r1
        · rcases i1.2 with ⟨q, _⟩ | ⟨_, _, _, q, _⟩
          · rw [show db = {} from q] at i3; cases i3
          · exact q.last.symm
      | some e =>
        cases e with
        | espace => exact .inr (.inr (.inl ⟨rfl, r2.1, r2.2⟩))
        | ebusy =>
          obtain ⟨f1, f2, _⟩ := r2
          refine .inr (.inr (.inr ⟨rfl, f1, ?_⟩))
          have hw : step cfg w (.change occupied to body) = .ok ⟨db, w.file, w.cur⟩ := by
            rw [step_change _ _ _ _ _ r1]; simp
          exact C13_restore_partial hl (Reach.step h ha hw)
        | _ => exact r2.elim
    · cases r2
      exact .inr (.inl ⟨rfl, r3, rfl⟩)
  · rcases hz with q | q
    · rw [r2] at q; cases q
    · rw [q] at r3; cases r3

/-- After EBUSY and writing the zone file, the same or any other change is not refused with EBUSY again. -/
theorem C13_retry {cfg : Cfg Z D} (hl : Laws cfg) {w w' w'' : World Z D} (h : Reach cfg w)
    {occupied to : Nat} {body : D} (ha : Allowed cfg w (.change occupied to body))
    {db : Db Z D} (hb : insert cfg occupied w.db ⟨w.cur.1, to, body⟩ = .ok (db, some .ebusy))
    (hs : step cfg w (.change occupied to body) = .ok w') (hf : step cfg w' .flush = .ok w'')
    {occupied' to' : Nat} {body' : D} (hto : to' < 4294967296) :
    ∀ d, insert cfg occupied' w''.db ⟨w''.cur.1, to', body'⟩ ≠ .ok (d, some .ebusy) := by
  intro d hd
  have hi := reach_inv hl h
  rcases insert_ends hl hi (ch := ⟨w.cur.1, to, body⟩) rfl ha.1 ha.2 occupied _ rfl with ⟨r, r1, r2⟩ | ⟨r1, _⟩
  · rw [hb] at r1
    cases r1
    rcases r2 with r2 | ⟨r2, _⟩
    · obtain ⟨f1, f2, f3, f4, ⟨p1, p2, f5, f6⟩, f7⟩ := r2
      rw [step_change _ _ _ _ _ hb] at hs
      cases hs
      cases hf
      simp only [f4, if_true] at hd
      obtain ⟨p1', p2', g1, g2, g3, g4⟩ := work_flushed f5 (.inl f1)
      have hp : p2' = [] := by
        cases hz : db.zij with
        | none => exact g3 hz
        | some z => rw [g4 (by rw [hz]; simp)]; exact f6 (by rw [hz]; rfl)
      subst hp
      have hw : Inv cfg ⟨setFlushed db, w.cur, w.cur⟩ := by
        refine ⟨hi.1, .inr ⟨p1', [], none, g1, f4, ?_⟩⟩
        intro q
        rcases f2.2 with ⟨e, _⟩ | ⟨a, b, c, e, _, e'⟩
        · rw [show db = {} from e] at f4; cases f4
        · have hc := e.count
          have hc' := g1.count
          have hpos := List.length_pos_iff.mpr (e' q)
          have : (setFlushed db).md.count = db.md.count := rfl
          intro hnil
          rw [hnil] at hc'
          simp only at hc
          simp only [List.length_nil] at hc'
          omega
      rcases insert_ends hl hw (ch := ⟨w.cur.1, to', body'⟩) rfl hto
        (fun q => absurd (f1.symm.trans q) (by decide)) occupied' _ rfl with ⟨r, r1, r2⟩ | ⟨r1, _⟩
      · simp only at r1
        simp only [if_neg (show ¬ (some Err.ebusy = none) by simp)] at hd
        rw [hd] at r1
        cases r1
        rcases r2 with r2 | ⟨r2, _⟩
        · exact r2.2.2.2.2.2 ⟨p1', none, g1⟩
        · cases r2
      · simp only [if_neg (show ¬ (some Err.ebusy = none) by simp)] at hd
        rw [hd] at r1; cases r1
    · cases r2
  · rw [hb] at r1; cases r1

/-! ## The hypotheses are met -/

/-- A small world to start from. -/
def Journal.demo0 : World (List Nat) (List Nat) := ⟨{}, (1, [0]), (1, [0])⟩

/-- The world after six changes with at most three changesets: three of them have been merged. -/
def Journal.demo6 : World (List Nat) (List Nat) where
  db := { md := { first := 4, serialTo := 7, flushed := 4, merged := 1, count := 3, serialToValid := true, mergedValid := true }
          chs := [(6, ⟨7, 11, [7]⟩), (5, ⟨6, 11, [6]⟩), (4, ⟨5, 11, [5]⟩), (1, ⟨4, 13, [2, 3, 4]⟩)] }
  file := (1, [0])
  cur := (7, [0, 2, 3, 4, 5, 6, 7])

/-- Changes to serials above one are always allowed in the demonstration. -/
theorem Journal.demo_allowed {flush : Bool} {n : Nat} (l : List (Nat × List Nat)) (h : ∀ p ∈ l, 1 < p.1 ∧ p.1 < 4294967296) :
    ∀ w w', Reach (demo flush n) w → w.file.1 = 1 →
      run (demo flush n) w (l.map (fun p => .change 0 p.1 p.2)) = .ok w' → Reach (demo flush n) w' := by
  induction l with
  | nil => intro w w' hr _ h; cases h; exact hr
  | cons p l ih =>
    intro w w' hr hw hrun
    simp only [List.map_cons, run] at hrun
    cases hs : step (demo flush n) w (.change 0 p.1 p.2) with
    | err e => rw [hs] at hrun; cases hrun
    | ub => rw [hs] at hrun; cases hrun
    | ok v =>
      rw [hs, Res.bind_ok] at hrun
      have hp := h p List.mem_cons_self
      refine ih (fun q hq => h q (List.mem_cons_of_mem _ hq)) v w'
        (Reach.step (op := .change 0 p.1 p.2) hr ⟨hp.2, fun _ _ => by rw [hw]; omega⟩ hs) ?_ hrun
      cases hi : insert (demo flush n) 0 w.db ⟨w.cur.1, p.1, p.2⟩ with
      | err e => simp only [step, hi, Res.bind_err] at hs; cases hs
      | ub => simp only [step, hi, Res.bind_ub] at hs; cases hs
      | ok r => rw [step_change _ _ _ _ _ hi] at hs; cases hs; exact hw

theorem Journal.demo6_reach : Reach (demo false 3) demo6 := by
  refine demo_allowed [(2, [2]), (3, [3]), (4, [4]), (5, [5]), (6, [6]), (7, [7])] (by decide) demo0 demo6
    (Reach.init 1 [0] (by decide)) rfl ?_
  decide +kernel

example : Restorable (demo false 3) demo6 := C13_restore_partial (demo_laws false 3 (by decide)) demo6_reach
example : Contiguous demo6 := C13_walk_partial (demo_laws false 3 (by decide)) demo6_reach
example : Allowed (demo false 3) demo6 (.change 0 8 [8]) := ⟨by decide, fun _ _ => by decide⟩

/-- With writing allowed, the third change is refused until the zone file is written. -/
example : ∃ w db, run (demo true 2) demo0 [.change 0 2 [2], .change 0 3 [3]] = .ok w ∧
    insert (demo true 2) 0 w.db ⟨w.cur.1, 4, [4]⟩ = .ok (db, some .ebusy) ∧
    ∃ db', insert (demo true 2) 0 (setFlushed db) ⟨w.cur.1, 4, [4]⟩ = .ok (db', none) := by
  refine ⟨⟨{ md := { first := 1, serialTo := 3, flushed := 1, count := 2, serialToValid := true },
             chs := [(2, ⟨3, 11, [3]⟩), (1, ⟨2, 11, [2]⟩)] }, (1, [0]), (3, [0, 2, 3])⟩,
    { md := { first := 1, serialTo := 3, flushed := 1, count := 2, serialToValid := true },
      chs := [(2, ⟨3, 11, [3]⟩), (1, ⟨2, 11, [2]⟩)] }, by decide +kernel, by decide +kernel,
    { md := { first := 2, serialTo := 4, flushed := 3, count := 2, serialToValid := true },
      chs := [(3, ⟨4, 11, [4]⟩), (2, ⟨3, 11, [3]⟩)] }, by decide +kernel⟩

/-! ## Findings -/

/-- With zonefile-sync disabled, once changesets have been merged, serials that come round to the one of
the zone file make the journal cyclic: storing them succeeds, and then the zone cannot be loaded. -/
theorem C13_merged_cycle : ∃ w,
    run (demo false 2) demo0 [.change 0 2 [2], .change 0 1500000000 [3], .change 0 3000000000 [4], .change 0 1 [5]] =
      .ok w ∧ w.cur = (1, [0, 2, 3, 4, 5]) ∧
    loadFile (demo false 2) w.db w.file.1 w.file.2 = .error .eloop := by
  refine ⟨{ db := { md := { first := 1500000000, serialTo := 1, flushed := 1500000000, merged := 1, count := 2,
                            serialToValid := true, mergedValid := true }
                    chs := [(3000000000, ⟨1, 11, [5]⟩), (1500000000, ⟨3000000000, 11, [4]⟩), (1, ⟨1500000000, 12, [2, 3]⟩)] }
            file := (1, [0]), cur := (1, [0, 2, 3, 4, 5]) }, ?_, rfl, ?_⟩ <;> decide +kernel

/-- With zonefile-sync disabled but the zone file written on request, the merged changeset is taken to
cover changes that were deleted because they were in the zone file: a later merge loses the changes
since then. -/
theorem C13_forced_flush : ∃ w,
    run (demo false 3) demo0 [.change 0 2 [2], .change 0 3 [3], .change 0 4 [4], .change 0 5 [5], .flush,
      .change 0 6 [6], .change 0 7 [7], .change 0 8 [8], .change 0 9 [9]] = .ok w ∧
    w.cur = (9, [0, 2, 3, 4, 5, 6, 7, 8, 9]) ∧ w.file = (5, [0, 2, 3, 4, 5]) ∧
    loadFile (demo false 3) w.db w.file.1 w.file.2 = .ok [0, 2, 3, 4, 5] := by
  refine ⟨{ db := { md := { first := 6, serialTo := 9, flushed := 8, merged := 1, count := 3,
                            serialToValid := true, mergedValid := true }
                    chs := [(8, ⟨9, 11, [9]⟩), (1, ⟨4, 13, [2, 3, 4]⟩), (7, ⟨8, 11, [8]⟩), (6, ⟨7, 11, [7]⟩)] }
            file := (5, [0, 2, 3, 4, 5]), cur := (9, [0, 2, 3, 4, 5, 6, 7, 8, 9]) }, ?_, rfl, rfl, ?_⟩ <;> decide +kernel

/-- When zonefile-sync is enabled after changesets have been merged, the merged changeset is deleted
before the zone file is written: a crash in between loses the changes. -/
theorem C13_merged_deleted : ∃ w w',
    run (demo false 3) demo0 [.change 0 2 [2], .change 0 3 [3], .change 0 4 [4], .change 0 5 [5]] = .ok w ∧
    run (demo true 3) w [.change 0 6 [6], .change 0 7 [7], .change 0 8 [8]] = .ok w' ∧
    w'.cur = (7, [0, 2, 3, 4, 5, 6, 7]) ∧ w'.file = (1, [0]) ∧
    loadFile (demo true 3) w'.db w'.file.1 w'.file.2 = .ok [0] := by
  refine ⟨?_, ?_, ?_, ?_, ?_, ?_, ?_⟩
  · exact { db := { md := { first := 3, serialTo := 5, flushed := 4, merged := 1, count := 2,
                            serialToValid := true, mergedValid := true }
                    chs := [(4, ⟨5, 11, [5]⟩), (1, ⟨4, 13, [2, 3, 4]⟩), (3, ⟨4, 11, [4]⟩)] }
            file := (1, [0]), cur := (5, [0, 2, 3, 4, 5]) }
  · exact { db := { md := { first := 4, serialTo := 7, flushed := 4, merged := 1, count := 3,
                            serialToValid := true, mergedValid := false }
                    chs := [(6, ⟨7, 11, [7]⟩), (5, ⟨6, 11, [6]⟩), (4, ⟨5, 11, [5]⟩)] }
            file := (1, [0]), cur := (7, [0, 2, 3, 4, 5, 6, 7]) }
  all_goals decide +kernel

/-- With the whole zone in the journal and writing the zone file allowed, a change that needs all the
space right after one refused with EBUSY (the file could not be written) trips an assertion. -/
theorem C13_flush_assert :
    run (demo true 2) demo0 [.whole 1 [1], .change 0 2 [2], .change 0 3 [3], .change 0 4 [4], .change 2000 4 [4]] = .ub := by
  decide +kernel

/-- When making room deletes the last changeset, the check for a gap is skipped: with the whole zone in
the journal, a changeset that does not follow is stored, and loading silently leaves it out. -/
theorem C13_gap : ∃ w db,
    run (demo false 5) demo0 [.whole 1 [1], .change 0 2 [2]] = .ok w ∧
    insert (demo false 5) 1005 w.db ⟨7, 8, [8]⟩ = .ok (db, none) ∧
    insert (demo false 5) 0 w.db ⟨7, 8, [8]⟩ = .ok (w.db, some .esemcheck) ∧
    loadZone (demo false 5) db = .ok [1, 2] := by
  refine ⟨?_, ?_, ?_, ?_, ?_, ?_⟩
  · exact { db := { md := { first := 1, serialTo := 2, flushed := 1, count := 1, serialToValid := true }
                    zij := some ⟨1, 11, [1]⟩, chs := [(1, ⟨2, 11, [2]⟩)] }
            file := (1, [0]), cur := (2, [1, 2]) }
  · exact { md := { first := 7, serialTo := 8, flushed := 7, count := 1, serialToValid := true }
            zij := some ⟨2, 12, [1, 2]⟩, chs := [(7, ⟨8, 11, [8]⟩)] }
  all_goals decide +kernel

/-- If the server crashes after writing the zone file and before the journal is told, EBUSY comes back
for ever: the zone file is up to date, so that nothing is done. -/
theorem C13_stuck : ∃ w w',
    run (demo true 2) demo0 [.change 0 2 [2], .change 0 3 [3], .written] = .ok w ∧
    insert (demo true 2) 0 w.db ⟨w.cur.1, 4, [4]⟩ = .ok (w'.db, some .ebusy) ∧
    step (demo true 2) w (.change 0 4 [4]) = .ok w' ∧ flushJournal w' = w ∧ w' = w := by
  refine ⟨?_, ?_, ?_, ?_, ?_, ?_, ?_⟩
  · exact { db := { md := { first := 1, serialTo := 3, flushed := 1, count := 2, serialToValid := true }
                    chs := [(2, ⟨3, 11, [3]⟩), (1, ⟨2, 11, [2]⟩)] }
            file := (3, [0, 2, 3]), cur := (3, [0, 2, 3]) }
  · exact { db := { md := { first := 1, serialTo := 3, flushed := 1, count := 2, serialToValid := true }
                    chs := [(2, ⟨3, 11, [3]⟩), (1, ⟨2, 11, [2]⟩)] }
            file := (3, [0, 2, 3]), cur := (3, [0, 2, 3]) }
  all_goals decide +kernel

/-- With an extra changeset larger than the limit, the limit is computed with wrap-around and ignored. -/
theorem C13_extra_space : ∃ db, insertExtra (demo true 5) 1000000
    { md := { first := 1, serialTo := 2, flushed := 2, count := 1, serialToValid := true }, chs := [(1, ⟨2, 11, [2]⟩)] }
    ⟨2, 3, [3]⟩ ⟨1, 3, List.replicate 1001 0⟩ = .ok (db, none) := by
  refine ⟨?_, ?_⟩
  · exact { md := { first := 1, serialTo := 3, flushed := 3, merged := 1, count := 2, serialToValid := true, mergedValid := true }
            chs := [(1, ⟨3, 1011, List.replicate 1001 0⟩), (2, ⟨3, 11, [3]⟩)] }
  decide +kernel

end Knot
