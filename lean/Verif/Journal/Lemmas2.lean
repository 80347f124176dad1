import Verif.Journal.Lemmas
/-!
# Lemmas: making room
-/
namespace Knot.Journal

variable {Z D : Type}

theorem applyAll_append (cfg : Cfg Z D) (a b : Ents D) (z : Z) :
    applyAll cfg (a ++ b) z = applyAll cfg b (applyAll cfg a z) := by simp [applyAll]

theorem mergeAll_spec {cfg : Cfg Z D} (hl : Laws cfg) {e : Entry D} {l : Ents D} {b : Nat}
    (h : Linked e.to l b) : (mergeAll cfg e l).1 = b ∧
      ∀ z, cfg.act (mergeAll cfg e l).2 z = applyAll cfg l (cfg.act e.body z) := by
  have gen : ∀ (l : Ents D) (s : Nat) (d : D),
      (l.foldl (fun a p => (p.2.to, cfg.comp a.2 p.2.body)) (s, d)).1 = l.foldl (fun _ p => p.2.to) s ∧
      ∀ z, cfg.act (l.foldl (fun a p => (p.2.to, cfg.comp a.2 p.2.body)) (s, d)).2 z =
        applyAll cfg l (cfg.act d z) := by
    intro l
    induction l with
    | nil => intro s d; exact ⟨rfl, fun _ => rfl⟩
    | cons p l ih =>
      intro s d
      obtain ⟨i1, i2⟩ := ih p.2.to (cfg.comp d p.2.body)
      refine ⟨i1, fun z => ?_⟩
      simp only [List.foldl_cons]
      rw [i2, hl.comp]; rfl
  exact ⟨(gen l e.to e.body).1.trans (foldl_linked h), (gen l e.to e.body).2⟩

/-- The merged changeset as an entry. -/
def mlist (md : Md) (m : Option (Entry D)) : Ents D := m.toList.map (fun e => (md.merged, e))

/-- How the zone comes from what is on the disk and the changesets `p2` after it. -/
def Tail (cfg : Cfg Z D) (db : Db Z D) (file cur : Nat × Z) (p2 : Ents D) (m : Option (Entry D))
    (empty : Bool) : Prop :=
  match db.zij, m with
  | some z, none => applyAll cfg p2 z.body = cur.2 ∧ (cfg.flush = false → empty = false → ∃ q1 q2, p2 = q1 ++ q2 ∧
      Linked z.to q1 db.md.flushed ∧ Linked db.md.flushed q2 db.md.serialTo)
  | some _, some _ => False
  | none, some e => cfg.flush = false ∧ file.1 = db.md.merged ∧ db.md.flushed = e.to ∧
      applyAll cfg p2 (cfg.act e.body file.2) = cur.2
  | none, none => ∃ q1 q2, p2 = q1 ++ q2 ∧ Linked db.md.flushed q1 file.1 ∧ Linked file.1 q2 db.md.serialTo ∧
      applyAll cfg q2 file.2 = cur.2 ∧ (cfg.flush = false → q1 = [])

/-- The state in a transaction: the path is `p1 ++ p2`, `p1` may be deleted. -/
structure Work (cfg : Cfg Z D) (db : Db Z D) (file cur : Nat × Z) (p1 p2 : Ents D) (m : Option (Entry D)) :
    Prop where
  link1 : Linked db.md.first p1 (upto db)
  link2 : Linked (upto db) p2 db.md.serialTo
  nodup : (nodes db.md.first (p1 ++ p2)).Nodup
  small : ∀ s ∈ nodes db.md.first (p1 ++ p2), s < 4294967296
  count : db.md.count = (p1 ++ p2).length
  mv : db.md.mergedValid = m.isSome
  apart : m.isSome → db.md.merged ∉ nodes db.md.first (p1 ++ p2)
  stores : Stores db.chs (p1 ++ (p2 ++ mlist db.md m))
  size : ∀ p ∈ p1 ++ p2, 0 < p.2.size
  valid : p1 ++ p2 ≠ [] → db.md.serialToValid = true
  last : cur.1 = db.md.serialTo
  tail : Tail cfg db file cur p2 m (p1 ++ p2).isEmpty

/-- Reading what follows the deletable part in the database before the transaction. -/
def OldReads (cfg : Cfg Z D) (old db : Db Z D) (p2 : Ents D) (m : Option (Entry D)) : Prop :=
  p2 ≠ [] →
  match db.zij, m with
  | some z, _ => readZone old = .ok (z, p2)
  | none, some e => readSerial old db.md.merged = .ok ((db.md.merged, e) :: p2)
  | none, none => cfg.flush = false → readSerial old db.md.flushed = .ok p2

theorem Work.link {cfg : Cfg Z D} {db : Db Z D} {file cur : Nat × Z} {p1 p2 : Ents D} {m : Option (Entry D)}
    (h : Work cfg db file cur p1 p2 m) : Linked db.md.first (p1 ++ p2) db.md.serialTo :=
  linked_append.mpr ⟨_, h.link1, h.link2⟩

theorem Work.nodup2 {cfg : Cfg Z D} {db : Db Z D} {file cur : Nat × Z} {p1 p2 : Ents D} {m : Option (Entry D)}
    (h : Work cfg db file cur p1 p2 m) : (nodes (upto db) p2).Nodup := by
  have := h.nodup
  rw [nodes_append h.link1] at this
  exact (List.nodup_append.mp this).2.1

theorem nodes_prefix {a : Nat} {l1 l2 : Ents D} : ∃ t, nodes a (l1 ++ l2) = nodes a l1 ++ t :=
  ⟨l2.map (·.2.to), by simp [nodes]⟩

theorem Work.nodup1 {cfg : Cfg Z D} {db : Db Z D} {file cur : Nat × Z} {p1 p2 : Ents D} {m : Option (Entry D)}
    (h : Work cfg db file cur p1 p2 m) : (nodes db.md.first p1).Nodup := by
  obtain ⟨t, e⟩ := nodes_prefix (a := db.md.first) (l1 := p1) (l2 := p2)
  have := h.nodup
  rw [e] at this
  exact (List.nodup_append.mp this).1

theorem Work.upto_iff {cfg : Cfg Z D} {db : Db Z D} {file cur : Nat × Z} {p1 p2 : Ents D} {m : Option (Entry D)}
    (h : Work cfg db file cur p1 p2 m) : upto db = db.md.serialTo ↔ p2 = [] :=
  linked_eq_nil h.link2 h.nodup2

/-- Deleting in the loop. -/
theorem work_delete {cfg : Cfg Z D} {db : Db Z D} {file cur : Nat × Z} {p1 p2 : Ents D} {m : Option (Entry D)}
    (h : Work cfg db file cur p1 p2 m) (tofree todel : Nat) :
    ∃ l1 l2, p1 = l1 ++ l2 ∧
      ∃ r, deleteRun tofree todel (upto db) db.chs.length db.chs 0 0 db.md.first = r ∧
      r.2.2.1 = l1.length ∧ (r.2.1 = 0 ↔ l1 = []) ∧ (l2 = [] ∨ (tofree ≤ r.2.1 ∧ todel ≤ r.2.2.1)) ∧
      (l1 ≠ [] → (∃ md, afterDelete db.md r.2.2.2 r.2.2.1 = .ok md ∧
          Work cfg { db with md := md, chs := r.1 } file cur l2 p2 m ∧ md.count + l1.length = db.md.count ∧
          md.flushed = db.md.flushed ∧ md.merged = db.md.merged ∧ md.serialTo = db.md.serialTo) ∨
        (afterDelete db.md r.2.2.2 r.2.2.1 = .ub ∧ cfg.flush = true ∧ db.zij.isSome)) := by
  have hlen : p1.length ≤ db.chs.length := by
    have := h.stores.length_le
    simp only [List.length_append] at this; omega
  obtain ⟨l1, l2, b, fs', e1, e2, e3, chs', e4, e5, e6, e7, e8⟩ :=
    deleteRun_path (tofree := tofree) (todel := todel) (fs := 0) (fc := 0) h.link1 h.nodup1 h.stores
      (fun p hp => h.size p (List.mem_append_left _ hp)) hlen
  refine ⟨l1, l2, e1, _, e4, by simp, ?_, ?_, fun hne => ?_⟩
  · simp only
    constructor
    · intro q; cases l1 with
      | nil => rfl
      | cons a l => simp at e6; omega
    · exact e7
  · simpa using e8
  · simp only [Nat.zero_add]
    have hpath : p1 ++ p2 = l1 ++ (l2 ++ p2) := by rw [e1, List.append_assoc]
    have hnodes := nodes_append (l2 := l2 ++ p2) e2
    have hnd := h.nodup
    rw [hpath, hnodes] at hnd
    have hnd2 := (List.nodup_append.mp hnd).2.1
    have hlk2 : Linked b (l2 ++ p2) db.md.serialTo := linked_append.mpr ⟨_, e3, h.link2⟩
    have hpne : p1 ++ p2 ≠ [] := by rw [hpath]; cases l1 with
      | nil => exact absurd rfl hne
      | cons a l => simp
    have hv := h.valid hpne
    have hcnt := h.count
    rw [hpath, List.length_append] at hcnt
    have hend : b = db.md.serialTo ↔ l2 ++ p2 = [] := linked_eq_nil hlk2 hnd2
    unfold afterDelete
    rw [if_neg (by cases l1 with | nil => exact absurd rfl hne | cons a l => simp), if_neg (by simp [hv])]
    by_cases hq : b = db.md.serialTo ∧ (db.md.flushed ≠ db.md.serialTo ∨ db.md.count ≠ l1.length)
    · rw [if_pos hq]
      right
      have hnil := hend.mp hq.1
      have h2 : p2 = [] := (List.append_eq_nil_iff.mp hnil).2
      have hc : db.md.count = l1.length := by rw [hcnt, hnil]; simp
      have hf : db.md.flushed ≠ db.md.serialTo := hq.2.resolve_right (fun q => q hc)
      have ht := h.tail
      have hu := h.upto_iff.mpr h2
      unfold Tail at ht
      cases hz : db.zij with
      | none =>
        simp only [upto, hz] at hu
        exact absurd hu hf
      | some z =>
        rw [hz] at ht
        cases hm : m with
        | some e => rw [hm] at ht; exact ht.elim
        | none =>
          rw [hm] at ht
          refine ⟨rfl, ?_, rfl⟩
          cases hfl : cfg.flush with
          | true => rfl
          | false =>
            obtain ⟨q1, q2, g1, g2, g3⟩ := ht.2 hfl (by simpa using hpne)
            rw [h2] at g1
            have := List.append_eq_nil_iff.mp g1.symm
            rw [this.2] at g3
            exact absurd g3 hf
    · rw [if_neg hq]
      left
      refine ⟨_, rfl, ?_, by simp only; omega, rfl, rfl, rfl⟩
      have hu : upto { db with md := { db.md with serialToValid := decide (b ≠ db.md.serialTo), first := b, count := db.md.count - l1.length }, chs := chs' } = upto db := by
        simp only [upto]
      refine ⟨by rw [hu]; exact e3, by rw [hu]; exact h.link2, hnd2, ?_, ?_, h.mv, ?_, e5, ?_, ?_, h.last, ?_⟩
      · intro s hs
        refine h.small s ?_
        rw [hpath, hnodes]
        exact List.mem_append_right _ hs
      · simp only; omega
      · intro hm hmem
        refine h.apart hm ?_
        rw [hpath, hnodes]
        exact List.mem_append_right _ hmem
      · intro p hp
        exact h.size p (by rw [hpath]; exact List.mem_append_right _ hp)
      · intro q
        simp only [decide_eq_true_eq]
        exact fun e => q (hend.mp e)
      · have ht := h.tail
        unfold Tail at ht ⊢
        cases hz : db.zij with
        | none =>
          rw [hz] at ht
          cases hm : m with
          | some e => rw [hm] at ht; exact ht
          | none => rw [hm] at ht; exact ht
        | some z =>
          rw [hz] at ht
          cases hm : m with
          | some e => rw [hm] at ht; exact ht.elim
          | none => rw [hm] at ht; exact ⟨ht.1, fun a _ => ht.2 a (by simpa using hpne)⟩

/-- What journal_try_flush() leaves. -/
def Flushed (cfg : Cfg Z D) (db : Db Z D) (file cur : Nat × Z) (p2 : Ents D) : Txn Z D → Prop
  | .run db' => cfg.flush = false ∧ ∃ p1' m', Work cfg db' file cur p1' [] m' ∧ p1'.length ≤ p2.length ∧
      (db'.md.count ≤ db.md.count ∧ db.md.count ≤ db'.md.count + 1) ∧ db'.zij.isSome = db.zij.isSome
  | .busy db' => cfg.flush = true ∧ db'.zij.isSome = db.zij.isSome ∧ db'.md.serialToValid = true ∧
      ∃ p1' p2', Work cfg db' file cur p1' p2' none ∧ p1' ++ p2' = p2 ∧ (db'.zij.isSome → p2' = []) 
  | .fail _ => False

theorem work_flush {cfg : Cfg Z D} (hl : Laws cfg) {old db : Db Z D} {file cur : Nat × Z} {p2 : Ents D}
    {m : Option (Entry D)} (h : Work cfg db file cur [] p2 m) (ho : OldReads cfg old db p2 m) (hne : p2 ≠ []) :
    ∃ t, tryFlush cfg old db = .ok t ∧ Flushed cfg db file cur p2 t := by
  have ho := ho hne
  have ht := h.tail
  have hfirst : db.md.first = upto db := h.link1
  have hnod := h.nodup
  have hval := h.valid hne
  have hdrop : m = none → ∀ zij : Option (Zij Z), dropMerged { db with zij := zij } = { db with zij := zij } := by
    intro e zij
    have : db.md.mergedValid = false := by rw [h.mv, e]; rfl
    unfold dropMerged
    simp only
    rw [if_neg (by simp [this])]
  unfold tryFlush
  cases hz : db.zij with
  | some z =>
    rw [hz] at ho
    unfold Tail at ht
    rw [hz] at ht
    cases hm : m with
    | some e => rw [hm] at ht; exact ht.elim
    | none =>
      rw [hm] at ht ho h
      simp only at ho ht
      have hu : upto db = z.to := by simp [upto, hz]
      have hto : p2.foldl (fun _ p => p.2.to) z.to = db.md.serialTo := foldl_linked (hu ▸ h.link2)
      have hmerge : mergeZone cfg old db = .ok { db with zij := some ⟨db.md.serialTo, cfg.zsize cur.2, cur.2⟩ } := by
        unfold mergeZone
        rw [ho]
        simp only
        rw [hto]
        have : p2.foldl (fun z p => cfg.act p.2.body z) z.body = cur.2 := ht.1
        rw [this]
      rw [hmerge]
      simp only [Option.isSome_some, if_true]
      -- the state after merging into the zone
      have work : ∀ md : Md, md.first = db.md.first → md.serialTo = db.md.serialTo → md.count = db.md.count →
          md.mergedValid = db.md.mergedValid → md.merged = db.md.merged → md.serialToValid = db.md.serialToValid →
          (cfg.flush = false → md.flushed = db.md.serialTo) →
          Work cfg { db with md := md, zij := some ⟨db.md.serialTo, cfg.zsize cur.2, cur.2⟩ } file cur p2 [] none := by
        intro md m1 m2 m3 m4 m5 m6 m7
        refine ⟨?_, ?_, ?_, ?_, ?_, ?_, by simp, ?_, ?_, ?_, ?_, ?_⟩
        · simp only [m1, upto, hfirst]; exact h.link2
        · simp only [upto, m2]; exact rfl
        · simp only [m1, List.append_nil]; exact hnod
        · simp only [m1, List.append_nil]; exact h.small
        · simp only [m3, List.append_nil]; exact h.count
        · simp only [m4]; exact h.mv
        · have := h.stores
          simpa [mlist] using this
        · simpa using h.size
        · simp only [m6]; intro _; exact hval
        · simp only [m2]; exact h.last
        · refine ⟨rfl, fun hf _ => ⟨[], [], rfl, ?_, ?_⟩⟩
          · simp only [Linked]; exact (m7 hf).symm
          · simp only [Linked]; rw [m2]; exact m7 hf
      cases hf : cfg.flush with
      | true =>
        simp only [if_true]
        refine ⟨_, rfl, hf, ?_, ?_, p2, [], ?_, by simp, fun _ => rfl⟩
        · rw [hdrop hm]; simp [hz]
        · rw [hdrop hm]; exact hval
        · rw [hdrop hm]
          exact work db.md rfl rfl rfl rfl rfl rfl (fun q => by rw [hf] at q; cases q)
      | false =>
        have hmv : db.md.mergedValid = false := h.mv
        simp only [Bool.false_eq_true, if_false]
        have : afterMerge db.md true 0 db.md.serialTo 0 = .ok { db.md with flushed := db.md.serialTo } := by
          unfold afterMerge
          simp [hmv]
        rw [this]
        refine ⟨_, rfl, hf, p2, none, work _ rfl rfl rfl rfl rfl rfl (fun _ => rfl), Nat.le_refl _, ⟨Nat.le_refl _, Nat.le_succ _⟩, ?_⟩
        simp [hz]
  | none =>
    simp only [Option.isSome_none, Bool.false_eq_true, if_false]
    have hu : upto db = db.md.flushed := by simp [upto, hz]
    rw [hz] at ho
    unfold Tail at ht
    rw [hz] at ht
    cases hf : cfg.flush with
    | true =>
      cases hm : m with
      | some e => rw [hm] at ht; exact absurd (hf.symm.trans ht.1) (by decide)
      | none =>
        have hd : dropMerged db = db := by
          have := hdrop hm db.zij
          simpa using this
        simp only [if_true, hd]
        rw [hm] at h
        exact ⟨_, rfl, hf, by simp [hz], hval, [], p2, h, rfl, by simp [hz]⟩
    | false =>
      simp only [Bool.false_eq_true, if_false]
      cases hm : m with
      | some e =>
        rw [hm] at ht ho h
        simp only at ht ho
        have hmv : db.md.mergedValid = true := h.mv
        rw [if_pos hmv]
        have hst := h.stores
        simp only [List.nil_append, mlist, Option.toList_some, List.map_cons, List.map_nil] at hst
        have hge : get db.chs db.md.merged = some e :=
          (hst.perm List.perm_append_comm).erase_head.1
        have hsp := mergeAll_spec hl (e := e) (l := p2) (b := db.md.serialTo) (by rw [← ht.2.2.1, ← hu]; exact h.link2)
        have hms : mergeSerial cfg old db db.md.merged = .ok (.ok (e.to, { db with chs := (put db.chs db.md.merged
              ⟨(mergeAll cfg e p2).1, cfg.dsize (mergeAll cfg e p2).2, (mergeAll cfg e p2).2⟩) })) := by
          unfold mergeSerial
          rw [ho]
          simp only
          rw [hge]
          simp
        rw [hms, Res.bind_ok]
        have ham : afterMerge db.md false db.md.merged db.md.serialTo e.to =
            .ok { db.md with flushed := db.md.serialTo } := by
          unfold afterMerge; simp [hmv]
        simp only
        rw [ham, Res.bind_ok]
        refine ⟨_, rfl, hf, p2, some ⟨(mergeAll cfg e p2).1, cfg.dsize (mergeAll cfg e p2).2, (mergeAll cfg e p2).2⟩,
          ⟨?_, ?_, ?_, ?_, ?_, h.mv, ?_, ?_, ?_, ?_, ?_, ?_⟩, Nat.le_refl _, ⟨Nat.le_refl _, Nat.le_succ _⟩, by simp [hz]⟩
        · simp only [upto, hz, hfirst]
          have := h.link2
          simpa [upto, hz] using this
        · simp only [upto, hz]; exact rfl
        · simp only [List.append_nil]; exact hnod
        · simp only [List.append_nil]; exact h.small
        · simp only [List.append_nil]; exact h.count
        · intro _; simp only [List.append_nil]; exact h.apart rfl
        · have hk : (((p2 ++ [(db.md.merged, e)]) : Ents D).map (·.1)).Nodup := hst.nodup
          refine ⟨by simpa [mlist] using hk, fun k => ?_⟩
          simp only [get_put, hst.get, mlist, Option.toList_some, List.map_cons, List.map_nil, List.nil_append]
          rw [get_append, get_append]
          by_cases hq : k = db.md.merged
          · have hnone : get p2 k = none := by
              refine get_none _ _ ?_
              rw [List.map_append] at hk
              intro hmem
              exact (List.nodup_append.mp hk).2.2 k hmem db.md.merged (by simp) hq
            rw [if_pos hq, hnone]
            simp [get, hq]
          · rw [if_neg hq]
            simp [get, Ne.symm hq]
        · simpa using h.size
        · intro _; exact hval
        · exact h.last
        · simp only [Tail, hz]
          refine ⟨hf, ht.2.1, hsp.1.symm, ?_⟩
          rw [hsp.2]
          exact ht.2.2.2
      | none =>
        rw [hm] at ht ho h
        simp only at ht ho
        have hmv : db.md.mergedValid = false := h.mv
        rw [if_neg (by simp [hmv])]
        obtain ⟨q1, q2, g1, g2, g3, g4, g5⟩ := ht
        have hq1 := g5 hf
        subst hq1
        simp only [List.nil_append] at g1
        subst g1
        have hfile : db.md.flushed = file.1 := g2
        cases hp : p2 with
        | nil => exact absurd hp hne
        | cons p t =>
          obtain ⟨k, e⟩ := p
          rw [hp] at ho h hnod
          have ho := ho hf
          have hlk := h.link2
          rw [hu] at hlk
          obtain ⟨k1, k2, k3⟩ := hlk
          have hfk : db.md.first = k := by rw [hfirst, hu, k1]
          have hst := h.stores
          simp only [List.nil_append, mlist, Option.toList_none, List.map_nil, List.append_nil] at hst
          have hge := hst.erase_head.1
          have hsp := mergeAll_spec hl k3
          have hms : mergeSerial cfg old db db.md.first = .ok (.ok (e.to, { db with chs := (put db.chs db.md.first
              ⟨(mergeAll cfg e t).1, cfg.dsize (mergeAll cfg e t).2, (mergeAll cfg e t).2⟩) })) := by
            unfold mergeSerial
            rw [show readSerial old db.md.first = .ok ((k, e) :: t) from (by rw [hfirst, hu]; exact ho)]
            simp only
            rw [hfk, hge]
            simp
          rw [hms, Res.bind_ok]
          simp only
          have hnd' := List.nodup_cons.mp hnod
          have hend : e.to = db.md.serialTo ↔ t = [] := linked_eq_nil k3 hnd'.2
          have hcnt : db.md.count = t.length + 1 := by rw [h.count]; simp
          have ham : afterMerge db.md false db.md.first db.md.serialTo e.to = .ok { db.md with
              flushed := db.md.serialTo, merged := db.md.first, mergedValid := true,
              serialToValid := decide (e.to ≠ db.md.serialTo), first := e.to, count := db.md.count - 1 } := by
            unfold afterMerge afterDelete
            simp only [hmv, hval]
            simp only [Bool.false_eq_true, if_false, ne_eq, not_true_eq_false, Nat.one_ne_zero, false_or]
            rw [if_neg ?_]
            rintro ⟨q1, q2⟩
            have := hend.mp q1
            rw [this] at hcnt
            simp only [List.length_nil] at hcnt
            exact q2 (by omega)
          rw [ham, Res.bind_ok]
          refine ⟨_, rfl, hf, t, some ⟨(mergeAll cfg e t).1, cfg.dsize (mergeAll cfg e t).2, (mergeAll cfg e t).2⟩,
            ⟨?_, ?_, ?_, ?_, ?_, rfl, ?_, ?_, ?_, ?_, ?_, ?_⟩, ?_, ?_, by simp [hz]⟩
          · simp only [upto, hz]; exact k3
          · simp only [upto, hz]; exact rfl
          · simp only [List.append_nil]; exact hnd'.2
          · simp only [List.append_nil]
            exact fun s hs => h.small s (List.mem_cons_of_mem _ hs)
          · simp only [List.append_nil]; omega
          · intro _; simp only [List.append_nil]; exact hnd'.1
          · have hk := List.nodup_cons.mp hst.nodup
            constructor
            · simp only [mlist, Option.toList_some, List.map_cons, List.map_nil, List.map_append, List.nil_append]
              rw [List.nodup_append]
              refine ⟨hk.2, by simp, ?_⟩
              intro a ha b hb
              simp only [List.mem_cons, List.not_mem_nil, or_false] at hb
              rw [hb, hfk]
              exact fun q => hk.1 (q ▸ ha)
            · intro j
              simp only [get_put, hst.get, mlist, Option.toList_some, List.map_cons, List.map_nil, List.nil_append]
              rw [get_append]
              by_cases hq : j = db.md.first
              · have hnone : get t j = none := get_none _ _ (by rw [hq, hfk]; exact hk.1)
                rw [if_pos hq, hnone]
                simp [get, hq]
              · rw [if_neg hq]
                have : k ≠ j := by rw [← hfk]; exact Ne.symm hq
                simp [get, this, Ne.symm hq]
          · intro p hp'
            exact h.size p (by simp only [List.append_nil] at hp'; simp [hp'])
          · intro q
            simp only [decide_eq_true_eq]
            simp only [List.append_nil] at q
            exact fun e' => q (hend.mp e')
          · exact h.last
          · simp only [Tail, hz]
            refine ⟨hf, ?_, hsp.1.symm, ?_⟩
            · rw [← hfile, hfirst, hu]
            · rw [hsp.2]
              rw [hp] at g4
              exact g4
          · simp
          · simp only; omega

end Knot.Journal
