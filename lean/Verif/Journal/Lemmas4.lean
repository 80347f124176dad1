import Verif.Journal.Lemmas3
/-!
# Lemmas: what holds after every event
-/
namespace Knot.Journal

variable {Z D : Type}

/-! ## Reading -/

theorem Work.get_path {cfg : Cfg Z D} {db : Db Z D} {file cur : Nat × Z} {p1 p2 : Ents D} {m : Option (Entry D)}
    (h : Work cfg db file cur p1 p2 m) {k : Nat} {e : Entry D} (hm : (k, e) ∈ p1 ++ p2) :
    get db.chs k = some e := by
  obtain ⟨a, b, hab⟩ := List.append_of_mem hm
  have hst := h.stores
  rw [← List.append_assoc, hab] at hst
  have : Stores db.chs ((k, e) :: (a ++ b ++ mlist db.md m)) := by
    refine hst.perm ?_
    simp only [List.append_assoc, List.cons_append]
    exact List.perm_middle
  exact this.erase_head.1

theorem Work.get_merged {cfg : Cfg Z D} {db : Db Z D} {file cur : Nat × Z} {p1 p2 : Ents D} {e : Entry D}
    (h : Work cfg db file cur p1 p2 (some e)) : get db.chs db.md.merged = some e := by
  have hst := h.stores
  rw [← List.append_assoc] at hst
  exact (hst.perm List.perm_append_comm).erase_head.1

theorem Work.get_iff {cfg : Cfg Z D} {db : Db Z D} {file cur : Nat × Z} {p1 p2 : Ents D} {m : Option (Entry D)}
    (h : Work cfg db file cur p1 p2 m) (k : Nat) :
    get db.chs k = none ↔ k ∉ (p1 ++ p2).map (·.1) ∧ (m.isSome → k ≠ db.md.merged) := by
  constructor
  · intro q
    constructor
    · intro hm
      obtain ⟨⟨k', e⟩, h1, h2⟩ := List.mem_map.mp hm
      simp only at h2
      subst h2
      rw [h.get_path h1] at q
      cases q
    · intro hm e
      cases hm' : m with
      | none => rw [hm'] at hm; cases hm
      | some x =>
        rw [hm'] at h
        rw [e, h.get_merged] at q
        cases q
  · rintro ⟨q1, q2⟩
    rw [h.stores.get, ← List.append_assoc]
    refine get_none _ _ ?_
    rw [List.map_append, List.mem_append, not_or]
    refine ⟨q1, ?_⟩
    cases hm : m with
    | none => simp [mlist]
    | some x =>
      simp only [mlist, Option.toList_some, List.map_cons, List.map_nil, List.mem_cons, List.not_mem_nil, or_false]
      exact q2 (by rw [hm]; rfl)

theorem Work.get_last {cfg : Cfg Z D} {db : Db Z D} {file cur : Nat × Z} {p1 p2 : Ents D} {m : Option (Entry D)}
    (h : Work cfg db file cur p1 p2 m) : get db.chs db.md.serialTo = none := by
  rw [h.get_iff]
  have hk := linked_keys h.link
  constructor
  · intro hm
    have hn := h.nodup
    rw [hk] at hn
    exact (List.nodup_append.mp hn).2.2 _ hm _ List.mem_cons_self rfl
  · intro hm e
    exact h.apart hm (e ▸ linked_last h.link)

theorem Work.read_tail {cfg : Cfg Z D} {db : Db Z D} {file cur : Nat × Z} {p1 p2 : Ents D} {m : Option (Entry D)}
    (h : Work cfg db file cur p1 p2 m) {l1 l2 : Ents D} {a : Nat} (hp : p1 ++ p2 = l1 ++ l2)
    (h1 : Linked db.md.first l1 a) (h2 : Linked a l2 db.md.serialTo) {n : Nat} (hn : l2.length ≤ n) :
    readFrom db.chs n a = .ok l2 := by
  have hnd := h.nodup
  rw [hp, nodes_append h1] at hnd
  exact readFrom_path h2 (List.nodup_append.mp hnd).2.1
    (fun k e hm => h.get_path (by rw [hp]; exact List.mem_append_right _ hm)) h.get_last hn

theorem Work.read_serial {cfg : Cfg Z D} {db : Db Z D} {file cur : Nat × Z} {p1 p2 : Ents D}
    {m : Option (Entry D)} (h : Work cfg db file cur p1 p2 m) (hv : db.md.serialToValid = true)
    {l1 l2 : Ents D} {a : Nat} (hp : p1 ++ p2 = l1 ++ l2)
    (h1 : Linked db.md.first l1 a) (h2 : Linked a l2 db.md.serialTo) :
    readSerial db a = if l2 = [] then .error .enoent else .ok l2 := by
  have hnd := h.nodup
  rw [hp, nodes_append h1] at hnd
  have hnd := (List.nodup_append.mp hnd).2.1
  unfold readSerial
  rw [if_neg (by simp [hv])]
  cases hl : l2 with
  | nil =>
    rw [hl] at h2
    have : a = db.md.serialTo := h2
    rw [this, h.get_last]
    simp
  | cons p l =>
    obtain ⟨k, e⟩ := p
    rw [hl] at h2 hnd hp
    have hk : k = a := h2.1
    have hg : get db.chs a = some e := hk ▸ h.get_path (by rw [hp]; simp)
    rw [hg]
    have hne : e.to ≠ a := by
      have := (List.nodup_cons.mp hnd).1
      intro q
      exact this (by rw [← q]; simp)
    have hc := h.count
    rw [hp] at hc
    simp only [List.length_append, List.length_cons] at hc
    have ht : ((k, e) :: l).length ≤ total db false a := by
      unfold total
      simp only [List.length_cons]
      omega
    simp only
    rw [if_neg ?_, if_neg (by simp)]
    · exact h.read_tail (l2 := (k, e) :: l) hp h1 h2 ht
    · rintro (q | q)
      · exact hne q
      · rw [q] at ht; simp at ht

theorem Work.read_zone {cfg : Cfg Z D} {db : Db Z D} {file cur : Nat × Z} {p1 p2 : Ents D}
    {m : Option (Entry D)} (h : Work cfg db file cur p1 p2 m) (hv : db.md.serialToValid = true)
    {z : Zij Z} (hz : db.zij = some z) : readZone db = .ok (z, p2) := by
  have hu : upto db = z.to := by simp [upto, hz]
  unfold readZone
  rw [if_neg (by simp [hv]), hz]
  simp only
  have hc := h.count
  simp only [List.length_append] at hc
  have h1 := h.link1
  have h2 := h.link2
  rw [hu] at h1 h2
  rw [h.read_tail rfl h1 h2 (by unfold total; simp; omega)]

theorem Work.read_merged {cfg : Cfg Z D} {db : Db Z D} {file cur : Nat × Z} {p1 p2 : Ents D}
    {e : Entry D} (h : Work cfg db file cur p1 p2 (some e)) (hv : db.md.serialToValid = true)
    (hz : db.zij = none) : readSerial db db.md.merged = .ok ((db.md.merged, e) :: p2) := by
  have ht := h.tail
  simp only [Tail, hz] at ht
  have hu : upto db = e.to := by simp [upto, hz, ht.2.2.1]
  have h1 := h.link1
  have h2 := h.link2
  rw [hu] at h1 h2
  have hne : e.to ≠ db.md.merged := by
    intro q
    refine h.apart rfl ?_
    rw [← q, nodes_append h1]
    refine List.mem_append_right _ ?_
    simp [nodes]
  unfold readSerial
  rw [if_neg (by simp [hv]), h.get_merged]
  have htot : total db false db.md.merged = db.md.count + 1 := by
    have hmv : db.md.mergedValid = true := h.mv
    unfold total
    simp [hmv]
  simp only
  rw [htot, if_neg (by simp [hne])]
  unfold readFrom
  rw [h.get_merged]
  simp only
  rw [if_neg hne]
  have hc := h.count
  simp only [List.length_append] at hc
  rw [h.read_tail rfl h1 h2 (by omega)]

theorem Work.old_reads {cfg : Cfg Z D} {db : Db Z D} {file cur : Nat × Z} {p1 p2 : Ents D}
    {m : Option (Entry D)} (h : Work cfg db file cur p1 p2 m) (hv : db.md.serialToValid = true) :
    OldReads cfg db db p2 m := by
  intro hne
  cases hz : db.zij with
  | some z => exact h.read_zone hv hz
  | none =>
    cases hm : m with
    | some e =>
      rw [hm] at h
      exact h.read_merged hv hz
    | none =>
      intro _
      have hu : upto db = db.md.flushed := by simp [upto, hz]
      have := h.read_serial hv rfl h.link1 h.link2
      rw [if_neg hne, hu] at this
      exact this

/-! ## Inserting -/

/-- The record written for a changeset. -/
def entry (cfg : Cfg Z D) (ch : Ch D) : Entry D := ⟨ch.to, cfg.dsize ch.body, ch.body⟩

/-- Writing it. -/
def store (cfg : Cfg Z D) (db : Db Z D) (ch : Ch D) : Db Z D :=
  { db with md := afterInsert db.md ch.from_ ch.to, chs := put db.chs ch.from_ (entry cfg ch) }

theorem work_store {cfg : Cfg Z D} (hl : Laws cfg) {db : Db Z D} {file cur : Nat × Z} {p1 p2 : Ents D}
    {m : Option (Entry D)} (h : Work cfg db file cur p1 p2 m) {ch : Ch D} (hf : ch.from_ = cur.1)
    (hlt : SerialLt ch.from_ ch.to) (hsm : ch.to < 4294967296)
    (hnew : ch.to ∉ nodes db.md.first (p1 ++ p2)) (hmg : m.isSome → ch.to ≠ db.md.merged) :
    Work cfg (store cfg db ch) file (ch.to, cfg.act ch.body cur.2) p1 (p2 ++ [(ch.from_, entry cfg ch)]) m ∧
      (store cfg db ch).md.count = db.md.count + 1 := by
  have hfs : ch.from_ = db.md.serialTo := hf.trans h.last
  have hend : db.md.first = db.md.serialTo ↔ p1 ++ p2 = [] := linked_eq_nil h.link h.nodup
  have hup : p1 ++ p2 = [] → upto db = db.md.serialTo := fun e =>
    h.upto_iff.mpr (List.append_eq_nil_iff.mp e).2
  -- neither field changes in effect
  have hmd : afterInsert db.md ch.from_ ch.to = { db.md with
      flushed := if p1 ++ p2 = [] then ch.from_ else db.md.flushed
      serialTo := ch.to, serialToValid := true, count := db.md.count + 1 } := by
    unfold afterInsert
    by_cases q : p1 ++ p2 = []
    · rw [if_pos (hend.mpr q), if_pos q]
      simp only
      congr 1
      exact hfs.trans (hend.mpr q).symm
    · rw [if_neg (fun e => q (hend.mp e)), if_neg q]
  have hu : upto (store cfg db ch) = upto db := by
    unfold store upto
    simp only
    cases hz : db.zij with
    | some z => rfl
    | none =>
      simp only [hmd]
      split
      · rename_i q
        have := hup q
        simp only [upto, hz] at this
        exact hfs.trans this.symm
      · rfl
  have hsf : (store cfg db ch).md.first = db.md.first := by simp only [store, hmd]
  have hst' : (store cfg db ch).md.serialTo = ch.to := by simp only [store, hmd]
  have hcn : (store cfg db ch).md.count = db.md.count + 1 := by simp only [store, hmd]
  have hmm : (store cfg db ch).md.merged = db.md.merged := by simp only [store, hmd]
  have hnodes : nodes db.md.first (p1 ++ (p2 ++ [(ch.from_, entry cfg ch)])) =
      nodes db.md.first (p1 ++ p2) ++ [ch.to] := by
    simp [nodes, entry]
  have hstep : Linked (D := D) db.md.serialTo [(ch.from_, entry cfg ch)] ch.to := by
    refine ⟨hfs, ?_, rfl⟩
    rw [← hfs]; exact hlt
  refine ⟨⟨?_, ?_, ?_, ?_, ?_, ?_, ?_, ?_, ?_, ?_, ?_, ?_⟩, hcn⟩
  · rw [hu, hsf]; exact h.link1
  · rw [hu, hst']
    exact linked_append.mpr ⟨_, h.link2, hstep⟩
  · rw [hsf, hnodes, List.nodup_append]
    refine ⟨h.nodup, by simp, ?_⟩
    intro a ha b hb
    simp only [List.mem_cons, List.not_mem_nil, or_false] at hb
    rw [hb]
    exact fun q => hnew (q ▸ ha)
  · rw [hsf, hnodes]
    intro s hs
    rcases List.mem_append.mp hs with q | q
    · exact h.small s q
    · simp only [List.mem_cons, List.not_mem_nil, or_false] at q
      rw [q]; exact hsm
  · rw [hcn, h.count]; simp; omega
  · simp only [store, hmd]; exact h.mv
  · intro hm
    rw [hsf, hmm, hnodes, List.mem_append, not_or]
    exact ⟨h.apart hm, by simpa using fun e => hmg hm e.symm⟩
  · have hnone : get db.chs ch.from_ = none := hfs ▸ h.get_last
    have hst := h.stores
    have hkeys : ch.from_ ∉ ((p1 ++ (p2 ++ mlist db.md m)) : Ents D).map (·.1) := by
      intro q
      have := (h.get_iff ch.from_).mp hnone
      rw [← List.append_assoc, List.map_append, List.mem_append] at q
      rcases q with q | q
      · exact this.1 q
      · cases hm : m with
        | none => rw [hm] at q; simp [mlist] at q
        | some x =>
          rw [hm] at q
          simp only [mlist, Option.toList_some, List.map_cons, List.map_nil, List.mem_cons, List.not_mem_nil, or_false] at q
          exact this.2 (by rw [hm]; rfl) q
    have hS : Stores (store cfg db ch).chs ((ch.from_, entry cfg ch) :: (p1 ++ (p2 ++ mlist db.md m))) := by
      refine ⟨?_, fun k => ?_⟩
      · rw [List.map_cons, List.nodup_cons]
        exact ⟨hkeys, hst.nodup⟩
      · simp only [store, get_put, Journal.get, hst.get]
        by_cases q : k = ch.from_
        · rw [if_pos q, if_pos q.symm]
        · rw [if_neg q, if_neg (Ne.symm q)]
    have hml : mlist (store cfg db ch).md m = mlist db.md m := by simp only [mlist, hmm]
    rw [hml]
    refine hS.perm ?_
    have : p1 ++ (p2 ++ [(ch.from_, entry cfg ch)] ++ mlist db.md m) =
        (p1 ++ p2) ++ (ch.from_, entry cfg ch) :: mlist db.md m := by simp
    rw [this, ← List.append_assoc]
    exact List.perm_middle.symm
  · intro p hp
    rw [← List.append_assoc, List.mem_append] at hp
    rcases hp with q | q
    · exact h.size p q
    · simp only [List.mem_cons, List.not_mem_nil, or_false] at q
      rw [q]; exact hl.size _
  · intro _; simp only [store, hmd]
  · exact hst'.symm
  · have ht := h.tail
    have happ : applyAll cfg [(ch.from_, entry cfg ch)] cur.2 = cfg.act ch.body cur.2 := rfl
    have hzij : (store cfg db ch).zij = db.zij := rfl
    have hfl : (store cfg db ch).md.flushed = if p1 ++ p2 = [] then ch.from_ else db.md.flushed := by
      simp only [store, hmd]
    unfold Tail at ht ⊢
    rw [hzij, hst', hmm]
    cases hz : db.zij with
    | some z =>
      rw [hz] at ht
      cases hm : m with
      | some x => rw [hm] at ht; exact ht.elim
      | none =>
        rw [hm] at ht
        simp only at ht ⊢
        refine ⟨by rw [applyAll_append, ht.1, happ], fun a _ => ?_⟩
        by_cases q : p1 ++ p2 = []
        · rw [hfl, if_pos q]
          refine ⟨[], [(ch.from_, entry cfg ch)], by rw [(List.append_eq_nil_iff.mp q).2], ?_, ?_⟩
          · have := hup q
            simp only [upto, hz] at this
            exact this.trans hfs.symm
          · rw [hfs]; rw [hfs] at hstep; exact hstep
        · obtain ⟨q1, q2, g1, g2, g3⟩ := ht.2 a (by simpa using q)
          rw [hfl, if_neg q]
          exact ⟨q1, q2 ++ [(ch.from_, entry cfg ch)], by rw [g1, List.append_assoc], g2, linked_append.mpr ⟨_, g3, hstep⟩⟩
    | none =>
      have hu' : upto db = db.md.flushed := by simp [upto, hz]
      have hfl' : (store cfg db ch).md.flushed = db.md.flushed := by
        rw [hfl]
        split
        · rename_i q
          exact hfs.trans ((hup q).symm.trans hu')
        · rfl
      rw [hz] at ht
      rw [hfl']
      cases hm : m with
      | some x =>
        rw [hm] at ht
        simp only at ht ⊢
        exact ⟨ht.1, ht.2.1, ht.2.2.1, by rw [applyAll_append, ht.2.2.2, happ]⟩
      | none =>
        rw [hm] at ht
        simp only at ht ⊢
        obtain ⟨q1, q2, g1, g2, g3, g4, g5⟩ := ht
        exact ⟨q1, q2 ++ [(ch.from_, entry cfg ch)], by rw [g1, List.append_assoc], g2, linked_append.mpr ⟨_, g3, hstep⟩,
          by rw [applyAll_append, g4, happ], g5⟩

/-- What holds of a world. -/
def Inv (cfg : Cfg Z D) (w : World Z D) : Prop :=
  w.cur.1 < 4294967296 ∧
  ((w.db = {} ∧ w.file = w.cur) ∨
   ∃ p1 p2 m, Work cfg w.db w.file w.cur p1 p2 m ∧ w.db.md.serialToValid = true ∧
     (w.db.zij = none → p1 ++ p2 ≠ []))

theorem serialLt_asymm {a b : Nat} (ha : a < 4294967296) (hb : b < 4294967296) (h : SerialLt a b) :
    ¬ SerialLt b a := by
  unfold SerialLt at *
  omega

/-- How an insertion may end; `free` says that nothing has to be flushed to make room. -/
def Ends (cfg : Cfg Z D) (need : Nat) (w : World Z D) (ch : Ch D) (free : Prop) :
    Db Z D × Option Err → Prop
  | (db, none) => Inv cfg ⟨db, w.file, (ch.to, cfg.act ch.body w.cur.2)⟩ ∧ db.md.count ≤ cfg.maxDepth ∧
      db.md.serialToValid = true ∧ db.zij.isSome = w.db.zij.isSome
  | (db, some .espace) => db = w.db ∧ (cfg.maxUsage ≤ cfg.dlen ch.body ∨ 0 < need)
  | (db, some .ebusy) => cfg.flush = true ∧ Inv cfg ⟨db, w.file, w.cur⟩ ∧ db.zij.isSome = w.db.zij.isSome ∧
      db.md.serialToValid = true ∧ (∃ p1 p2, Work cfg db w.file w.cur p1 p2 none ∧ (db.zij.isSome → p2 = [])) ∧ ¬ free
  | (_, some _) => False

theorem needFree_none (cfg : Cfg Z D) (old : Db Z D) (tofree : Nat) (n : Nat) :
    fixOccupation cfg old ({} : Db Z D) tofree n = .ok (if tofree = 0 then .run {} else .fail .espace) := by
  unfold fixOccupation fixLoop
  simp only [Nat.zero_sub, and_true]
  by_cases h : tofree = 0
  · rw [if_pos h, if_pos h]
  · rw [if_neg h, if_neg h]
    simp [deleteRun, upto]

theorem insertTxn_ends {cfg : Cfg Z D} (hl : Laws cfg) {w : World Z D} (hi : Inv cfg w) {ch : Ch D}
    (hf : ch.from_ = w.cur.1) (hsm : ch.to < 4294967296) (hlt : SerialLt ch.from_ ch.to)
    (hal : cfg.flush = false → w.db.zij = none → ch.to ≠ w.file.1) (occupied need : Nat)
    (hneed : needFree cfg occupied (cfg.dlen ch.body) = need) :
    (∃ t, insertTxn cfg occupied w.db ch = .ok t ∧ Ends cfg need w ch
      (∃ p1 m, Work cfg w.db w.file w.cur p1 [] m) (finish w.db t)) ∨
    (insertTxn cfg occupied w.db ch = .ub ∧ cfg.flush = true ∧ w.db.zij.isSome) := by
  have hd := hl.depth
  obtain ⟨hc, hi⟩ := hi
  have hneq : ch.to ≠ ch.from_ := by
    intro e
    rw [e] at hlt
    unfold SerialLt at hlt
    omega
  unfold insertTxn
  rw [hneed]
  clear hneed
  rcases hi with ⟨h0, hfile⟩ | ⟨p1, p2, m, h, hv, hz⟩
  · left
    rw [h0, needFree_none]
    simp only [Res.bind_ok]
    by_cases hn : need = 0
    · rw [if_pos hn]
      simp only [Bool.false_eq_true, false_and, if_false, Journal.get, Option.isSome_none, Res.bind_ok]
      refine ⟨_, rfl, ⟨hsm, Or.inr ⟨[], [(ch.from_, entry cfg ch)], none, ?_, ?_, ?_⟩⟩, ?_, ?_, ?_⟩
      · refine ⟨?_, ?_, ?_, ?_, ?_, ?_, ?_, ?_, ?_, ?_, ?_, ?_⟩
        · simp [finish, afterInsert, upto, Linked]
        · simp only [finish, afterInsert, upto, if_true]
          exact ⟨rfl, hlt, rfl⟩
        · simp [finish, afterInsert, nodes, entry]
          exact Ne.symm hneq
        · simp only [finish, afterInsert, nodes, entry]
          intro s hs
          simp at hs
          rcases hs with e | e
          · rw [e, hf]; exact hc
          · rw [e]; exact hsm
        · simp [finish, afterInsert]
        · simp [finish, afterInsert]
        · simp
        · refine ⟨by simp [mlist], fun k => ?_⟩
          simp only [finish, get_put, mlist, entry]
          simp [Journal.get, eq_comm]
        · intro p hp
          simp at hp
          rw [hp]; exact hl.size _
        · simp [finish, afterInsert]
        · simp [finish, afterInsert]
        · simp only [Tail, finish, afterInsert, if_true]
          refine ⟨[], [(ch.from_, entry cfg ch)], rfl, ?_, ?_, ?_, fun _ => rfl⟩
          · rw [hfile]; exact hf
          · rw [hfile, ← hf]; exact ⟨rfl, hlt, rfl⟩
          · rw [hfile]; rfl
      · simp [finish, afterInsert]
      · simp
      · simp [finish, afterInsert]; omega
      · simp [finish, afterInsert]
      · simp [finish, h0]
    · rw [if_neg hn]
      exact ⟨_, rfl, h0.symm, Or.inr (Nat.pos_of_ne_zero hn)⟩
  · have ho := h.old_reads hv
    have hcount := h.count
    simp only [List.length_append] at hcount
    have hlen := h.stores.length_le
    simp only [List.length_append] at hlen
    have hfu : p1.length + (if p2 = [] then 0 else p2.length + 1) < w.db.chs.length + 5 := by
      split <;> omega
    unfold fixOccupation
    rcases fixLoop_spec hl (w.db.chs.length + 5) (need)
      (w.db.md.count - (cfg.maxDepth - 1)) w.db p1 p2 m h ho hfu with ⟨t, t1, t2⟩ | ⟨t1, t2, t3⟩
    · rw [t1]
      simp only [Res.bind_ok]
      cases t with
      | fail e =>
        left
        refine ⟨_, rfl, ?_⟩
        obtain ⟨e1, e2⟩ := t2
        subst e1
        refine ⟨rfl, Or.inr (e2 ?_)⟩
        split
        · omega
        · rename_i hp
          have := List.length_pos_iff.mpr hp
          omega
      | busy db' =>
        left
        obtain ⟨a1, a2, a3, p1', p2', a4, a5, a6, a7⟩ := t2
        refine ⟨_, rfl, a1, ⟨hc, Or.inr ⟨p1', p2', none, a4, a3, fun _ => a5⟩⟩, a2, a3, ⟨p1', p2', a4, a6⟩, ?_⟩
        rintro ⟨q, m', hq⟩
        exact a7 (h.upto_iff.mp (hq.upto_iff.mpr rfl))
      | run db' =>
        obtain ⟨p1', p2', m', a1, a2, a3, a4, a5, a6⟩ := t2
        simp only
        have hfs : db'.md.serialTo = ch.from_ := by rw [hf, a1.last]
        rw [if_neg (by simp [hfs])]
        simp only [hfs, ne_eq, not_true_eq_false, and_false, if_false]
        -- the merged changeset does not start where the new one leads to
        have hmg : ∀ {d : Db Z D} {q1 q2 : Ents D} {mm : Option (Entry D)}, Work cfg d w.file w.cur q1 q2 mm →
            d.zij.isSome = w.db.zij.isSome → mm.isSome → ch.to ≠ d.md.merged := by
          intro d q1 q2 mm hw hzz hm
          have ht := hw.tail
          unfold Tail at ht
          cases hmm : mm with
          | none => rw [hmm] at hm; cases hm
          | some x =>
            rw [hmm] at ht
            cases hz' : d.zij with
            | some z => rw [hz'] at ht; exact ht.elim
            | none =>
              rw [hz'] at ht
              simp only at ht
              rw [← ht.2.1]
              refine hal ht.1 ?_
              rw [hz'] at hzz
              cases hwz : w.db.zij with
              | none => rfl
              | some z => rw [hwz] at hzz; cases hzz
        have hfin : ∀ {d : Db Z D} {q1 q2 : Ents D} {mm : Option (Entry D)}, Work cfg d w.file w.cur q1 q2 mm →
            d.zij.isSome = w.db.zij.isSome → d.md.count ≤ cfg.maxDepth - 1 → ch.to ∉ nodes d.md.first (q1 ++ q2) →
            Ends cfg need w ch (∃ p1 m, Work cfg w.db w.file w.cur p1 [] m) (finish w.db (.run { d with
              md := afterInsert d.md ch.from_ ch.to, chs := put d.chs ch.from_ ⟨ch.to, cfg.dsize ch.body, ch.body⟩ })) := by
          intro d q1 q2 mm hw hzz hcnt hnew
          obtain ⟨s1, s2⟩ := work_store hl hw hf hlt hsm hnew (hmg hw hzz)
          have hv' := s1.valid (by simp)
          refine ⟨⟨hsm, Or.inr ⟨_, _, _, s1, hv', fun _ => by simp⟩⟩, ?_, hv', hzz⟩
          have : (store cfg d ch).md.count = _ := s2
          simp only [store] at this
          simp only
          omega
        by_cases hg : (get db'.chs ch.to).isSome
        · rw [if_pos hg]
          have hcount' := a1.count
          simp only [List.length_append] at hcount'
          have hlen' := a1.stores.length_le
          simp only [List.length_append] at hlen'
          have hfu' : p1'.length + (if p2' = [] then 0 else p2'.length + 1) < db'.chs.length + 5 := by
            split <;> omega
          rcases fixLoop_spec hl (db'.chs.length + 5) 0 (db'.md.count - 1) db' p1' p2' m' a1 a2 hfu' with
            ⟨t, b1, b2⟩ | ⟨b1, b2, b3⟩
          · rw [b1]
            left
            simp only [Res.bind_ok]
            cases t with
            | fail e =>
              exfalso
              have := b2.2 (by
                split
                · omega
                · rename_i hp
                  have := List.length_pos_iff.mpr hp
                  omega)
              omega
            | busy d =>
              obtain ⟨c1, c2, c3, q1, q2, c4, c5, c6, c7⟩ := b2
              refine ⟨_, rfl, c1, ⟨hc, Or.inr ⟨q1, q2, none, c4, c3, fun _ => c5⟩⟩, c2.trans a4, c3, ⟨q1, q2, c4, c6⟩, ?_⟩
              rintro ⟨q, m', hq⟩
              exact c7 (a6 (h.upto_iff.mp (hq.upto_iff.mpr rfl)))
            | run d =>
              obtain ⟨q1, q2, mm, c1, c2, c3, c4, c5, c6⟩ := b2
              refine ⟨_, rfl, hfin c1 (c4.trans a4) (by omega) ?_⟩
              have hcc := c1.count
              have hlk := c1.link
              have hsmall := c1.small
              have hlast : d.md.serialTo = ch.from_ := by rw [hf, c1.last]
              rw [hlast] at hlk
              cases hp : q1 ++ q2 with
              | nil =>
                rw [hp] at hlk
                have : d.md.first = ch.from_ := hlk
                simp [nodes, this, hneq]
              | cons x l =>
                rw [hp] at hcc hlk hsmall
                have hlnil : l = [] := by
                  cases l with
                  | nil => rfl
                  | cons y l => simp only [List.length_cons] at hcc; omega
                subst hlnil
                obtain ⟨k, e⟩ := x
                obtain ⟨k1, k2, k3⟩ := hlk
                have k3 : e.to = ch.from_ := k3
                simp only [nodes, List.map_cons, List.map_nil, List.mem_cons, List.not_mem_nil, or_false, not_or]
                refine ⟨fun q => ?_, by rw [k3]; exact hneq⟩
                rw [k3] at k2
                rw [← q] at k2
                exact serialLt_asymm hsm (by rw [hf]; exact hc) k2 hlt
          · right
            rw [b1]
            exact ⟨rfl, b2, by rw [← a4]; exact b3⟩
        · rw [if_neg hg]
          left
          simp only [Res.bind_ok]
          refine ⟨_, rfl, hfin a1 a4 (by omega) ?_⟩
          have hnone : get db'.chs ch.to = none := by
            cases hx : get db'.chs ch.to with
            | none => rfl
            | some x => rw [hx] at hg; exact absurd rfl hg
          rw [linked_keys a1.link, List.mem_append, not_or]
          refine ⟨((a1.get_iff _).mp hnone).1, ?_⟩
          simp only [List.mem_cons, List.not_mem_nil, or_false]
          rw [hfs]; exact hneq
    · right
      rw [t1]
      exact ⟨rfl, t2, t3⟩

end Knot.Journal
