import Verif.Timers.Spec
import Verif.Lmdb.Props
/-!
# C34: zone timers survive a restart
-/
namespace Knot.Timers
open WireCtx Lmdb

theorem apply_timer (t : Timers) (id v : Nat) (h : id ≠ 0x8b) :
    TItem.apply t (.timer id v) = setTimer t id v := by
  unfold setTimer
  by_cases h0 : id = 0x80; · subst h0; rfl
  by_cases h1 : id = 0x81; · subst h1; rfl
  by_cases h2 : id = 0x82; · subst h2; rfl
  by_cases h3 : id = 0x83; · subst h3; rfl
  by_cases h4 : id = 0x89; · subst h4; rfl
  by_cases h5 : id = 0x88; · subst h5; rfl
  by_cases h6 : id = 0x85; · subst h6; rfl
  by_cases h7 : id = 0x86; · subst h7; rfl
  by_cases h8 : id = 0x87; · subst h8; rfl
  by_cases h9 : id = 0x8a; · subst h9; rfl
  by_cases h10 : id = 0x8c; · subst h10; rfl
  simp only [*, if_false]
  unfold TItem.apply
  split <;> simp_all

theorem read_midR (pre d post r : Bytes) :
    WireCtx.read (midR pre (d ++ post) r) d.length = .ok (d, midR (pre ++ d) post r) := by
  unfold WireCtx.read midR
  simp only [ne_eq, not_true_eq_false, if_false, canRead, available]
  rw [if_neg (by simp)]
  simp only
  rw [load_ok _ _ _ (by simp), List.drop_left]
  have : (d ++ post ++ r).take d.length = d := by rw [List.append_assoc, List.take_left]
  simp only [Res.bind_ok, this]
  simp [Nat.add_assoc]

theorem loop_item (i : TItem) (hi : i.Legal) (fuel : Nat) (pre post : Bytes) (t : Timers) :
    loop (fuel + 1) (midR pre (i.stored ++ post) []) t =
      loop fuel (midR (pre ++ i.stored) post []) (i.apply t) := by
  cases i with
  | timer id v =>
    obtain ⟨h1, h2, h3⟩ := hi
    simp only [loop]
    have hid : (UInt8.ofNat id).toNat = id := Dname.ofNat_toNat h1
    rw [if_pos (by simp [midR, TItem.stored, available, length_bigEndian])]
    have e1 := readU_midR pre [UInt8.ofNat id] (bigEndian 8 v ++ post) []
    have e2 := readU_midR (pre ++ [UInt8.ofNat id]) (bigEndian 8 v) post []
    rw [length_bigEndian, beVal_bigEndian (by simpa using h3)] at e2
    simp only [List.length_singleton, List.singleton_append, beVal, List.length_nil, Nat.pow_zero,
      Nat.mul_one, Nat.add_zero, hid] at e1
    simp only [TItem.stored, List.cons_append]
    rw [e1]
    simp only [h2, if_false]
    rw [e2]
    simp only
    rw [apply_timer t id v h2]
    simp
  | master a =>
    have ha : a.length = 28 := hi
    simp only [loop]
    rw [if_pos (by simp [midR, TItem.stored, available]; omega)]
    have e1 := readU_midR pre [0x8b] (a ++ post) []
    have e2 := read_midR (pre ++ [0x8b]) a post []
    rw [ha] at e2
    simp only [List.length_singleton, List.singleton_append, beVal, List.length_nil, Nat.pow_zero,
      Nat.mul_one, Nat.add_zero] at e1
    simp only [TItem.stored, List.cons_append]
    rw [e1]
    simp only
    rw [if_pos (show (139 : UInt8).toNat = 0x8b from rfl), e2]
    simp [TItem.apply]

theorem loop_items (is : List TItem) (hi : ∀ i ∈ is, i.Legal) (fuel : Nat) (pre post : Bytes) (t : Timers) :
    loop (fuel + is.length) (midR pre (is.flatMap TItem.stored ++ post) []) t =
      loop fuel (midR (pre ++ is.flatMap TItem.stored) post []) (is.foldl TItem.apply t) := by
  induction is generalizing pre t with
  | nil => simp
  | cons i is ih =>
    simp only [List.flatMap_cons, List.append_assoc, List.length_cons, List.foldl_cons]
    rw [show fuel + (is.length + 1) = (fuel + is.length) + 1 by omega,
      loop_item i (hi i (by simp)), ih (fun j hj => hi j (by simp [hj]))]
    simp

theorem initConst_midR (d : Bytes) : initConst d d.length = midR [] d [] := by
  simp [initConst, init, midR]

/-- Any octets are some items followed by too little for another one. -/
theorem split_items (d : Bytes) : ∃ (is : List TItem) (rest : Bytes), (∀ i ∈ is, i.Legal) ∧
    d = is.flatMap TItem.stored ++ rest ∧
    (rest.length ≤ 8 ∨ ∃ a, rest = 0x8b :: a ∧ 8 ≤ a.length ∧ a.length < 28) := by
  generalize hn : d.length = n
  induction n using Nat.strongRecOn generalizing d with
  | _ n ih =>
    by_cases h8 : d.length ≤ 8
    · exact ⟨[], d, by simp, by simp, .inl h8⟩
    · cases d with
      | nil => simp at h8
      | cons b d =>
        simp only [List.length_cons] at h8 hn
        by_cases hb : b = 0x8b
        · subst hb
          by_cases h28 : d.length < 28
          · exact ⟨[], 0x8b :: d, by simp, by simp, .inr ⟨d, rfl, by omega, h28⟩⟩
          · obtain ⟨is, rest, h1, h2, h3⟩ := ih (d.drop 28).length (by simp; omega) (d.drop 28) rfl
            refine ⟨.master (d.take 28) :: is, rest, ?_, ?_, h3⟩
            · intro i hi
              rcases List.mem_cons.mp hi with rfl | hi
              · simp [TItem.Legal]; omega
              · exact h1 i hi
            · simp only [List.flatMap_cons, TItem.stored, List.cons_append, List.append_assoc, ← h2,
                List.take_append_drop]
        · obtain ⟨is, rest, h1, h2, h3⟩ := ih (d.drop 8).length (by simp; omega) (d.drop 8) rfl
          have hlen : (d.take 8).length = 8 := by simp; omega
          refine ⟨.timer b.toNat (beVal (d.take 8)) :: is, rest, ?_, ?_, h3⟩
          · intro i hi
            rcases List.mem_cons.mp hi with rfl | hi
            · refine ⟨b.toNat_lt, fun e => hb (Dname.byte_eq e), ?_⟩
              have hlt : ∀ x : Bytes, beVal x < 256 ^ x.length := by
                intro x; induction x with
                | nil => simp [beVal]
                | cons c x ih =>
                  simp only [beVal, List.length_cons, Nat.pow_succ]
                  have := c.toNat_lt
                  have h : c.toNat * 256 ^ x.length ≤ 255 * 256 ^ x.length :=
                    Nat.mul_le_mul_right _ (by omega)
                  omega
              have := hlt (d.take 8)
              rw [hlen] at this
              exact this
            · exact h1 i hi
          · have hbe : ∀ x : Bytes, beBytes x.length (beVal x) = x := by
              intro x; induction x with
              | nil => rfl
              | cons c x ih =>
                have hlt : ∀ x : Bytes, beVal x < 256 ^ x.length := by
                  intro x; induction x with
                  | nil => simp [beVal]
                  | cons c x ih =>
                    simp only [beVal, List.length_cons, Nat.pow_succ]
                    have := c.toNat_lt
                    have h : c.toNat * 256 ^ x.length ≤ 255 * 256 ^ x.length :=
                      Nat.mul_le_mul_right _ (by omega)
                    omega
                simp only [List.length_cons, beBytes, beVal]
                have hx := hlt x
                have hp : 0 < 256 ^ x.length := Nat.pow_pos (by omega)
                congr 1
                · rw [Nat.add_comm, Nat.add_mul_div_right _ _ hp, Nat.div_eq_of_lt hx, Nat.zero_add,
                    Nat.mod_eq_of_lt c.toNat_lt]
                  simp
                · rw [← beBytes_mod x.length _ x.length (Nat.le_refl _), Nat.add_comm,
                    Nat.add_mul_mod_self_right, Nat.mod_eq_of_lt hx, ih]
            simp only [List.flatMap_cons, TItem.stored, List.cons_append, List.append_assoc, ← h2]
            rw [bigEndian_eq]
            have h8' := hbe (d.take 8)
            rw [hlen] at h8'
            rw [h8', List.take_append_drop]
            simp

/-- Once an error is set no round consumes anything. -/
theorem loop_stuck (fuel : Nat) (c : Ctx) (t : Timers) (he : c.error ≠ none) (ha : 9 ≤ available c) :
    loop fuel c t = none := by
  induction fuel generalizing t with
  | zero => rfl
  | succ fuel ih =>
    simp only [loop]
    rw [if_pos ha]
    have h1 : readU c 1 = .ok (0, c) := by simp [readU, WireCtx.read, he, beVal]
    have h8 : readU c 8 = .ok (0, c) := by simp [readU, WireCtx.read, he, beVal, List.replicate]
    rw [h1]
    simp only
    rw [if_neg (by omega), h8]
    exact ih _

end Knot.Timers

namespace Knot
open Timers Lmdb WireCtx

/-- C34. A record made of any items in any order means those items one after another: later items
win and unknown ones change nothing. -/
theorem C34_items (is : List TItem) (hi : ∀ i ∈ is, i.Legal) :
    ∃ fuel, deserialize fuel (is.flatMap TItem.stored) = some (.ok (is.foldl TItem.apply {})) := by
  refine ⟨1 + is.length, ?_⟩
  unfold deserialize
  rw [initConst_midR]
  have h := loop_items is hi 1 [] [] {}
  rw [List.append_nil] at h
  rw [h]
  simp [loop, midR, available, finish]

/-- A failed read of the address: the reader is at an identifier with too little behind it. -/
theorem Timers.loop_short (fuel : Nat) (pre a : List UInt8) (t : Timers) (h8 : 8 ≤ a.length)
    (h28 : a.length < 28) :
    loop (fuel + 1) (midR pre (0x8b :: a) []) t =
      loop fuel { midR (pre ++ [0x8b]) a [] with error := some .efewdata }
        { t with lastMaster := List.replicate 28 0 } := by
  simp only [loop]
  rw [if_pos (by simp [midR, available]; omega)]
  have e1 := readU_midR pre [0x8b] a []
  simp only [List.length_singleton, List.singleton_append, beVal, List.length_nil, Nat.pow_zero,
    Nat.mul_one, Nat.add_zero] at e1
  rw [e1]
  simp only
  rw [if_pos (show (139 : UInt8).toNat = 0x8b from rfl)]
  have e2 : WireCtx.read (midR (pre ++ [139]) a []) 28 =
      .ok (List.replicate 28 0, { midR (pre ++ [0x8b]) a [] with error := some .efewdata }) := by
    unfold WireCtx.read
    rw [if_neg (by simp [midR])]
    have : canRead (midR (pre ++ [139]) a []) 28 = some .efewdata := by
      have hav : available (midR (pre ++ [139]) a []) < 28 := by simp [midR, available]; omega
      show (if available (midR (pre ++ [139]) a []) < 28 then some Err.efewdata else none) = _
      rw [if_pos hav]
    rw [this]
  rw [e2]

/-- C34. Any octets at all are either a sequence of items (see `C34_items`), or items with a
remainder, which is an error, or (finding) items followed by a shortened address, on which the
reader loops forever. -/
theorem C34_malformed (d : List UInt8) :
    (∃ is : List TItem, (∀ i ∈ is, i.Legal) ∧ d = is.flatMap TItem.stored) ∨
    (∃ fuel, deserialize fuel d = some (.err .emalf)) ∨
    (∃ (is : List TItem) (a : List UInt8), (∀ i ∈ is, i.Legal) ∧
      d = is.flatMap TItem.stored ++ 0x8b :: a ∧ 9 ≤ a.length ∧ a.length < 28) := by
  obtain ⟨is, rest, h1, rfl, h3⟩ := split_items d
  rcases h3 with h3 | ⟨a, rfl, h8, h28⟩
  · by_cases hr : rest = []
    · subst hr; exact .inl ⟨is, h1, by simp⟩
    · refine .inr (.inl ⟨1 + is.length, ?_⟩)
      unfold deserialize
      rw [initConst_midR]
      have h := loop_items is h1 1 [] rest {}
      rw [h]
      have hp := List.length_pos_iff.mpr hr
      have hl : ∀ t, loop 1 (midR ([] ++ is.flatMap TItem.stored) rest []) t =
          some (.ok (midR ([] ++ is.flatMap TItem.stored) rest [], t)) := by
        intro t
        simp only [loop]
        rw [if_neg (by simp [midR, available]; omega)]
      rw [hl]
      simp only [finish]
      rw [if_pos (by simp [midR, available]; omega)]
  · by_cases h9 : 9 ≤ a.length
    · exact .inr (.inr ⟨is, a, h1, rfl, h9, h28⟩)
    · refine .inr (.inl ⟨2 + is.length, ?_⟩)
      unfold deserialize
      rw [initConst_midR, loop_items is h1 2 [] (0x8b :: a) {}, loop_short 1 _ a _ h8 h28]
      have hav : available { midR ([] ++ is.flatMap TItem.stored ++ [0x8b]) a [] with
          error := some Err.efewdata } = a.length := by simp [midR, available]
      rw [loop, if_neg (by rw [hav]; omega)]
      simp only [finish]
      rw [if_pos (by rw [hav]; omega)]

/-- C34 (finding). On a record with a shortened address the reader does not stop, whatever the
number of rounds. -/
theorem C34_endless (is : List TItem) (hi : ∀ i ∈ is, i.Legal) (a : List UInt8) (h9 : 9 ≤ a.length)
    (h28 : a.length < 28) (fuel : Nat) :
    deserialize fuel (is.flatMap TItem.stored ++ 0x8b :: a) = none := by
  have mono : ∀ fuel c t, loop (fuel + 1) c t = none → loop fuel c t = none := by
    intro fuel
    induction fuel with
    | zero => intro c t _; rfl
    | succ fuel ih =>
      intro c t h
      rw [loop] at h ⊢
      split at h
      · rename_i hav
        rw [if_pos hav]
        split at h
        · rename_i id c1 hr
          split at h
          · rename_i hid
            rw [if_pos hid]
            split at h
            · rename_i d c2 hr2; exact ih _ _ h
            · cases h
            · cases h
          · rename_i hid
            rw [if_neg hid]
            split at h
            · rename_i d c2 hr2; exact ih _ _ h
            · cases h
            · cases h
        · cases h
        · cases h
      · cases h
  have mono' : ∀ k fuel c t, loop (fuel + k) c t = none → loop fuel c t = none := by
    intro k
    induction k with
    | zero => intro fuel c t h; exact h
    | succ k ih => intro fuel c t h; exact ih _ _ _ (mono _ _ _ h)
  have hz : loop fuel (midR [] (is.flatMap TItem.stored ++ 0x8b :: a) []) {} = none := by
    apply mono' (1 + is.length)
    rw [show fuel + (1 + is.length) = (fuel + 1) + is.length by omega, loop_items is hi,
      loop_short _ _ _ _ (by omega) h28]
    exact loop_stuck _ _ _ (by simp) (by simp [midR, available]; omega)
  unfold deserialize
  rw [initConst_midR, hz]

/-- The items a record is composed of when timers are written. -/
def Timers.timerItems (t : Timers) : List TItem :=
  [.timer 0x81 t.lastFlush, .timer 0x83 t.nextRefresh, .timer 0x89 (if t.lastRefreshOk then 1 else 0),
   .timer 0x88 t.lastNotifiedSerial, .timer 0x85 t.nextDsCheck, .timer 0x86 t.nextDsPush,
   .timer 0x87 t.catalogMember, .timer 0x8a t.nextExpire]

theorem Timers.serialize_eq (t : Timers) (ht : t.Legal) :
    ∃ is : List TItem, (∀ i ∈ is, i.Legal) ∧ serialize t = .ok (is.flatMap TItem.stored) ∧
      is.foldl TItem.apply {} = t.persistent := by
  obtain ⟨h1, h2, h3, h4, h5, h6, h7, h8, h9, h10, h11⟩ := ht
  have hok : (if t.lastRefreshOk then 1 else 0) < 2 ^ 64 := by split <;> decide
  have hbase : ∀ i ∈ (timerItems t), i.Legal := by
    intro i hi
    simp only [timerItems, List.mem_cons, List.not_mem_nil, or_false] at hi
    rcases hi with rfl | rfl | rfl | rfl | rfl | rfl | rfl | rfl <;>
      exact ⟨by decide, by decide, by assumption⟩
  have h1' : ∀ v : Nat, bigEndian 1 v = [UInt8.ofNat (v % 256)] := fun v => rfl
  unfold serialize
  simp only
  by_cases hf : family t.lastMaster = 2 ∨ family t.lastMaster = 10
  · rw [if_pos hf]
    refine ⟨timerItems t ++ [.master t.lastMaster, .timer 0x8c t.masterPinHit], ?_, ?_, ?_⟩
    · intro i hi
      rcases List.mem_append.mp hi with hi | hi
      · exact hbase i hi
      · simp only [List.mem_cons, List.not_mem_nil, or_false] at hi
        rcases hi with rfl | rfl
        · exact h10
        · exact ⟨by decide, by decide, h11⟩
    · rw [makeKey_eq (is := [.num 1 0x81, .num 8 t.lastFlush, .num 1 0x83, .num 8 t.nextRefresh, .num 1 0x89,
        .num 8 (if t.lastRefreshOk then 1 else 0), .num 1 0x88, .num 8 t.lastNotifiedSerial, .num 1 0x85,
        .num 8 t.nextDsCheck, .num 1 0x86, .num 8 t.nextDsPush, .num 1 0x87, .num 8 t.catalogMember, .num 1 0x8a,
        .num 8 t.nextExpire, .num 1 0x8b, .octets t.lastMaster, .num 1 0x8c, .num 8 t.masterPinHit])]
      · simp [stored, timerItems, Item.stored, TItem.stored, h1']
      · exact ⟨.b, .l, .b, .l, .b, .l, .b, .l, .b, .l, .b, .l, .b, .l, .b, .l, .b, .d, .b, .l, trivial⟩
      · intro i hi
        simp only [List.mem_cons, List.not_mem_nil, or_false] at hi
        rcases hi with rfl | rfl | rfl | rfl | rfl | rfl | rfl | rfl | rfl | rfl | rfl | rfl | rfl | rfl |
          rfl | rfl | rfl | rfl | rfl | rfl <;>
          first
          | exact ⟨by decide, by decide⟩
          | exact ⟨by decide, by assumption⟩
          | trivial
    · unfold Timers.persistent
      rw [if_pos hf]
      cases hb : t.lastRefreshOk <;> simp [timerItems, TItem.apply, hb]
  · rw [if_neg hf]
    refine ⟨(timerItems t), hbase, ?_, ?_⟩
    · rw [makeKey_eq (is := [.num 1 0x81, .num 8 t.lastFlush, .num 1 0x83, .num 8 t.nextRefresh, .num 1 0x89,
        .num 8 (if t.lastRefreshOk then 1 else 0), .num 1 0x88, .num 8 t.lastNotifiedSerial, .num 1 0x85,
        .num 8 t.nextDsCheck, .num 1 0x86, .num 8 t.nextDsPush, .num 1 0x87, .num 8 t.catalogMember, .num 1 0x8a,
        .num 8 t.nextExpire])]
      · simp [stored, timerItems, Item.stored, TItem.stored, h1']
      · exact ⟨.b, .l, .b, .l, .b, .l, .b, .l, .b, .l, .b, .l, .b, .l, .b, .l, trivial⟩
      · intro i hi
        simp only [List.mem_cons, List.not_mem_nil, or_false] at hi
        rcases hi with rfl | rfl | rfl | rfl | rfl | rfl | rfl | rfl | rfl | rfl | rfl | rfl | rfl | rfl |
          rfl | rfl <;>
          first
          | exact ⟨by decide, by decide⟩
          | exact ⟨by decide, by assumption⟩
    · unfold Timers.persistent
      rw [if_neg hf]
      cases hb : t.lastRefreshOk <;> simp [timerItems, TItem.apply, hb]

theorem Timers.compat_persistent (t : Timers) : compat t.persistent = t.persistent := by
  unfold compat Timers.persistent
  split <;> split <;> simp_all

theorem Timers.writeTimers_eq (db : Db) (z : Dname.Name) (hz : Dname.Valid z) (r : List UInt8)
    (t : Timers) (ht : t.Legal) :
    ∃ v, writeTimers db (Dname.wire z ++ r) t = .ok (db.put (Dname.wire z) v) ∧
      ∃ fuel, deserialize fuel v = some (.ok t.persistent) := by
  obtain ⟨is, h1, h2, h3⟩ := Timers.serialize_eq t ht
  obtain ⟨fuel, h4⟩ := C34_items is h1
  refine ⟨is.flatMap TItem.stored, ?_, fuel, by rw [h4, h3]⟩
  unfold writeTimers
  rw [Dname.size_wire _ hz.1]
  simp only [Res.bind_ok, fetch]
  rw [if_pos (by simp [Dname.wire_length]), List.take_left' (Dname.wire_length z), h2]
  rfl

theorem Timers.readTimers_eq {db : Db} {z : Dname.Name} (hz : Dname.Valid z) {v : List UInt8}
    {t : Timers} {fuel : Nat} (hv : db (Dname.wire z) = some v)
    (hd : deserialize fuel v = some (.ok t)) (r : List UInt8) (old : Timers) :
    readTimers fuel db (Dname.wire z ++ r) old = some (.ok (compat t, true)) := by
  unfold readTimers
  rw [Dname.size_wire _ hz.1]
  simp only [fetch]
  rw [if_pos (by simp [Dname.wire_length]), List.take_left' (Dname.wire_length z)]
  simp only [hv, hd]

/-- C34. Timers written for all the zones of a server (each zone once) are read back for each of
them after a restart, whatever the database contained before; records of other zones stay. -/
theorem C34_restart (db : Db) (zs : List (Dname.Name × Timers))
    (hv : ∀ p ∈ zs, Dname.Valid p.1 ∧ p.2.Legal) (hd : (zs.map Prod.fst).Nodup) :
    ∃ db', writeAll db (zs.map fun p => (Dname.wire p.1, p.2)) = .ok db' ∧
      (∀ p ∈ zs, ∀ old, ∃ fuel,
        readTimers fuel db' (Dname.wire p.1) old = some (.ok (p.2.persistent, true))) ∧
      (∀ z, Dname.Valid z → z ∉ zs.map Prod.fst → db' (Dname.wire z) = db (Dname.wire z)) := by
  induction zs generalizing db with
  | nil => exact ⟨db, rfl, by simp, fun _ _ _ => rfl⟩
  | cons p zs ih =>
    obtain ⟨hz, ht⟩ := hv p (by simp)
    obtain ⟨v, h1, fuel, h2⟩ := Timers.writeTimers_eq db p.1 hz [] p.2 ht
    rw [List.append_nil] at h1
    simp only [List.map_cons, List.nodup_cons] at hd
    obtain ⟨db', h3, h4, h5⟩ := ih (db.put (Dname.wire p.1) v) (fun q hq => hv q (by simp [hq])) hd.2
    refine ⟨db', ?_, ?_, ?_⟩
    · simp only [List.map_cons, writeAll]
      rw [h1]; exact h3
    · intro q hq old
      rcases List.mem_cons.mp hq with rfl | hq
      · refine ⟨fuel, ?_⟩
        have hdb : db' (Dname.wire q.1) = some v := by
          rw [h5 q.1 hz hd.1]; simp [Db.put]
        have := Timers.readTimers_eq hz hdb h2 [] old
        rw [List.append_nil, Timers.compat_persistent] at this
        exact this
      · exact h4 q hq old
    · intro z hvz hnz
      simp only [List.map_cons, List.mem_cons, not_or] at hnz
      rw [h5 z hvz hnz.2]
      simp only [Db.put]
      rw [if_neg]
      intro e
      exact hnz.1 (Dname.wire_inj (r := []) (s := []) hvz.1 hz.1 (by rw [e]))

/-- C34. The last notified serial is found to be the given one iff it was stored as valid. -/
theorem C34_notified (t : Timers) (v s : Nat) (hv : v < 2 ^ 32) (hs : s < 2 ^ 32) :
    (serialNotified { t with lastNotifiedSerial := 2 ^ 32 + v } s = decide (v = s)) ∧
    serialNotified { t with lastNotifiedSerial := v } s = false := by
  simp only [serialNotified, decide_eq_decide, decide_eq_false_iff_not]
  omega

/-- C34. Reading a zone's timers from a record of any items, e.g. written by an older version:
the meaning of the items, and if the record has the time of the last refresh but not that of
expiration, the zone expires by the SOA timer after the last refresh. -/
theorem C34_old_record (db : Db) (z : Dname.Name) (hz : Dname.Valid z) (is : List TItem)
    (hi : ∀ i ∈ is, i.Legal) (hdb : db (Dname.wire z) = some (is.flatMap TItem.stored)) (old : Timers) :
    let t := is.foldl TItem.apply {}
    ∃ fuel, readTimers fuel db (Dname.wire z) old = some (.ok (
      if t.nextExpire = 0 ∧ 0 < t.lastRefresh ∧ t.lastRefresh < 2 ^ 63 then
        { t with nextExpire := (t.lastRefresh + t.soaExpire) % 2 ^ 64 }
      else t, true)) := by
  obtain ⟨fuel, h⟩ := C34_items is hi
  refine ⟨fuel, ?_⟩
  have := Timers.readTimers_eq hz hdb h [] old
  rw [List.append_nil] at this
  exact this

/-- C34. A malformed record is as good as none: the timers of the zone stay as they were. -/
theorem C34_bad_record (db : Db) (z : Dname.Name) (hz : Dname.Valid z) (v : List UInt8) (fuel : Nat)
    (hdb : db (Dname.wire z) = some v) (hv : deserialize fuel v = some (.err .emalf)) (old : Timers)
    (hold : old.nextExpire ≠ 0 ∨ old.lastRefresh = 0) :
    readTimers fuel db (Dname.wire z) old = some (.ok (old, true)) ∧
    readTimers fuel (fun _ => none) (Dname.wire z) old = some (.ok (old, false)) := by
  have hc : compat old = old := by unfold compat; rw [if_neg (by omega)]
  have hs := Dname.size_wire (ls := z) [] hz.1
  rw [List.append_nil] at hs
  constructor <;>
  · unfold readTimers
    rw [hs]
    simp only [fetch]
    rw [if_pos (by simp [Dname.wire_length]), List.take_of_length_le (by simp [Dname.wire_length])]
    simp [hdb, hv, hc]

/-- C34. Sweeping the database keeps the records of the zones kept and no others. -/
theorem C34_sweep (db : Db) (keep : List UInt8 → Bool) (k : List UInt8) (v : List UInt8) :
    sweep db keep k = some v ↔ db k = some v ∧ keep k = true := by
  unfold sweep
  cases h : keep k <;> simp

/-- A record of an older version. -/
example : ∀ i ∈ ([.timer 0x80 100, .timer 0x82 5, .timer 0xff 9] : List TItem), i.Legal := by
  intro i hi
  simp only [List.mem_cons, List.not_mem_nil, or_false] at hi
  rcases hi with rfl | rfl | rfl <;> exact ⟨by decide, by decide, by decide⟩

/-- A record with all kinds of values. -/
example : (⟨0, 5, 0, 2 ^ 64 - 1, true, 2 ^ 32, 0, 0, 0, 0, 10 :: List.replicate 27 0, 9⟩ : Timers).Legal := by
  unfold Timers.Legal; decide

end Knot
