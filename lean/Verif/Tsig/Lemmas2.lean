import Verif.Tsig.Lemmas
/-!
# TSIG: values of fields
-/
namespace Knot.Tsig
open Dname (Name wire Valid lowerName nameLen)
open WireCtx (Ctx beBytes beVal load store)

variable {a : Name} {time fudge mac id err tail : Bytes}

theorem get_time (h : Shape a time fudge mac id err tail) :
    get (shape (wire a) time fudge mac id err tail) .time 6 = .ok (beVal time) := by
  unfold get
  simp only [seek_time h (show 6 ≤ 14 by omega), Res.bind_ok]
  rw [show shape (wire a) time fudge mac id err tail = wire a ++ time ++ (fudge ++ beBytes 2 mac.length ++ mac ++ id ++ err ++ tail) by
    simp [shape, List.append_assoc], load_mid _ _ _ rfl h.time.symm]
  rfl

theorem get_fudge (h : Shape a time fudge mac id err tail) :
    get (shape (wire a) time fudge mac id err tail) .fudge 2 = .ok (beVal fudge) := by
  unfold get
  simp only [seek_fudge h (show 2 ≤ 8 by omega), Res.bind_ok]
  rw [show shape (wire a) time fudge mac id err tail = (wire a ++ time) ++ fudge ++ (beBytes 2 mac.length ++ mac ++ id ++ err ++ tail) by
    simp [shape, List.append_assoc], load_mid _ _ _ (by simp [h.time]) h.fudge.symm]
  rfl

theorem get_macLen (h : Shape a time fudge mac id err tail) :
    get (shape (wire a) time fudge mac id err tail) .macLen 2 = .ok mac.length := by
  unfold get
  simp only [seek_macLen h (show 2 ≤ 6 by omega), Res.bind_ok]
  rw [show shape (wire a) time fudge mac id err tail = (wire a ++ time ++ fudge) ++ beBytes 2 mac.length ++ (mac ++ id ++ err ++ tail) by
    simp [shape, List.append_assoc], load_mid _ _ _ (by simp [h.time, h.fudge]) (by simp [beBytes_length])]
  simp only [Res.bind_ok, beVal_beBytes]
  rw [Nat.mod_eq_of_lt (by have := h.mac; omega)]

theorem load_mac (h : Shape a time fudge mac id err tail) :
    load (shape (wire a) time fudge mac id err tail) ((wire a).length + 10) mac.length = .ok mac := by
  rw [show shape (wire a) time fudge mac id err tail = (wire a ++ time ++ fudge ++ beBytes 2 mac.length) ++ mac ++ (id ++ err ++ tail) by
    simp [shape, List.append_assoc], load_mid _ _ _ (by simp [h.time, h.fudge, beBytes_length]) rfl]

theorem get_origId (h : Shape a time fudge mac id err tail) :
    get (shape (wire a) time fudge mac id err tail) .origId 2 = .ok (beVal id) := by
  unfold get
  simp only [seek_origId h (show 2 ≤ 4 by omega), Res.bind_ok]
  rw [show shape (wire a) time fudge mac id err tail = (wire a ++ time ++ fudge ++ beBytes 2 mac.length ++ mac) ++ id ++ (err ++ tail) by
    simp [shape, List.append_assoc], load_mid _ _ _ (by simp [h.time, h.fudge, beBytes_length]; omega) h.id.symm]
  rfl

theorem get_error (h : Shape a time fudge mac id err tail) :
    get (shape (wire a) time fudge mac id err tail) .error 2 = .ok (beVal err) := by
  unfold get
  simp only [seek_error h (show 2 ≤ 2 by omega), Res.bind_ok]
  rw [show shape (wire a) time fudge mac id err tail = (wire a ++ time ++ fudge ++ beBytes 2 mac.length ++ mac ++ id) ++ err ++ tail by
    simp [shape, List.append_assoc], load_mid _ _ _ (by simp [h.time, h.fudge, h.id, beBytes_length]; omega) h.err.symm]
  rfl

theorem get_otherLen {n o : Bytes} (h : Shape a time fudge mac id err (n ++ o)) (hn : n.length = 2) :
    get (shape (wire a) time fudge mac id err (n ++ o)) .otherLen 2 = .ok (beVal n) := by
  unfold get
  simp only [seek_otherLen h h.tail, Res.bind_ok]
  rw [show shape (wire a) time fudge mac id err (n ++ o) = (wire a ++ time ++ fudge ++ beBytes 2 mac.length ++ mac ++ id ++ err) ++ n ++ o by
    simp [shape, List.append_assoc], load_mid _ _ _ (by simp [h.time, h.fudge, h.id, h.err, beBytes_length]; omega) hn.symm]
  rfl

theorem load_other {n o : Bytes} (h : Shape a time fudge mac id err (n ++ o)) (hn : n.length = 2) :
    load (shape (wire a) time fudge mac id err (n ++ o)) ((wire a).length + 16 + mac.length) o.length = .ok o := by
  have := load_mid (wire a ++ time ++ fudge ++ beBytes 2 mac.length ++ mac ++ id ++ err ++ n) o [] (p := (wire a).length + 16 + mac.length)
    (by simp [h.time, h.fudge, h.id, h.err, hn, beBytes_length]; omega) rfl
  simpa [shape, List.append_assoc] using this

/-! ## Setting -/

theorem set_time (h : Shape a time fudge mac id err tail) {d : Bytes} (hd : d.length = 6) :
    set (shape (wire a) time fudge mac id err tail) .time d = .ok (shape (wire a) d fudge mac id err tail) := by
  unfold set
  simp only [hd, seek_time h (show 6 ≤ 14 by omega), Res.bind_ok]
  rw [show shape (wire a) time fudge mac id err tail = wire a ++ time ++ (fudge ++ beBytes 2 mac.length ++ mac ++ id ++ err ++ tail) by
    simp [shape, List.append_assoc], store_mid _ _ _ _ rfl (by rw [hd, h.time])]
  simp [shape, List.append_assoc]

theorem set_fudge (h : Shape a time fudge mac id err tail) {d : Bytes} (hd : d.length = 2) :
    set (shape (wire a) time fudge mac id err tail) .fudge d = .ok (shape (wire a) time d mac id err tail) := by
  unfold set
  simp only [hd, seek_fudge h (show 2 ≤ 8 by omega), Res.bind_ok]
  rw [show shape (wire a) time fudge mac id err tail = (wire a ++ time) ++ fudge ++ (beBytes 2 mac.length ++ mac ++ id ++ err ++ tail) by
    simp [shape, List.append_assoc], store_mid _ _ _ _ (by simp [h.time]) (by rw [hd, h.fudge])]
  simp [shape, List.append_assoc]

theorem set_mac (h : Shape a time fudge mac id err tail) {d : Bytes} (hd : d.length = mac.length) :
    set (shape (wire a) time fudge mac id err tail) .mac d = .ok (shape (wire a) time fudge d id err tail) := by
  unfold set
  simp only [seek_mac h (show d.length ≤ mac.length by omega), Res.bind_ok]
  rw [show shape (wire a) time fudge mac id err tail = (wire a ++ time ++ fudge ++ beBytes 2 mac.length) ++ mac ++ (id ++ err ++ tail) by
    simp [shape, List.append_assoc], store_mid _ _ _ _ (by simp [h.time, h.fudge, beBytes_length]) hd]
  simp [shape, List.append_assoc, hd]

theorem set_origId (h : Shape a time fudge mac id err tail) {d : Bytes} (hd : d.length = 2) :
    set (shape (wire a) time fudge mac id err tail) .origId d = .ok (shape (wire a) time fudge mac d err tail) := by
  unfold set
  simp only [hd, seek_origId h (show 2 ≤ 4 by omega), Res.bind_ok]
  rw [show shape (wire a) time fudge mac id err tail = (wire a ++ time ++ fudge ++ beBytes 2 mac.length ++ mac) ++ id ++ (err ++ tail) by
    simp [shape, List.append_assoc], store_mid _ _ _ _ (by simp [h.time, h.fudge, beBytes_length]; omega) (by rw [hd, h.id])]
  simp [shape, List.append_assoc]

theorem set_error (h : Shape a time fudge mac id err tail) {d : Bytes} (hd : d.length = 2) :
    set (shape (wire a) time fudge mac id err tail) .error d = .ok (shape (wire a) time fudge mac id d tail) := by
  unfold set
  simp only [hd, seek_error h (show 2 ≤ 2 by omega), Res.bind_ok]
  rw [show shape (wire a) time fudge mac id err tail = (wire a ++ time ++ fudge ++ beBytes 2 mac.length ++ mac ++ id) ++ err ++ tail by
    simp [shape, List.append_assoc], store_mid _ _ _ _ (by simp [h.time, h.fudge, h.id, beBytes_length]; omega) (by rw [hd, h.err])]
  simp [shape, List.append_assoc]

theorem setOther_shape (h : Shape a time fudge mac id err tail) {d : Bytes} (hd : tail.length = 2 + d.length) (h6 : d.length ≤ 6) :
    setOther (shape (wire a) time fudge mac id err tail) d =
      .ok (shape (wire a) time fudge mac id err (beBytes 2 d.length ++ d)) := by
  unfold setOther
  rw [if_neg (by omega)]
  simp only [seek_otherLen h (show d.length + 2 ≤ tail.length by omega), Res.bind_ok]
  have e : tail = tail.take 2 ++ tail.drop 2 := (List.take_append_drop 2 tail).symm
  have e1 : shape (wire a) time fudge mac id err tail =
      (wire a ++ time ++ fudge ++ beBytes 2 mac.length ++ mac ++ id ++ err) ++ tail.take 2 ++ tail.drop 2 := by
    simp [shape, List.append_assoc]
  rw [e1, store_mid _ _ _ _ (by simp [h.time, h.fudge, h.id, h.err, beBytes_length]; omega) (by simp [beBytes_length]; omega)]
  simp only [Res.bind_ok]
  have := store_mid (wire a ++ time ++ fudge ++ beBytes 2 mac.length ++ mac ++ id ++ err ++ beBytes 2 d.length) (tail.drop 2) [] d
    (p := (wire a).length + 14 + mac.length + 2) (by simp [h.time, h.fudge, h.id, h.err, beBytes_length]; omega)
    (by simp; omega)
  simp only [List.append_nil] at this
  rw [this]
  simp [shape, List.append_assoc]

theorem createRdata_shape {n : Name} (hv : Valid n) {macLen : Nat} (hm : macLen < 65536) (er : Nat) :
    createRdata (wire n) macLen er =
      .ok (shape (wire n) (List.replicate 6 0) (List.replicate 2 0) (List.replicate macLen 0) (List.replicate 2 0) (beBytes 2 er)
        (List.replicate (if er = 18 then 8 else 2) 0)) := by
  unfold createRdata
  have hs := Dname.size_wire [] hv.1
  have hc := Dname.copyAll_wire [] hv.1
  rw [List.append_nil] at hs hc
  simp only [hs, Res.bind_ok, hc]
  have st := store_fill [] (wire n) (nameLen n + 16 + macLen + if er = 18 then 6 else 0) (p := 0) rfl (by
    rw [Dname.wire_length]; omega)
  simp only [List.nil_append] at st
  rw [st]
  simp only [Res.bind_ok, Dname.wire_length]
  have e : (List.replicate ((nameLen n + 16 + macLen + if er = 18 then 6 else 0) - nameLen n) 0 : Bytes) =
      List.replicate 8 0 ++ List.replicate 2 0 ++ (List.replicate macLen 0 ++ List.replicate 2 0 ++ List.replicate 2 0 ++
        List.replicate (if er = 18 then 8 else 2) 0) := by
    simp only [List.replicate_append_replicate]
    congr 1
    split <;> omega
  rw [e]
  have e2 : wire n ++ (List.replicate 8 0 ++ List.replicate 2 0 ++ (List.replicate macLen 0 ++ List.replicate 2 0 ++ List.replicate 2 0 ++
        List.replicate (if er = 18 then 8 else 2) 0)) = (wire n ++ List.replicate 8 0) ++ List.replicate 2 (0 : UInt8) ++ (List.replicate macLen 0 ++ List.replicate 2 0 ++ List.replicate 2 0 ++
        List.replicate (if er = 18 then 8 else 2) 0) := by simp only [List.append_assoc]
  rw [e2, store_mid _ _ _ _ (by simp [Dname.wire_length]) (by simp [beBytes_length])]
  simp only [Res.bind_ok]
  have hsh : Shape n (List.replicate 6 0) (List.replicate 2 0) (List.replicate macLen 0) (List.replicate 2 0) (List.replicate 2 0)
      (List.replicate (if er = 18 then 8 else 2) 0) :=
    ⟨hv.1, by simp, by simp, by simpa using hm, by simp, by simp, by simp; split <;> omega⟩
  have e3 : wire n ++ List.replicate 8 0 ++ beBytes 2 macLen ++ (List.replicate macLen 0 ++ List.replicate 2 0 ++ List.replicate 2 0 ++
        List.replicate (if er = 18 then 8 else 2) 0) = shape (wire n) (List.replicate 6 0) (List.replicate 2 0) (List.replicate macLen 0) (List.replicate 2 0) (List.replicate 2 0)
      (List.replicate (if er = 18 then 8 else 2) 0) := by
    have : (List.replicate 8 0 : Bytes) = List.replicate 6 0 ++ List.replicate 2 0 := by decide
    simp only [shape, this, List.append_assoc, List.length_replicate]
  rw [e3]
  exact set_error hsh (by simp [beBytes_length])

/-! ## Records -/

theorem Tsig.rdata_shape (t : Tsig) : t.rdata = shape (wire t.alg) (beBytes 6 t.time) (beBytes 2 t.fudge) t.mac (beBytes 2 t.id)
    (beBytes 2 t.error) (beBytes 2 t.other.length ++ t.other) := by
  simp [Tsig.rdata, shape, List.append_assoc]

theorem Tsig.shape_ok {t : Tsig} (h : t.Ok) : Shape t.alg (beBytes 6 t.time) (beBytes 2 t.fudge) t.mac (beBytes 2 t.id)
    (beBytes 2 t.error) (beBytes 2 t.other.length ++ t.other) :=
  ⟨h.alg.1, by simp [beBytes_length], by simp [beBytes_length], h.mac, by simp [beBytes_length], by simp [beBytes_length], by
    simp [beBytes_length]⟩

structure Values (t : Tsig) : Prop where
  time : get t.rdata .time 6 = .ok t.time
  fudge : get t.rdata .fudge 2 = .ok t.fudge
  macLen : get t.rdata .macLen 2 = .ok t.mac.length
  mac : seek t.rdata .mac 0 = .ok (some ((wire t.alg).length + 10))
  macIs : load t.rdata ((wire t.alg).length + 10) t.mac.length = .ok t.mac
  id : get t.rdata .origId 2 = .ok t.id
  error : get t.rdata .error 2 = .ok t.error
  otherLen : get t.rdata .otherLen 2 = .ok t.other.length
  other : seek t.rdata .other 0 = .ok (some ((wire t.alg).length + 16 + t.mac.length))
  otherIs : load t.rdata ((wire t.alg).length + 16 + t.mac.length) t.other.length = .ok t.other
  alg : Dname.size t.rdata = .ok (wire t.alg).length
  algIs : Dname.copyAll t.rdata = .ok (wire t.alg)

theorem Tsig.values {t : Tsig} (h : t.Ok) : Values t := by
  have hs := t.shape_ok h
  have lt : ∀ {n v : Nat}, v < 256 ^ n → beVal (beBytes n v) = v := fun h => by rw [beVal_beBytes, Nat.mod_eq_of_lt h]
  constructor
  · rw [t.rdata_shape, get_time hs, lt (by have := h.time; simpa using this)]
  · rw [t.rdata_shape, get_fudge hs, lt (by have := h.fudge; simpa using this)]
  · rw [t.rdata_shape, get_macLen hs]
  · rw [t.rdata_shape, seek_mac hs (Nat.zero_le _)]
  · rw [t.rdata_shape, load_mac hs]
  · rw [t.rdata_shape, get_origId hs, lt (by have := h.id; simpa using this)]
  · rw [t.rdata_shape, get_error hs, lt (by have := h.error; simpa using this)]
  · rw [t.rdata_shape, get_otherLen hs (by simp [beBytes_length]), lt (by have := h.other; simpa using this)]
  · rw [t.rdata_shape, seek_other hs rfl (by simp [beBytes_length]), if_pos (by rw [lt (by have := h.other; simpa using this)])]
  · rw [t.rdata_shape, load_other hs (by simp [beBytes_length])]
  · rw [t.rdata_shape, size_shape hs]
  · have : t.rdata = wire t.alg ++ (beBytes 6 t.time ++ (beBytes 2 t.fudge ++ (beBytes 2 t.mac.length ++ (t.mac ++ (beBytes 2 t.id ++
      (beBytes 2 t.error ++ (beBytes 2 t.other.length ++ t.other))))))) := by simp [Tsig.rdata, List.append_assoc]
    rw [this, Dname.copyAll_wire _ h.alg.1]

end Knot.Tsig
