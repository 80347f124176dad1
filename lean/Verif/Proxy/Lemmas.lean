import Verif.Proxy.Spec
import Verif.Pktparse.Props
import Verif.Acl.Props
/-!
# Lemmas about the PROXY header
-/
namespace Knot.Proxy
open Sockaddr (Addr Fam)
open Pktparse (received parseQuestion parse Message)
open Spec

theorem byte_ok {buf : Bytes} {len i : Nat} (h : i < len) (hl : len ≤ buf.length) : ∃ b, byte buf len i = .ok b ∧ buf[i]? = some b := by
  have hb : i < buf.length := by omega
  exact ⟨buf[i], by simp [byte, h, List.getElem?_eq_getElem hb], List.getElem?_eq_getElem hb⟩

theorem field_ok {buf : Bytes} {len i : Nat} (h : i + 1 < len) (hl : len ≤ buf.length) :
    ∃ n, field16 buf len i = .ok n ∧ NumAt buf i n := by
  obtain ⟨a, h1, h2⟩ := byte_ok (show i < len by omega) hl
  obtain ⟨b, h3, h4⟩ := byte_ok h hl
  exact ⟨_, by simp only [field16, h1, h3, Res.bind_ok], a, b, h2, h4, rfl⟩

theorem num_inj {buf : Bytes} {i n m : Nat} (h1 : NumAt buf i n) (h2 : NumAt buf i m) : n = m := by
  obtain ⟨a, b, ha, hb, rfl⟩ := h1
  obtain ⟨c, d, hc, hd, rfl⟩ := h2
  rw [ha] at hc; rw [hb] at hd
  cases hc; cases hd; rfl

theorem octets_ok {buf : Bytes} {len i n : Nat} (h : i + n ≤ len) (hl : len ≤ buf.length) :
    octets buf len i n = .ok ((buf.drop i).take n) := by
  simp [octets, h, hl]

theorem source_inj {buf : Bytes} {len : Nat} {a b : Addr} (h1 : SourceAt buf len a) (h2 : SourceAt buf len b) : a = b := by
  have key : ∀ (k : Nat), a.raw.length = k → b.raw.length = k → (∀ i < k, buf[16 + i]? = a.raw[i]?) →
      (∀ i < k, buf[16 + i]? = b.raw[i]?) → a.raw = b.raw := by
    intro k ha hb h1 h2
    apply List.ext_getElem?
    intro i
    by_cases hi : i < k
    · rw [← h1 i hi, ← h2 i hi]
    · rw [List.getElem?_eq_none (by omega), List.getElem?_eq_none (by omega)]
  cases a; cases b
  rcases h1 with ⟨f1, a1, l1, r1, p1, _⟩ | ⟨f1, a1, l1, r1, p1, _⟩ <;> rcases h2 with ⟨f2, a2, l2, r2, p2, _⟩ | ⟨f2, a2, l2, r2, p2, _⟩
  · simp only at a1 a2 key p1 p2
    rw [a1, a2, key 4 l1 l2 r1 r2, num_inj p1 p2]
  · rw [f1] at f2; exact absurd f2 (by decide)
  · rw [f1] at f2; exact absurd f2 (by decide)
  · simp only at a1 a2 key p1 p2
    rw [a1, a2, key 16 l1 l2 r1 r2, num_inj p1 p2]

theorem header_iff {buf : Bytes} {len : Nat} (hl : len ≤ buf.length) :
    ∃ o, headerOffset buf len = .ok o ∧ ∀ off, o = some off ↔ ∃ n, HeaderAt buf n ∧ 16 + n < len ∧ off = 16 + n := by
  unfold headerOffset
  by_cases h16 : len < 16
  · refine ⟨none, by rw [if_pos h16], fun off => ⟨fun h => (by cases h), ?_⟩⟩
    rintro ⟨n, _, h, _⟩; omega
  · rw [if_neg h16, octets_ok (by omega) hl]
    simp only [Res.bind_ok, List.drop_zero]
    obtain ⟨vc, v1, v2⟩ := byte_ok (show 12 < len by omega) hl
    have h13 : buf.take 13 = buf.take 12 ++ [vc] := by
      rw [List.take_add_one, v2]; rfl
    have hs : ∀ n, HeaderAt buf n ↔ (buf.take 12 = sig ∧ vc = 0x21) ∧ NumAt buf 14 n := by
      intro n
      unfold HeaderAt
      rw [h13]
      have : ([0x0D, 0x0A, 0x0D, 0x0A, 0x00, 0x0D, 0x0A, 0x51, 0x55, 0x49, 0x54, 0x0A, 0x21] : List UInt8) = sig ++ [0x21] := rfl
      rw [this]
      constructor
      · rintro ⟨h, h2⟩
        have := List.append_inj' h rfl
        exact ⟨⟨this.1, by simpa using this.2⟩, h2⟩
      · rintro ⟨⟨h, h3⟩, h2⟩; rw [h, h3]; exact ⟨rfl, h2⟩
    by_cases hsig : buf.take 12 = sig
    · rw [if_neg (by simpa using hsig), v1]
      simp only [Res.bind_ok]
      by_cases hv : vc = 0x21
      · rw [if_neg (by simpa using hv)]
        obtain ⟨l, l1, l2⟩ := field_ok (show 14 + 1 < len by omega) hl
        rw [l1]
        simp only [Res.bind_ok]
        have hh : ∀ n, HeaderAt buf n ↔ n = l := by
          intro n
          rw [hs]
          exact ⟨fun h => num_inj h.2 l2, fun h => ⟨⟨hsig, hv⟩, h ▸ l2⟩⟩
        by_cases ho : 16 + l < len
        · refine ⟨some (16 + l), by rw [if_pos ho], fun off => ⟨fun h => ⟨l, (hh l).2 rfl, ho, by cases h; rfl⟩, ?_⟩⟩
          rintro ⟨n, h1, h2, rfl⟩
          rw [(hh n).1 h1]
        · refine ⟨none, by rw [if_neg ho], fun off => ⟨fun h => (by cases h), ?_⟩⟩
          rintro ⟨n, h1, h2, rfl⟩
          have := (hh n).1 h1; omega
      · refine ⟨none, by rw [if_pos (by simpa using hv)], fun off => ⟨fun h => (by cases h), ?_⟩⟩
        rintro ⟨n, h1, _⟩
        exact absurd ((hs n).1 h1).1.2 hv
    · refine ⟨none, by rw [if_pos (by simpa using hsig)], fun off => ⟨fun h => (by cases h), ?_⟩⟩
      rintro ⟨n, h1, _⟩
      exact absurd ((hs n).1 h1).1.1 hsig

theorem take_get {buf : Bytes} {i n : Nat} : ∀ j < n, buf[i + j]? = ((buf.drop i).take n)[j]? := by
  intro j hj
  rw [List.getElem?_take_of_lt hj, List.getElem?_drop]

theorem store_iff {buf : Bytes} {len : Nat} (hl : len ≤ buf.length) (h16 : 16 < len) :
    ∃ o, addrStore buf len = .ok o ∧ ∀ a, o = some a ↔ SourceAt buf len a := by
  unfold addrStore
  obtain ⟨fa, f1, f2⟩ := byte_ok (show 13 < len by omega) hl
  rw [f1]
  simp only [Res.bind_ok]
  have none' : (∀ a, ¬SourceAt buf len a) → ∀ a, (none : Option Addr) = some a ↔ SourceAt buf len a :=
    fun h a => ⟨fun e => (by cases e), fun e => absurd e (h a)⟩
  have some' : ∀ b, SourceAt buf len b → ∀ a, some b = some a ↔ SourceAt buf len a :=
    fun b hb a => ⟨fun e => (by cases e; exact hb), fun e => congrArg some (source_inj hb e)⟩
  by_cases h4 : fa = 0x12
  · rw [if_pos h4]
    rw [h4] at f2
    by_cases hlen : 28 < len
    · obtain ⟨p, p1, p2⟩ := field_ok (show 24 + 1 < len by omega) hl
      rw [if_pos hlen, octets_ok (by omega) hl, p1]
      simp only [Res.bind_ok]
      exact ⟨_, rfl, some' _ (.inl ⟨f2, rfl, by simp; omega, take_get, p2, hlen⟩)⟩
    · refine ⟨none, by rw [if_neg hlen], none' ?_⟩
      rintro a (h | h)
      · exact hlen h.2.2.2.2.2
      · have := h.1; rw [f2] at this; exact absurd this (by decide)
  · rw [if_neg h4]
    by_cases h6 : fa = 0x22
    · rw [if_pos h6]
      rw [h6] at f2
      by_cases hlen : 52 < len
      · obtain ⟨p, p1, p2⟩ := field_ok (show 48 + 1 < len by omega) hl
        rw [if_pos hlen, octets_ok (by omega) hl, p1]
        simp only [Res.bind_ok]
        exact ⟨_, rfl, some' _ (.inr ⟨f2, rfl, by simp; omega, take_get, p2, hlen⟩)⟩
      · refine ⟨none, by rw [if_neg hlen], none' ?_⟩
        rintro a (h | h)
        · have := h.1; rw [f2] at this; exact absurd this (by decide)
        · exact hlen h.2.2.2.2.2
    · refine ⟨none, by rw [if_neg h6], none' ?_⟩
      rintro a (h | h)
      · have := h.1; rw [f2] at this; exact h4 (by simpa using this)
      · have := h.1; rw [f2] at this; exact h6 (by simpa using this)

/-- The configured ranges and the remote address are addresses. -/
def Valid (c : Conf) (remote : Addr) : Prop :=
  Acl.AddrOk remote ∧ ∀ x ∈ c.allow, match x with
    | .net a _ => Acl.AddrOk a
    | .span lo hi => Acl.AddrOk lo ∧ Acl.AddrOk hi

theorem strip_iff {c : Conf} {remote : Addr} {buf : Bytes} {len : Nat} (hl : len ≤ buf.length) (hv : Valid c remote) :
    ∃ o, strip c remote buf len = .ok o ∧ ∀ off a, o = some (off, a) ↔
      ∃ n, Proxied c true remote buf len n a ∧ off = 16 + n := by
  unfold strip
  have none' : (∀ n a, ¬Proxied c true remote buf len n a) →
      ∀ off a, (none : Option (Nat × Addr)) = some (off, a) ↔ ∃ n, Proxied c true remote buf len n a ∧ off = 16 + n := by
    intro h off a
    refine ⟨fun e => (by cases e), ?_⟩
    rintro ⟨n, h1, _⟩
    exact absurd h1 (h n a)
  by_cases he : c.enabled = true
  · rw [if_neg (by simp [he])]
    obtain ⟨o, o1, o2⟩ := header_iff hl
    rw [o1]
    simp only [Res.bind_ok]
    cases o with
    | none =>
      refine ⟨none, rfl, none' ?_⟩
      rintro n a ⟨_, _, h3, h4, _⟩
      have := (o2 _).2 ⟨n, h3, h4, rfl⟩
      cases this
    | some off =>
      obtain ⟨n, n1, n2, rfl⟩ := (o2 off).1 rfl
      obtain ⟨b, b1, b2⟩ := Acl.addrRange_iff c.le remote hv.1 c.allow hv.2
      dsimp only
      rw [b1]
      simp only [Res.bind_ok]
      cases b with
      | false =>
        refine ⟨none, by simp, none' ?_⟩
        rintro m a ⟨_, h2, _⟩
        have := b2.2 h2.2; cases this
      | true =>
        obtain ⟨s, s1, s2⟩ := store_iff hl (show 16 < len by omega)
        rw [s1]
        simp only [if_true, Res.bind_ok]
        cases s with
        | none =>
          refine ⟨none, rfl, none' ?_⟩
          rintro m a ⟨_, _, _, _, h5⟩
          have := (s2 a).2 h5; cases this
        | some a =>
          refine ⟨_, rfl, fun off' a' => ⟨?_, ?_⟩⟩
          · intro e; cases e
            exact ⟨n, ⟨rfl, ⟨he, b2.1 rfl⟩, n1, n2, (s2 a).1 rfl⟩, rfl⟩
          · rintro ⟨m, ⟨_, _, h3, h4, h5⟩, rfl⟩
            rw [num_inj h3.2 n1.2, source_inj h5 ((s2 a).1 rfl)]
  · refine ⟨none, by rw [if_pos (by simpa using he)], none' ?_⟩
    rintro n a ⟨_, h, _⟩
    exact he h.1

/-- A PROXY header is no DNS message: it would have 13 questions. -/
theorem header_no_message {buf : Bytes} {n len : Nat} (h : HeaderAt buf n) : ¬IsMessage buf 0 len := by
  rintro ⟨q, an, ns, ar, hm⟩
  obtain ⟨pos, hq, _⟩ := hm.records
  have hn : Rrwire.num (Rrwire.slice (buf.drop 0) 4 2) = 13 := by
    have h4 : buf[4]? = some 0 := by
      have := congrArg (·[4]?) h.1
      simpa [List.getElem?_take] using this
    have h5 : buf[5]? = some 0x0D := by
      have := congrArg (·[5]?) h.1
      simpa [List.getElem?_take] using this
    have e : Rrwire.slice (buf.drop 0) 4 2 = [0, 0x0D] := by
      unfold Rrwire.slice
      apply List.ext_getElem?
      intro i
      rcases i with _ | _ | i
      · simpa using h4
      · simpa using h5
      · simp; omega
    rw [e]; rfl
  cases q with
  | none => have := hq.1; omega
  | some ls => have := hq.1; omega

theorem parse_ok {buf : Bytes} {start len : Nat} (hl : len ≤ buf.length) {p : Pktparse.PP}
    (h : parse false true (buf.drop start) (len - start) = .ok p) : IsMessage buf start len ∧ 12 ≤ p.parsed ∧ p.size ≤ p.parsed := by
  have hs : len - start ≤ (buf.drop start).length := by rw [List.length_drop]; omega
  obtain ⟨q, an, ns, ar, h1, _⟩ := C39_sound _ _ _ _ _ hs h
  obtain ⟨q, an, ns, ar, p3, hc, hf⟩ := (Pktparse.parse_iff hs).1 h
  obtain ⟨pos, p2, stop, _, _, _, _, e2, hlo, _, hst⟩ := (Pktparse.course_facts hc).before
  have := Pktparse.steps_parsed hst
  unfold Pktparse.finish at hf
  split at hf
  · cases hf
  · split at hf
    · cases hf
    · cases hf
      exact ⟨⟨_, _, _, _, h1⟩, by omega, by omega⟩

theorem pkt_cases {buf : Bytes} {start len more rest : Nat} (hl : len ≤ buf.length) :
    ∃ q, pktParse buf start len more rest = .ok q ∧ q.start = start ∧
      ((q.done = true ∧ IsMessage buf start len ∧ 12 ≤ q.parsed ∧ q.size ≤ q.parsed) ∨
       (q.done = false ∧ ¬IsMessage buf start len ∧
         ((len - start < 12 ∧ q.parsed = 0) ∨ (12 ≤ len - start ∧ 12 ≤ q.parsed ∧ q.parsed ≤ q.size)))) := by
  have hs : len - start ≤ (buf.drop start).length := by rw [List.length_drop]; omega
  unfold pktParse
  cases hp : parse false true (buf.drop start) (len - start) with
  | ok p =>
    obtain ⟨h1, h2, h3⟩ := parse_ok hl hp
    exact ⟨_, rfl, rfl, .inl ⟨rfl, h1, h2, h3⟩⟩
  | ub => exact absurd hp (C39_safe _ _ _ _ hs)
  | err e =>
    have hm : ¬IsMessage buf start len := by
      rintro ⟨q, an, ns, ar, h⟩
      obtain ⟨p, h1, _⟩ := C39_complete false true _ _ _ _ _ _ hs h
      rw [hp] at h1; cases h1
    dsimp only
    by_cases h12 : len - start < 12
    · rw [if_pos h12]; exact ⟨_, rfl, rfl, .inr ⟨rfl, hm, .inl ⟨h12, rfl⟩⟩⟩
    · rw [if_neg h12]
      split
      · exact ⟨_, rfl, rfl, .inr ⟨rfl, hm, .inr ⟨by omega, by simp, by simp⟩⟩⟩
      · exact ⟨_, rfl, rfl, .inr ⟨rfl, hm, .inr ⟨by omega, by simp, by dsimp only; omega⟩⟩⟩

/-- The outcome for a message that is complete. -/
def Normal (buf : Bytes) (start : Nat) (a : Addr) (o : Out) : Prop :=
  (IsResponse buf start → o = .ignored) ∧ (¬IsResponse buf start → o = .served start a)

theorem consume_done {buf : Bytes} {q : Packet} {a : Addr} (h1 : 12 ≤ q.parsed) (h2 : q.size ≤ q.parsed) :
    Normal buf q.start a (consume buf q a) := by
  unfold consume
  rw [if_neg (by omega), if_neg (show ¬q.parsed < q.size by omega)]
  constructor
  · rintro ⟨b, hb, h⟩
    rw [hb, Option.getD_some, if_pos h]
  · intro h
    rw [if_neg]
    intro hc
    cases hb : buf[q.start + 2]? with
    | none => rw [hb] at hc; exact absurd hc (by decide)
    | some b => rw [hb] at hc; exact h ⟨b, hb, hc⟩

theorem consume_fail {buf : Bytes} {q : Packet} {a : Addr} (h1 : 12 ≤ q.parsed) (h2 : q.parsed ≤ q.size) :
    consume buf { q with parsed := dec q.parsed } a = .ignored ∨ consume buf { q with parsed := dec q.parsed } a = .formerr a := by
  unfold consume dec
  dsimp only
  rw [if_neg (show ¬q.parsed = 0 by omega)]
  split
  · exact .inl rfl
  · split
    · exact .inl rfl
    · rw [if_pos (by omega)]; exact .inr rfl

/-- The outcome for a message in a PROXY header of which the inner message has less than 12 octets. -/
theorem consume_short {buf : Bytes} {q : Packet} {a : Addr} (h1 : q.parsed = 0) (h2 : q.size < 12) :
    Normal buf q.start a (consume buf { q with parsed := dec q.parsed } a) := by
  have : dec q.parsed = 18446744073709551615 := by rw [h1]; rfl
  rw [this]
  exact consume_done (q := { q with parsed := 18446744073709551615 }) (by dsimp only; omega) (by dsimp only; omega)

theorem handle_cases (c : Conf) (udp : Bool) (remote : Addr) (buf : Bytes) (len : Nat) (m m' : Nat × Nat) (hl : len ≤ buf.length)
    (hv : Valid c remote) : ∃ o, handleQuery c udp remote buf len m m' = .ok o ∧
      ((IsMessage buf 0 len ∧ Normal buf 0 remote o) ∨
       (¬IsMessage buf 0 len ∧ (∀ n a, ¬Proxied c udp remote buf len n a) ∧ (o = .ignored ∨ o = .formerr remote)) ∨
       (∃ n a, Proxied c udp remote buf len n a ∧ IsMessage buf (16 + n) len ∧ Normal buf (16 + n) a o) ∨
       (∃ n a, Proxied c udp remote buf len n a ∧ ¬IsMessage buf (16 + n) len ∧ 12 ≤ len - (16 + n) ∧ (o = .ignored ∨ o = .formerr remote)) ∨
       (∃ n a, Proxied c udp remote buf len n a ∧ len - (16 + n) < 12 ∧ Normal buf (16 + n) remote o)) := by
  unfold handleQuery
  obtain ⟨q, q1, q2, q3⟩ := @pkt_cases buf 0 len m.1 m.2 hl
  rw [q1]
  simp only [Res.bind_ok]
  rcases q3 with ⟨d, h1, h2, h3⟩ | ⟨d, h1, h2⟩
  · rw [if_pos (by simp [d])]
    exact ⟨_, rfl, .inl ⟨h1, q2 ▸ consume_done h2 h3⟩⟩
  · rcases h2 with ⟨h2, h3⟩ | ⟨h2, h3, h4⟩
    · rw [if_pos (by simp [h3])]
      refine ⟨_, rfl, .inr (.inl ⟨h1, ?_, .inl ?_⟩)⟩
      · rintro n a ⟨_, _, _, h, _⟩; omega
      · unfold consume; rw [if_pos (by omega)]
    · rw [if_neg (by simp only [d, Bool.false_or, decide_eq_true_eq]; omega)]
      cases udp with
      | false =>
        simp only [Bool.false_eq_true, if_false]
        refine ⟨_, rfl, .inr (.inl ⟨h1, ?_, consume_fail h3 h4⟩)⟩
        rintro n a ⟨h, _⟩; cases h
      | true =>
        obtain ⟨o, o1, o2⟩ := @strip_iff c remote buf len hl hv
        simp only [if_true, o1, Res.bind_ok]
        cases o with
        | none =>
          refine ⟨_, rfl, .inr (.inl ⟨h1, ?_, consume_fail h3 h4⟩)⟩
          intro n a hp
          have := (o2 _ a).2 ⟨n, hp, rfl⟩
          cases this
        | some x =>
          obtain ⟨off, a⟩ := x
          obtain ⟨n, hp, rfl⟩ := (o2 off a).1 rfl
          dsimp only
          unfold inner
          obtain ⟨r, r1, r2, r3⟩ := @pkt_cases buf (16 + n) len m'.1 m'.2 hl
          rw [r1]
          simp only [Res.bind_ok]
          rcases r3 with ⟨d, g1, g2, g3⟩ | ⟨d, g1, g2⟩
          · rw [if_pos d]
            exact ⟨_, rfl, .inr (.inr (.inl ⟨n, a, hp, g1, r2 ▸ consume_done g2 g3⟩))⟩
          · rw [if_neg (by simp [d])]
            rcases g2 with ⟨g2, g3⟩ | ⟨g2, g3, g4⟩
            · refine ⟨_, rfl, .inr (.inr (.inr (.inr ⟨n, a, hp, g2, ?_⟩)))⟩
              have hsz : r.size = len - (16 + n) := by
                unfold pktParse at r1
                split at r1
                · cases r1; cases d
                · cases r1
                · rw [if_pos g2] at r1; cases r1; rfl
              exact r2 ▸ consume_short g3 (by omega)
            · exact ⟨_, rfl, .inr (.inr (.inr (.inl ⟨n, a, hp, g1, g2, consume_fail g3 g4⟩)))⟩

theorem proxied_inj {c : Conf} {udp : Bool} {remote : Addr} {buf : Bytes} {len n n' : Nat} {a a' : Addr}
    (h : Proxied c udp remote buf len n a) (h' : Proxied c udp remote buf len n' a') : n = n' ∧ a = a' :=
  ⟨num_inj h.2.2.1.2 h'.2.2.1.2, source_inj h.2.2.2.2 h'.2.2.2.2⟩

end Knot.Proxy
