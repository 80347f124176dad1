import Verif.Ctl.Lemmas3
/-!
# C27: control protocol messages round-trip

`N` is the size of the buffers (at least 65535, by default 262144). A state is sane when its buffers have that size, both
cursors are inside and nothing has failed; this holds for a new connection and after every successful call.
-/
namespace Knot
open Ctl
open WireCtx (beBytes beVal)

/-- A new connection is sane, whatever the buffers contain. -/
theorem C27_start (N : Nat) (bufOut bufIn : Bytes) (net : List Bytes) (h1 : bufOut.length = N) (h2 : bufIn.length = N)
    (h3 : ∀ c ∈ net, c ≠ []) : Sane N (start N bufOut bufIn net) :=
  ⟨h1, rfl, Nat.zero_le _, rfl, rfl, h2, Nat.zero_le _, Nat.le_refl _, rfl, h3⟩

/-- Sending any units at any fill level of the buffer appends exactly their octets to what was written, never writes
outside the buffer and never fails; when the last unit ends a block or the message, all of it has left the buffer. -/
theorem C27_send (N : Nat) (hN : 65535 ≤ N) (s : St) (h : Sane N s) (us : List Unit') (hu : ∀ u ∈ us, u.Ok) :
    ∃ s', sendAll N s us = .ok (none, s') ∧ Sane N s' ∧
      s'.sent ++ s'.out.mem.take s'.out.pos = s.sent ++ s.out.mem.take s.out.pos ++ (us.map Unit'.octets).flatten ∧
      ((∃ u, us.getLast? = some u ∧ u.kind.isData = false) →
        s'.sent = s.sent ++ s.out.mem.take s.out.pos ++ (us.map Unit'.octets).flatten) := by
  obtain ⟨s', h1, h2, h3, _, _, h4⟩ := sendAll_spec hN us s h hu
  refine ⟨s', h1, h2, h3, fun hl => ?_⟩
  have := h4 hl
  unfold total at h3
  rw [this] at h3
  simpa using h3

/-- Receiving depends only on the octets, not on how they arrive, and is exactly reading them: a unit, a refusal or, when
they end too early, a disconnect. -/
theorem C27_receive (N : Nat) (hN : 65535 ≤ N) (s : St) (h : Sane N s) :
    match parse ((pending s).length + 1) none (List.replicate 12 none) (pending s) with
    | .unit k items rest => ∃ s', receive N s = .ok (none, k, items, s') ∧ pending s' = rest ∧ Sane N s'
    | .invalid => ∃ k d s', receive N s = .ok (some .einval, k, d, s')
    | .short => ∃ k d s', receive N s = .ok (some .econn, k, d, s') := by
  have hg := receive_spec hN h
  generalize parse ((pending s).length + 1) none (List.replicate 12 none) (pending s) = p at hg
  cases p with
  | unit k items rest =>
    obtain ⟨s', g1, g2, g3, g4, _⟩ := hg
    exact ⟨s', by simp only [receive]; rw [g1]; simp [g2], g3, g4⟩
  | invalid =>
    obtain ⟨k, s', g1⟩ := hg
    exact ⟨k, s'.data, s', by simp only [receive]; rw [g1]; rfl⟩
  | short =>
    obtain ⟨k, s', g1⟩ := hg
    exact ⟨k, s'.data, s', by simp only [receive]; rw [g1]; rfl⟩

/-- Whatever the peer sends and however it arrives, with timeouts anywhere, receiving reads and writes only inside the
buffer and ends. -/
theorem C27_receive_safe (N : Nat) (s : St) (h : Buf N s) :
    ∃ e k d s', receive N s = .ok (e, k, d, s') ∧ Buf N s' := by
  obtain ⟨e, k, s', h1, h2⟩ := receiveLoop_safe ((pending s).length + 1) { s with data := List.replicate 12 none } none
    ⟨h.inMem, h.inSize, h.inPos, h.inErr⟩ (by simp) (Nat.lt_succ_self _)
  exact ⟨e, k, s'.data, s', by simp only [receive]; rw [h1]; rfl, h2⟩

/-- The property: what is sent on one side, ending with the end of a block or message, is received on the other side as the
same units, whatever the fill levels of both buffers and however the network cuts the octets (`ahead` units are already
on their way, `tail` comes after). -/
theorem C27_roundtrip (N M : Nat) (hN : 65535 ≤ N) (hM : 65535 ≤ M) (a : St) (ha : Sane N a)
    (us : List Unit') (hu : ∀ u ∈ us, u.Ok) (hc : Closed us) (hne : us ≠ []) (h0 : a.out.pos = 0)
    (tail : Bytes) :
    ∃ a', sendAll N a us = .ok (none, a') ∧ ∃ new, a'.sent = a.sent ++ new ∧
      ∀ b : St, Sane M b → pending b = new ++ tail →
        ∃ b', receiveAll M b us.length = .ok (none, us, b') ∧ pending b' = tail ∧ Sane M b' := by
  have hlast : ∃ u, us.getLast? = some u ∧ u.kind.isData = false := by
    clear hu
    induction us with
    | nil => exact absurd rfl hne
    | cons u us ih =>
      cases us with
      | nil => exact ⟨u, rfl, hc⟩
      | cons v us =>
        obtain ⟨w, hw, hw'⟩ := ih hc (by simp)
        exact ⟨w, by simpa using hw, hw'⟩
  obtain ⟨a', h1, _, _, h3⟩ := C27_send N hN a ha us hu
  have h3 := h3 hlast
  rw [h0, List.take_zero, List.append_nil] at h3
  refine ⟨a', h1, _, h3, fun b hb hp => ?_⟩
  obtain ⟨b', k1, k2, k3, _⟩ := receiveAll_spec hM us b tail hb hu hc hp
  exact ⟨b', k1, k3, k2⟩

/-- Messages that satisfy the hypotheses: a data unit with two items, an extra unit and the end. -/
example : ∃ us : List Unit', us.length = 3 ∧ (∀ u ∈ us, u.Ok) ∧ Closed us ∧
    (us.map Unit'.octets).flatten = [1, 16, 0, 2, 97, 98, 22, 0, 1, 46, 2, 26, 0, 0, 0] := by
  refine ⟨[⟨.data, [some [97, 98], none, none, none, none, none, some [46], none, none, none, none, none]⟩,
    ⟨.extra, [none, none, none, none, none, none, none, none, none, none, some [], none]⟩,
    ⟨.fin, List.replicate 12 none⟩], rfl, ?_, rfl, by decide⟩
  intro u hu
  simp only [List.mem_cons, List.not_mem_nil, or_false] at hu
  rcases hu with rfl | rfl | rfl <;> refine ⟨rfl, ?_, ?_⟩ <;> simp [Kind.isData]

/-- The octets of different sequences of units differ: nothing is lost in the encoding. -/
theorem C27_injective (us vs : List Unit') (hu : ∀ u ∈ us, u.Ok) (hv : ∀ u ∈ vs, u.Ok) (cu : Closed us) (cv : Closed vs)
    (h : (us.map Unit'.octets).flatten = (vs.map Unit'.octets).flatten) (hl : us.length = vs.length) : us = vs := by
  obtain ⟨B, hB⟩ : ∃ B : Bytes, B.length = 65535 := ⟨List.replicate 65535 0, List.length_replicate ..⟩
  have hb := C27_start 65535 B B
    (if (us.map Unit'.octets).flatten = [] then [] else [(us.map Unit'.octets).flatten]) hB hB (by split <;> simp_all)
  have hp : pending (start 65535 B B
      (if (us.map Unit'.octets).flatten = [] then [] else [(us.map Unit'.octets).flatten])) = (us.map Unit'.octets).flatten ++ [] := by
    unfold pending start
    simp only [WireCtx.available, WireCtx.init, Nat.sub_self, List.take_zero, List.nil_append, List.append_nil]
    split <;> simp_all
  obtain ⟨s1, g1, _⟩ := receiveAll_spec (by omega) us _ [] hb hu cu hp
  obtain ⟨s2, g2, _⟩ := receiveAll_spec (by omega) vs _ [] hb hv cv (by rw [hp, h])
  rw [hl, g2] at g1
  simp only [Res.ok.injEq, Prod.mk.injEq, true_and] at g1
  exact g1.1.symm

/-- What is missing from the property: an item longer than 65535 octets is refused, but the type of its unit, the items
before it and its code stay in the buffer. -/
theorem C27_failed_send (N : Nat) (hN : 65535 ≤ N) (s : St) (h : Sane N s) (d : Bytes) (hd : 65535 < d.length)
    (l : List (Option Bytes)) :
    ∃ s', send N s .data (some d :: l) = .ok (some .erange, s') ∧ Sane N s' ∧
      s'.sent ++ s'.out.mem.take s'.out.pos = s.sent ++ s.out.mem.take s.out.pos ++ [1, 16] := by
  obtain ⟨s1, h1, h2, h3, _, _, _, _⟩ := sendItem_spec hN h Kind.data.code (d := none) (by simp) (!Kind.data.isData)
  obtain ⟨k1, k2, k3, _⟩ := ensureOutput_spec h2 (len := 1) (by omega)
  obtain ⟨w, g1, g2, g3, g4, _⟩ := write_spec k1 (d := beBytes 1 16) (by rw [len_beBytes]; omega)
  refine ⟨{ (ensureOutput N s1 1) with out := w }, ?_, g3, ?_⟩
  · unfold send
    rw [h1]
    simp only [Res.bind_ok, Kind.isData, if_true, sendItems, sendItem, WireCtx.writeU, Nat.add_zero]
    rw [g1]
    simp only [Res.bind_ok]
    rw [if_neg (by simp [g2])]
    simp only [sendData]
    rw [if_pos (by omega)]
    rfl
  · have := g4
    rw [k2, h3] at this
    unfold total at this
    rw [this]
    simp [valueOctets, Kind.code, beBytes]

/-- After such a refusal the peer cannot even read the end of the message: the octet of the end is taken for a part of the
length of the refused item. -/
theorem C27_failed_end (N : Nat) (hN : 65535 ≤ N) (s : St) (h : Sane N s) (hp : pending s = [1, 16] ++ Unit'.octets ⟨.fin, List.replicate 12 none⟩) :
    ∃ k d s', receive N s = .ok (some .econn, k, d, s') := by
  have := C27_receive N hN s h
  rw [hp] at this
  exact this

/-- After a timeout within a unit the input is misread: the octets 1 16 0 arrive, then nothing in time, and the call after
that reports the end of the message, which the peer did not send. -/
theorem C27_timeout (N : Nat) (bufOut t : Bytes) (x y z : UInt8) (hN : 3 ≤ N) (hb : (x :: y :: z :: t).length = N) :
    ∃ k d s', receive N (start N bufOut (x :: y :: z :: t) [[1, 16, 0], [], [2, 97, 98, 0]]) = .ok (some .etimeout, k, d, s') ∧
      ∃ d' s'', receive N s' = .ok (none, .fin, d', s'') := by
  subst hb
  have h3 : ¬(List.length t + 1 + 1 + 1 < 3) := by omega
  refine ⟨.data, List.replicate 12 none, ⟨WireCtx.init bufOut (t.length + 1 + 1 + 1), ⟨0 :: 16 :: 0 :: t, 3, 2, none, false⟩,
    List.replicate 12 none, [], [[2, 97, 98, 0]]⟩, ?_, ?_⟩
  · simp [h3, receive, receiveLoop, receiveCode, receiveValue, ensureInput, recvLoop, start, pending, WireCtx.init, WireCtx.available,
    WireCtx.load, WireCtx.store, WireCtx.readU, WireCtx.read, WireCtx.canRead, beVal, toKind, toIdx, Kind.isData]
  · simp [h3, receive, receiveLoop, receiveCode, receiveValue, ensureInput, recvLoop, start, pending, WireCtx.init, WireCtx.available,
    WireCtx.load, WireCtx.store, WireCtx.readU, WireCtx.read, WireCtx.canRead, beVal, toKind, toIdx, Kind.isData]

end Knot
