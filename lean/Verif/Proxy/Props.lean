import Verif.Proxy.Lemmas
/-!
# C57: messages in PROXY headers
-/
namespace Knot
open Proxy Proxy.Spec
open Sockaddr (Addr Fam)

/-- An allow list with 192.0.2.0/24, for examples. -/
def Proxy.exampleConf : Conf := ⟨true, true, [.net ⟨.inet, [192, 0, 2, 0], 0⟩ (some 24)]⟩

/-- A proxy, a client and the server. -/
def Proxy.exampleProxy : Addr := ⟨.inet, [192, 0, 2, 1], 4000⟩
def Proxy.exampleClient : Addr := ⟨.inet, [198, 51, 100, 7], 5353⟩
def Proxy.exampleServer : Addr := ⟨.inet, [203, 0, 113, 1], 53⟩

/-- A query: example. IN A. -/
def Proxy.exampleQuery : List UInt8 :=
  [0x12, 0x34, 0, 0, 0, 1, 0, 0, 0, 0, 0, 0, 7, 101, 120, 97, 109, 112, 108, 101, 0, 0, 1, 0, 1]

/-- The query as a proxy sends it. -/
def Proxy.exampleDatagram : List UInt8 := (writeHeader 52 (some true) exampleClient exampleServer).getD [] ++ exampleQuery

theorem Proxy.example_valid : Valid exampleConf exampleProxy := by
  unfold Valid
  refine ⟨⟨by decide, by decide, by decide⟩, ?_⟩
  intro x hx
  simp only [exampleConf, List.mem_singleton] at hx
  subst hx
  exact ⟨by decide, by decide, by decide⟩

theorem Proxy.example_trusted : Trusted exampleConf exampleProxy := by
  refine ⟨rfl, _, List.mem_singleton_self _, rfl, ?_⟩
  rw [if_neg (by decide)]
  intro i _ hi
  have h24 : i < 24 := hi 24 rfl
  have : ∀ i < 24, Sockaddr.bit exampleProxy.raw i = Sockaddr.bit [192, 0, 2, 0] i := by decide +kernel
  exact this i h24

theorem Proxy.example_message : IsMessage exampleQuery 0 25 ∧ ¬IsResponse exampleQuery 0 := by
  constructor
  · refine ⟨some [[101, 120, 97, 109, 112, 108, 101]], [], [], [], ⟨by decide, ⟨25, ⟨rfl, 9, ?_, ⟨by decide, by decide⟩, rfl, by decide⟩, .nil⟩,
      rfl, rfl, rfl, by simp, by simp, by simp⟩⟩
    exact .label rfl (by decide) (by decide) rfl (.root (by decide) rfl)
  · rintro ⟨b, h, hb⟩
    cases h
    exact absurd hb (by decide)

/-- C57. For every datagram and configuration the outcome is defined: nothing beyond the datagram is read for the header. -/
theorem C57_safe (c : Conf) (udp : Bool) (remote : Addr) (buf : List UInt8) (len : Nat) (m m' : Nat × Nat) (hl : len ≤ buf.length)
    (hv : Valid c remote) : handleQuery c udp remote buf len m m' ≠ .ub := by
  obtain ⟨o, h, _⟩ := handle_cases c udp remote buf len m m' hl hv
  rw [h]; simp

/-- C57. A DNS message without a header is processed from the address that sent it, with every configuration; no message with a
PROXY header is a DNS message. -/
theorem C57_direct (c : Conf) (udp : Bool) (remote : Addr) (buf : List UInt8) (len : Nat) (m m' : Nat × Nat) (hl : len ≤ buf.length)
    (hv : Valid c remote) :
    (IsMessage buf 0 len → (IsResponse buf 0 → handleQuery c udp remote buf len m m' = .ok .ignored) ∧
      (¬IsResponse buf 0 → handleQuery c udp remote buf len m m' = .ok (.served 0 remote))) ∧
    (∀ n, HeaderAt buf n → ¬IsMessage buf 0 len) := by
  refine ⟨fun hm => ?_, fun n h => header_no_message h⟩
  obtain ⟨o, h, h1⟩ := handle_cases c udp remote buf len m m' hl hv
  have hno : ∀ n a, ¬Proxied c udp remote buf len n a := fun n a hp => header_no_message hp.2.2.1 hm
  rcases h1 with h1 | h1 | ⟨n, a, h1, _⟩ | ⟨n, a, h1, _⟩ | ⟨n, a, h1, _⟩
  · rw [h]; exact ⟨fun hr => by rw [h1.2.1 hr], fun hr => by rw [h1.2.2 hr]⟩
  · exact absurd hm h1.1
  · exact absurd h1 (hno n a)
  · exact absurd h1 (hno n a)
  · exact absurd h1 (hno n a)

/-- C57. A message in a PROXY header of one on the allow list is processed from the address in the header, over UDP. -/
theorem C57_proxied (c : Conf) (remote : Addr) (buf : List UInt8) (len : Nat) (m m' : Nat × Nat) (hl : len ≤ buf.length)
    (hv : Valid c remote) (ht : Trusted c remote) (n : Nat) (hh : HeaderAt buf n) (hn : 16 + n < len) (a : Addr) (ha : SourceAt buf len a)
    (hm : IsMessage buf (16 + n) len) :
    (IsResponse buf (16 + n) → handleQuery c true remote buf len m m' = .ok .ignored) ∧
    (¬IsResponse buf (16 + n) → handleQuery c true remote buf len m m' = .ok (.served (16 + n) a)) := by
  have hp : Proxied c true remote buf len n a := ⟨rfl, ht, hh, hn, ha⟩
  have h12 : 12 ≤ len - (16 + n) := by obtain ⟨_, _, _, _, h⟩ := hm; exact h.header
  obtain ⟨o, h, h1⟩ := handle_cases c true remote buf len m m' hl hv
  rw [h]
  rcases h1 with h1 | h1 | ⟨n', a', h1, h2, h3⟩ | ⟨n', a', h1, h2, _⟩ | ⟨n', a', h1, h2, _⟩
  · exact absurd h1.1 (header_no_message hh)
  · exact absurd hp (h1.2.1 n a)
  · obtain ⟨rfl, rfl⟩ := proxied_inj h1 hp
    exact ⟨fun hr => by rw [h3.1 hr], fun hr => by rw [h3.2 hr]⟩
  · obtain ⟨rfl, rfl⟩ := proxied_inj h1 hp
    exact absurd hm h2
  · obtain ⟨rfl, rfl⟩ := proxied_inj h1 hp
    omega

/-- C57. No one can pretend to be another: an address other than that of the sender is used only for a datagram over UDP, from
an address on the allow list, with a PROXY header, and it is the address in it; and a complete DNS message follows the header. -/
theorem C57_trust (c : Conf) (udp : Bool) (remote : Addr) (buf : List UInt8) (len : Nat) (m m' : Nat × Nat) (hl : len ≤ buf.length)
    (hv : Valid c remote) :
    (∀ s r, handleQuery c udp remote buf len m m' = .ok (.served s r) → r ≠ remote → udp = true ∧ Trusted c remote ∧
      ∃ n, HeaderAt buf n ∧ s = 16 + n ∧ s < len ∧ SourceAt buf len r ∧ IsMessage buf s len) ∧
    (∀ r, handleQuery c udp remote buf len m m' = .ok (.formerr r) → r = remote) := by
  obtain ⟨o, h, h1⟩ := handle_cases c udp remote buf len m m' hl hv
  rw [h]
  have norm : ∀ {s a}, Normal buf s a o → o = .ignored ∨ o = .served s a := by
    intro s a hn
    by_cases hr : IsResponse buf s
    · exact .inl (hn.1 hr)
    · exact .inr (hn.2 hr)
  have key : (o = .ignored ∨ o = .formerr remote) ∨ (∃ s, o = .served s remote) ∨
      ∃ n a, o = .served (16 + n) a ∧ Proxied c udp remote buf len n a ∧ IsMessage buf (16 + n) len := by
    rcases h1 with ⟨_, h1⟩ | ⟨_, _, h1⟩ | ⟨n, a, h1, h2, h3⟩ | ⟨n, a, _, _, _, h1⟩ | ⟨n, a, _, _, h1⟩
    · rcases norm h1 with h | h
      · exact .inl (.inl h)
      · exact .inr (.inl ⟨_, h⟩)
    · exact .inl h1
    · rcases norm h3 with h | h
      · exact .inl (.inl h)
      · exact .inr (.inr ⟨n, a, h, h1, h2⟩)
    · exact .inl h1
    · rcases norm h1 with h | h
      · exact .inl (.inl h)
      · exact .inr (.inl ⟨_, h⟩)
  constructor
  · intro s r e hr
    have e := Res.ok.inj e
    rcases key with (h | h) | ⟨s', h⟩ | ⟨n, a, h, h2, h3⟩
    · rw [h] at e; cases e
    · rw [h] at e; cases e
    · rw [h] at e; cases e; exact absurd rfl hr
    · rw [h] at e; cases e
      exact ⟨h2.1, h2.2.1, n, h2.2.2.1, rfl, h2.2.2.2.1, h2.2.2.2.2, h3⟩
  · intro r e
    have e := Res.ok.inj e
    rcases key with (h | h) | ⟨s', h⟩ | ⟨n, a, h, _⟩
    · rw [h] at e; cases e
    · rw [h] at e; cases e; rfl
    · rw [h] at e; cases e
    · rw [h] at e; cases e

/-- C57. What is neither a DNS message nor one in a trusted PROXY header is not processed: it is ignored or refused. Missing: this is
false for inner messages of less than 12 octets, see `C57_short_message`. -/
theorem C57_refused_partial (c : Conf) (udp : Bool) (remote : Addr) (buf : List UInt8) (len : Nat) (m m' : Nat × Nat)
    (hl : len ≤ buf.length) (hv : Valid c remote) (hm : ¬IsMessage buf 0 len)
    (hi : ∀ n a, Proxied c udp remote buf len n a → ¬IsMessage buf (16 + n) len ∧ 12 ≤ len - (16 + n)) :
    handleQuery c udp remote buf len m m' = .ok .ignored ∨ handleQuery c udp remote buf len m m' = .ok (.formerr remote) := by
  obtain ⟨o, h, h1⟩ := handle_cases c udp remote buf len m m' hl hv
  rw [h]
  rcases h1 with h1 | ⟨_, _, h1⟩ | ⟨n, a, h1, h2, _⟩ | ⟨n, a, _, _, _, h1⟩ | ⟨n, a, h1, h2, _⟩
  · exact absurd h1.1 hm
  · rcases h1 with rfl | rfl <;> simp
  · exact absurd h2 (hi n a h1).1
  · rcases h1 with rfl | rfl <;> simp
  · have := (hi n a h1).2; omega

/-- C57. Headers written for UDP are read back: for all IPv4 or IPv6 addresses and messages, the message after the header is
processed from the source address. -/
theorem C57_written (c : Conf) (remote : Addr) (src dst : Addr) (size : Nat) (hdr msg : List UInt8) (m m' : Nat × Nat)
    (hv : Valid c remote) (ht : Trusted c remote)
    (hf : (src.fam = .inet ∧ src.raw.length = 4 ∧ dst.raw.length = 4) ∨ (src.fam = .inet6 ∧ src.raw.length = 16 ∧ dst.raw.length = 16))
    (hp : src.port < 65536) (hw : writeHeader size (some true) src dst = some hdr)
    (hm : IsMessage msg 0 msg.length) (hr : ¬IsResponse msg 0) :
    handleQuery c true remote (hdr ++ msg) (hdr ++ msg).length m m' = .ok (.served hdr.length src) ∧ hdr.length ≤ size := by
  have h12 : 12 ≤ msg.length := by obtain ⟨_, _, _, _, h⟩ := hm; exact h.header
  have hsize : 52 ≤ size := by
    unfold writeHeader at hw
    split at hw
    · cases hw
    · omega
  have core : ∀ n, hdr.length = 16 + n → HeaderAt (hdr ++ msg) n → SourceAt (hdr ++ msg) (hdr ++ msg).length src →
      handleQuery c true remote (hdr ++ msg) (hdr ++ msg).length m m' = .ok (.served hdr.length src) := by
    intro n hl hh hs
    have hd : (hdr ++ msg).drop (16 + n) = msg := by rw [← hl, List.drop_left]
    rw [hl]
    refine (C57_proxied c remote _ _ m m' (Nat.le_refl _) hv ht n hh (by rw [List.length_append]; omega) src hs ?_).2 ?_
    · unfold IsMessage at hm ⊢
      rw [hd, List.length_append, hl, Nat.add_sub_cancel_left]
      simpa using hm
    · rintro ⟨b, hb, hb2⟩
      refine hr ⟨b, ?_, hb2⟩
      rw [← hl, List.getElem?_append_right (by omega)] at hb
      rw [← hb]; congr 1; omega
  have hport : ∀ (p : List UInt8) (r : List UInt8) i, i = p.length → NumAt (p ++ (wire16 src.port ++ r)) i src.port := by
    rintro p r i rfl
    refine ⟨(src.port / 256).toUInt8, (src.port % 256).toUInt8, ?_, ?_, ?_⟩
    · rw [List.getElem?_append_right (Nat.le_refl _)]; simp [wire16]
    · rw [List.getElem?_append_right (by omega)]; simp [wire16]
    · simp only [Nat.toUInt8_eq, UInt8.toNat_ofNat']
      omega
  have hraw : ∀ (p r : List UInt8) i, p.length = 16 → i < src.raw.length → (p ++ (src.raw ++ r))[16 + i]? = src.raw[i]? := by
    intro p r i h1 h2
    rw [List.getElem?_append_right (by omega), h1, Nat.add_sub_cancel_left, List.getElem?_append_left h2]
  unfold writeHeader at hw
  rw [if_neg (by omega)] at hw
  dsimp only at hw
  rcases hf with ⟨f1, f2, f3⟩ | ⟨f1, f2, f3⟩
  · rw [if_pos f1] at hw
    cases hw
    refine ⟨core 12 (by simp [sig, wire16, f2, f3]) ⟨rfl, 0, 12, rfl, rfl, rfl⟩ (.inl ⟨rfl, f1, f2, ?_, ?_, by simp [sig, wire16, f2, f3]; omega⟩),
      by simp [sig, wire16, f2, f3]; omega⟩
    · intro i hi
      have := hraw (sig ++ [0x21, 0x10 + 2] ++ wire16 12) (dst.raw ++ wire16 src.port ++ wire16 dst.port ++ msg) i rfl (by omega)
      rw [← this]; simp only [if_true, List.append_assoc]
    · have := hport (sig ++ [0x21, 0x10 + 2] ++ wire16 12 ++ (src.raw ++ dst.raw)) (wire16 dst.port ++ msg) 24 (by simp [sig, wire16, f2, f3])
      simpa only [if_true, List.append_assoc] using this
  · rw [if_neg (by rw [f1]; decide), if_pos f1] at hw
    cases hw
    refine ⟨core 36 (by simp [sig, wire16, f2, f3]) ⟨rfl, 0, 36, rfl, rfl, rfl⟩ (.inr ⟨rfl, f1, f2, ?_, ?_, by simp [sig, wire16, f2, f3]; omega⟩),
      by simp [sig, wire16, f2, f3]; omega⟩
    · intro i hi
      have := hraw (sig ++ [0x21, 0x20 + 2] ++ wire16 36) (dst.raw ++ wire16 src.port ++ wire16 dst.port ++ msg) i rfl (by omega)
      rw [← this]; simp only [if_true, List.append_assoc]
    · have := hport (sig ++ [0x21, 0x20 + 2] ++ wire16 36 ++ (src.raw ++ dst.raw)) (wire16 dst.port ++ msg) 48 (by simp [sig, wire16, f2, f3])
      simpa only [if_true, List.append_assoc] using this

/-- The example: the query is processed from the client. -/
example : handleQuery exampleConf true exampleProxy exampleDatagram exampleDatagram.length (0, 0) (0, 0) = .ok (.served 28 exampleClient) :=
  (C57_written exampleConf exampleProxy exampleClient exampleServer 52 _ exampleQuery (0, 0) (0, 0) example_valid example_trusted
    (.inl ⟨rfl, rfl, rfl⟩) (by decide) rfl example_message.1 example_message.2).1

/-- From an address that is not on the list the same datagram is ignored. -/
example : handleQuery exampleConf true exampleClient exampleDatagram exampleDatagram.length (0, 0) (0, 0) = .ok .ignored := by
  decide +kernel

/-- C57. Finding: if less than 12 octets follow the header, the count of parsed octets is decremented from zero and wraps: the
message is processed as one without errors, with a header that is not in the datagram but in the buffer from before. Without a
PROXY header such messages are ignored. Here two octets follow, and the rest of the buffer is of an earlier query. -/
theorem C57_short_message :
    let buf := exampleDatagram.take 30 ++ exampleQuery
    handleQuery exampleConf true exampleProxy buf 30 (0, 0) (0, 0) = .ok (.served 28 exampleProxy) ∧
    handleQuery exampleConf true exampleProxy (exampleQuery.take 2 ++ exampleQuery) 2 (0, 0) (0, 0) = .ok .ignored := by
  decide +kernel

/-- C57. Finding: the length in the header is not compared with the size of the addresses: a header of no further octets is taken,
and the address of the client is read from the DNS message after it. -/
theorem C57_short_header :
    let buf := sig ++ [0x21, 0x12, 0, 0] ++ exampleQuery
    handleQuery exampleConf true exampleProxy buf buf.length (0, 0) (0, 0) = .ok (.served 16 ⟨.inet, [0x12, 0x34, 0, 0], 0⟩) := by
  intro buf
  refine (C57_proxied exampleConf exampleProxy buf buf.length (0, 0) (0, 0) (Nat.le_refl _) example_valid example_trusted 0
    ⟨rfl, 0, 0, rfl, rfl, rfl⟩ (by decide +kernel) ⟨.inet, [0x12, 0x34, 0, 0], 0⟩
    (.inl ⟨rfl, rfl, rfl, by decide +kernel, ⟨0, 0, rfl, rfl, rfl⟩, by decide +kernel⟩) ?_).2 ?_
  · exact example_message.1
  · exact example_message.2

end Knot
