import Verif.Query.Props
/-!
# C50: what a client gets that it should not get, and cases
-/
namespace Knot
open Query Reply

/-- A query for examples. -/
def q50 : Query := ⟨⟨7, 0x01, 0x20, 1, 0, 0, 1⟩, 40, 40, [1, 97, 0, 0, 1, 0, 1], [[97]], 1, 1, some ⟨1232, 0, true, true, none, true⟩, none⟩

/-- A zone that answers with one record. -/
def e50 : Env :=
  { max4 := 1232, max6 := 1232, nsid := 8, ecs := false, proto := .udp, family := .inet, now := 1000,
    zonedb := [([], ⟨true, false, 0, 1100, 86400⟩)], acl := none, beginHooks := fun _ => [],
    handler := fun _ => ([.aa, .put 1 16 false], .done), chaos := fun _ => ([], 5), endHooks := fun _ => [] }

/-- What was in the buffer before does not matter. -/
theorem C50_clean (e : Env) (q : Query) (g g' : Hdr) (hq : Parsed q) : produce e q (start g) = produce e q (start g') := by
  have hql := hq.question
  have hi : initResponse (start g).pkt q = initResponse (start g').pkt q := rfl
  have h1 : prepare e q (start g) = prepare e q (start g') := by
    have hc : ¬ 12 + q.question.length > (start g').pkt.maxSize := by show ¬ 12 + _ > 65535; omega
    unfold prepare
    rw [hi]
    unfold initResponse
    rw [if_neg hc]
    rfl
  have h2 : err e q { start g with qd := { (start g).qd with rcode := 1 } } = err e q { start g' with qd := { (start g').qd with rcode := 1 } } := by
    have hc : ¬ 12 + q.question.length > (start g').pkt.maxSize := by show ¬ 12 + _ > 65535; omega
    unfold err
    dsimp only
    rw [hi]
    unfold initResponse
    rw [if_neg hc]
    rfl
  unfold produce finish
  rw [h1]
  dsimp only
  rw [h2]

/-- An empty header. -/
private def g50 : Hdr := ⟨0, 0, 0, 0, 0, 0, 0⟩

private theorem configured50 : Configured e50 := ⟨by decide, by decide⟩
private theorem parsed50 : Parsed q50 := ⟨by decide, by decide⟩
private theorem plain50 : Plain e50 := by
  refine ⟨fun _ => rfl, ?_, fun _ => .inr (.inl rfl)⟩
  intro z h hh; cases hh
private theorem noCookies50 : NoCookies e50 := by
  refine ⟨?_, ?_, ?_⟩
  · intro z h hh; cases hh
  · intro s a ha
    rcases List.mem_cons.mp ha with h | h
    · subst h; exact trivial
    · rcases List.mem_cons.mp h with h | h
      · subst h; exact trivial
      · cases h
  · intro s a ha; cases ha

-- The answer with NSID and EXPIRE in it.
example (g : Hdr) : Answers q50 (produce e50 q50 (start g)).2.pkt ∧ (produce e50 q50 (start g)).2.pkt.size ≤ 1232 ∧
    HasOpt (produce e50 q50 (start g)).2.pkt := by
  refine ⟨C50_header _ _ g configured50 parsed50, ?_, C50_opt_partial _ _ g configured50 parsed50 plain50 noCookies50 (.inl rfl) (by decide) (by decide) (by decide)⟩
  exact C50_size_partial _ _ g 1232 configured50 parsed50 (fun z h hh => by cases hh) (.inl ⟨rfl, rfl⟩) (by decide)

example (g : Hdr) : (produce e50 q50 (start g)).2.pkt.opt = some (35, ⟨1232, 0, 0, true, [⟨3, 8, 0⟩, ⟨9, 4, 100⟩]⟩) ∧
    (produce e50 q50 (start g)).2.pkt.size = 66 ∧ (produce e50 q50 (start g)).2.pkt.hdr = ⟨7, 0x85, 0, 1, 1, 0, 1⟩ := by
  rw [C50_clean _ _ g g50 parsed50]; decide +kernel

-- Codes.
example (g : Hdr) : Reply.rcode (produce e50 { q50 with parsed := 39 } (start g)).2.pkt = 1 :=
  C50_formerr _ _ g ⟨by decide, by decide⟩ rfl (by decide)
example (g : Hdr) : Reply.rcode (produce e50 { q50 with opt := some ⟨1232, 1, false, false, none, false⟩ } (start g)).2.pkt = 16 :=
  (C50_badvers _ _ g _ configured50 ⟨by decide, by decide⟩ rfl (.inl rfl) (by decide) rfl (by decide) (fun h => by cases h) (by decide)).1
example (g : Hdr) : Reply.rcode (produce e50 { q50 with question := [] } (start g)).2.pkt = 1 :=
  C50_no_question _ _ g configured50 ⟨by decide, by decide⟩ rfl (.inl rfl) (by decide) (fun o ho => by injection ho with ho; subst ho; rfl)
    (fun h => by cases h) (by decide) rfl
example (g : Hdr) : Reply.rcode (produce e50 { q50 with qclass := 4 } (start g)).2.pkt = 5 :=
  C50_class _ _ g configured50 ⟨by decide, by decide⟩ (fun _ => rfl) (fun _ => rfl) (.inl rfl) (by decide)
    (fun o ho => by injection ho with ho; subst ho; rfl) (fun h => by cases h) (by decide) (by decide) (by decide) (by decide) (by decide)
example (g : Hdr) : Reply.rcode (produce e50 { q50 with hdr := ⟨7, 0x11, 0, 1, 0, 0, 1⟩ } (start g)).2.pkt = 4 :=
  C50_opcode _ _ g configured50 ⟨by decide, by decide⟩ (fun _ => rfl) (fun _ => rfl) (.inl rfl) (by decide)
    (fun o ho => by injection ho with ho; subst ho; rfl) (fun h => by cases h) (by decide) (by decide) (.inl rfl) (by decide) (by decide) (by decide)

-- Padding over TLS.
example (g : Hdr) : (produce { e50 with proto := .tls } q50 (start g)).2.pkt.size = 468 := by
  rw [C50_clean _ _ g g50 parsed50]; decide +kernel

-- DS at the top of a zone is for the zone above.
example : zoneFind [([[98]], ⟨true, false, 1, 1, 1⟩), ([[97], [98]], ⟨true, false, 2, 2, 2⟩)] { q50 with qname := [[97], [98]], qtype := 43 } =
    some ⟨true, false, 1, 1, 1⟩ := by decide
example : zoneFind [([[98]], ⟨true, false, 1, 1, 1⟩), ([[97], [98]], ⟨true, false, 2, 2, 2⟩)] { q50 with qname := [[99], [97], [98]], qtype := 1 } =
    some ⟨true, false, 2, 2, 2⟩ := by decide

/-! ## Findings -/

/-- C50. Finding: over QUIC and TLS, nothing limits the padding. An answer that is too large to be padded, though it fits
together with its OPT record, is thrown away and the client gets FORMERR. Here for an answer of any length `len`; `T` is
the length of the response before padding. -/
theorem C50_padding (e : Env) (q : Query) (g : Hdr) (len T : Nat) (hq : Parsed q) (hpr : e.proto = .quic ∨ e.proto = .tls) (had : Address e)
    (he : Configured e) (hb : ∀ z, e.beginHooks z = []) (hend : ∀ z, e.endHooks z = []) (hh : e.handler = fun _ => ([.put 1 len false], .done))
    (hw : q.size ≤ q.parsed) (ho : q.opt = some ⟨1232, 0, false, false, none, false⟩) (hn : q.question ≠ [])
    (hcl : q.qclass = 1) (hty : queryType q = .normal) (hz : zoneFind e.zonedb q = none)
    (hT : T = 12 + q.question.length + len + 11) (hfit : T ≤ 65535) :
    Reply.rcode (produce e q (start g)).2.pkt = if T ≤ 65516 ∨ T = 65520 then 0 else 1 := by
  have hql := hq.question
  have hu : e.proto ≠ .udp := by rcases hpr with h | h <;> rw [h] <;> simp
  have hos : optSize e q = 11 := by unfold optSize; rw [ho]; rfl
  have hv : ∀ o, q.opt = some o → o.version = 0 := by intro o h; rw [ho] at h; injection h with h; subst h; rfl
  have hec : EcsOk e q := by
    intro o h n; rw [ho] at h; injection h with h; subst h; unfold ecsOf; split <;> simp
  unfold produce
  rw [if_neg (by omega)]
  obtain ⟨_, ht⟩ := prepare_spec (g := g) he hq
  obtain ⟨k1, k2, k3, k4, k5⟩ := prepare_opt (e := e) (g := g) hq
  obtain ⟨hv1, hv2, hv3, hv4, hv5⟩ := ((prepare_eq (g := g) hq had (by omega) hec).2 hv).2 hn
  have hmid := mid_prepare (g := g) he hq
  generalize prepare e q (start g) = r at ht k1 k2 k3 k4 k5 hv1 hv2 hv3 hv4 hv5 hmid
  obtain ⟨b, s⟩ := r
  dsimp only at ht k1 k2 k3 k4 k5 hv1 hv2 hv3 hv4 hv5 hmid
  subst hv1
  obtain ⟨ha, hlim, hm1, hm2, hsz, hre, hbare, _, hopt, hosz, hede, _⟩ := ht rfl
  have hmax := limit_stream hlim hu
  dsimp only
  rw [hend, hb]
  rw [hz] at hv2 hv3 hv4
  have hzone : s.qd.zone = none := hv2
  have hrc : s.qd.rcode = 0 := hv3
  have hkey : s.qd.key = none := hv4
  obtain ⟨o1, ho1⟩ : ∃ o, s.qd.opt = some o := Option.ne_none_iff_exists'.mp (k3 had (by rw [ho]; simp))
  have hw1 := (hosz o1 ho1).1
  rw [hos] at hw1 hre
  -- the handler
  have hbc : byClass e q s = (.done, { s with pkt := { s.pkt with hdr := count s.pkt.hdr s.pkt.current 1, size := s.pkt.size + len } }) := by
    unfold byClass
    rw [if_neg (by omega), if_pos (.inr hcl)]
    unfold internet
    rw [if_neg (by rw [hty]; simp), hh]
    have hrem : remaining s.pkt = 65535 - s.pkt.size - 11 := by rw [remaining_of hm2 (by omega), hmax, hre]
    have hput : putRr s.pkt 1 len false = { s.pkt with hdr := count s.pkt.hdr s.pkt.current 1, size := s.pkt.size + len } := by
      unfold putRr; rw [if_pos (by omega)]
    show (LState.done, { s with pkt := putRr s.pkt 1 len false }) = _
    rw [hput]
  have hmidd := mid_byClass (e := e) hm2 (hmid rfl (by omega))
  rw [hbc] at hmidd
  dsimp only at hmidd
  show Reply.rcode (finish e q (middle e q .produce s).1 (middle e q .produce s).2).2.pkt = _
  have hmd : middle e q .produce s = post e q .done { s with pkt := { s.pkt with hdr := count s.pkt.hdr s.pkt.current 1, size := s.pkt.size + len } } := by
    unfold middle; rw [if_neg (by simp)]; dsimp only; rw [if_pos rfl, hbc]
  rw [hmd]
  have hmb := mid_begin hmidd 2
  obtain ⟨b1, b2, b3, b4, b5⟩ := begin_rest ({ s.pkt with hdr := count s.pkt.hdr s.pkt.current 1, size := s.pkt.size + len }) 2
  unfold post
  rw [if_pos (.inl rfl)]
  dsimp only at b1 b2 b3 b4 hmb ⊢
  generalize begin { s.pkt with hdr := count s.pkt.hdr s.pkt.current 1, size := s.pkt.size + len } 2 = p2 at b1 b2 b3 b4 hmb
  have hli := ednsPut_lined (e := e) (q := q) (s := ⟨p2, s.qd⟩) hmb.ok hmb.bare
  have hans := answers_ednsPut hmb.answers e
  rcases ednsPut_cases e q ⟨p2, s.qd⟩ with ⟨ho', _⟩ | ⟨o', ho', ⟨hbad, _⟩ | ⟨hge, p, o2, hpp, ho2, hput⟩⟩
  · dsimp only at ho'; rw [ho1] at ho'; cases ho'
  · dsimp only at ho' hbad; rw [ho1] at ho'; injection ho' with ho'; subst ho'; omega
  · dsimp only at ho' hge hpp
    rw [ho1] at ho'; injection ho' with ho'; subst ho'
    rw [addEde_none (s := ⟨p2, s.qd⟩) hede, addExpire_none (s := ⟨p2, s.qd⟩) hzone] at ho2
    have p1 : p.size = s.pkt.size + len := by rw [hpp]; exact b1
    have pr : p.reserved = 0 := by rw [hpp]; dsimp only; omega
    have pm : p.maxSize = 65535 := by rw [hpp]; dsimp only; omega
    have hrem : remaining p = 65535 - p.size := by rw [remaining_of (by omega) (by omega)]; omega
    have hsum := addPadding_aligned hpr p o1
    have hle : T ≤ p.size + o2.wireSize ∧ (T % 468 = 0 → p.size + o2.wireSize = T) ∧ (T % 468 ≠ 0 → T + 4 ≤ p.size + o2.wireSize ∧ p.size + o2.wireSize ≤ T + 471) := by
      rw [ho2]
      unfold addPadding
      rw [if_pos hpr]
      have hsz1 : p.size + p.reserved + o1.wireSize = T := by omega
      cases hal : alignment (p.size + p.reserved) o1.wireSize 468 with
      | none =>
        have := alignment_none hal (wireSize_pos o1)
        dsimp only
        exact ⟨by omega, fun _ => by omega, fun h => by omega⟩
      | some n =>
        have hx := alignment_lt hal
        dsimp only
        rw [wireSize_add]
        dsimp only
        have hne : T % 468 ≠ 0 := by
          intro h0
          unfold alignment at hal
          rw [if_neg (by have := wireSize_pos o1; omega), if_pos (by omega)] at hal
          cases hal
        exact ⟨by omega, fun h => absurd h hne, fun _ => ⟨by omega, by omega⟩⟩
    rw [← ho2] at hsum
    rcases hput with ⟨hlt, hput⟩ | ⟨hge2, hput⟩
    · rw [hput] at hli hans ⊢
      rw [if_neg (by omega)]
      dsimp only at hli ⊢
      have hw2 : o2.wireSize ≤ 11 + 471 := by
        have := addPadding_size e p o1
        unfold padMax at this; rw [if_pos hpr] at this; rw [ho2]; omega
      have hpm : padMax e = 471 := by unfold padMax; rw [if_pos hpr]
      have hqq : p2.maxSize = 65535 := by omega
      refine (err_code (e := e) (q := q) (s := ⟨{ p with hdr := p.hdr.setTc }, { s.qd with opt := some o2, rcode := 1 }⟩) ⟨hli.1.pos, hli.1.ext⟩
        (by dsimp only; omega) (by dsimp only; omega) ?_ hkey hv5 (by simp) (by simp) (fun h => by cases h)).1
      intro o ho
      injection ho with ho; subst ho
      dsimp only; omega
    · rw [hput] at hli hans ⊢
      rw [if_pos (by omega)]
      dsimp only at hli hans ⊢
      have hsg : ∀ u : St, u.qd.key = none → u.qd.rcodeTsig = 0 → sign q u = (true, u) := by
        intro u h1 h2
        rcases sign_cases q u with ⟨_, h⟩ | ⟨n, h, _⟩
        · exact h
        · rw [tsigLen_early h1 h2] at h; cases h
      rw [hsg ⟨_, { s.qd with opt := some o2, optPos := some p.size }⟩ hkey hv5]
      dsimp only
      have := (shown_setRcode hans (hli.2.1 rfl).1).1
      refine this.trans ?_
      unfold shown
      dsimp only
      rw [hrc]
      rfl

example (g : Hdr) : Reply.rcode (produce { e50 with proto := .quic, zonedb := [], handler := fun _ => ([.put 1 65500 false], .done) }
    { q50 with opt := some ⟨1232, 0, false, false, none, false⟩ } (start g)).2.pkt = 1 :=
  C50_padding _ _ g 65500 65530 ⟨by decide, by decide⟩ (.inl rfl) (.inl rfl) ⟨by decide, by decide⟩ (fun _ => rfl) (fun _ => rfl) rfl (by decide) rfl (by decide) rfl
    (by decide) (by decide) (by decide) (by decide)

/-- C50. What the option EXPIRE says, while the time has not passed: how long the zone will be valid. -/
theorem C50_expire_partial (z : Zone) (now : Nat) (h : z.dnssecExpire ≠ 0 ∨ z.nextExpire ≠ 0)
    (h1 : z.dnssecExpire ≠ 0 → now ≤ z.dnssecExpire ∧ z.dnssecExpire < now + 2 ^ 32)
    (h2 : z.nextExpire ≠ 0 → now ≤ z.nextExpire ∧ z.nextExpire < now + 2 ^ 32) :
    (z.dnssecExpire ≠ 0 → now + expireTimer z now ≤ z.dnssecExpire) ∧ (z.nextExpire ≠ 0 → now + expireTimer z now ≤ z.nextExpire) ∧
    (now + expireTimer z now = z.dnssecExpire ∨ now + expireTimer z now = z.nextExpire) := by
  have hm : timeMin z.dnssecExpire z.nextExpire ≠ 0 ∧ now ≤ timeMin z.dnssecExpire z.nextExpire ∧
      timeMin z.dnssecExpire z.nextExpire < now + 2 ^ 32 ∧ (z.dnssecExpire ≠ 0 → timeMin z.dnssecExpire z.nextExpire ≤ z.dnssecExpire) ∧
      (z.nextExpire ≠ 0 → timeMin z.dnssecExpire z.nextExpire ≤ z.nextExpire) ∧
      (timeMin z.dnssecExpire z.nextExpire = z.dnssecExpire ∨ timeMin z.dnssecExpire z.nextExpire = z.nextExpire) := by
    unfold timeMin
    split <;> omega
  unfold expireTimer
  rw [if_neg hm.1]
  omega

/-- C50. Finding: if the signatures of the zone have expired, the option EXPIRE does not say 0 but about 136 years. -/
theorem C50_expire (z : Zone) (now : Nat) (h1 : z.dnssecExpire ≠ 0) (h2 : z.dnssecExpire < now) (h3 : now ≤ z.dnssecExpire + 2 ^ 31)
    (h4 : z.nextExpire = 0 ∨ now ≤ z.nextExpire) (h5 : now < 2 ^ 63) :
    expireTimer z now = 2 ^ 32 - (now - z.dnssecExpire) ∧ 2 ^ 31 ≤ expireTimer z now := by
  have hm : timeMin z.dnssecExpire z.nextExpire = z.dnssecExpire := by
    unfold timeMin
    split <;> omega
  unfold expireTimer
  rw [hm, if_neg h1]
  omega

example (g : Hdr) : (produce { e50 with zonedb := [([], ⟨true, false, 999, 1100, 86400⟩)] } q50 (start g)).2.pkt.opt =
    some (35, ⟨1232, 0, 0, true, [⟨3, 8, 0⟩, ⟨9, 4, 4294967295⟩]⟩) := by
  rw [C50_clean _ _ g g50 parsed50]; decide +kernel

/-- C50. Finding: with a long server identifier, the limit of UDP is lost. The record is reserved in a packet of 65535 bytes,
the limit is set later, and what remains is a number of 16 bits without sign. Here 250 bytes of NSID, the longest name and a client
that takes 512 bytes: it gets 40000 bytes of records and more. -/
theorem C50_nsid : ∃ (e : Env) (q : Query), Configured e ∧ Parsed q ∧ Plain e ∧ Quiet e ∧ Limit e q 512 ∧
    ∀ g, (produce e q (start g)).2.pkt.size = 40536 := by
  refine ⟨{ e50 with nsid := 250, handler := fun _ => ([.put 1 40000 false], .done) },
    { q50 with question := List.replicate 255 1 ++ [0, 1, 0, 1], opt := some ⟨512, 0, false, true, none, false⟩ }, ⟨by decide, by decide⟩, ⟨by decide +kernel, by decide⟩,
    ⟨fun _ => rfl, (fun z h hh => by cases hh), fun _ => .inr (.inl rfl)⟩, (fun z h hh => by cases hh), .inl ⟨rfl, rfl⟩, ?_⟩
  intro g
  rw [C50_clean _ _ g g50 ⟨by decide +kernel, by decide⟩]; decide +kernel

/-- C50. Finding: an extended code stays in the OPT record when the signature fails afterwards. Here the client of a catalog
gets code 18, where the server decided on SERVFAIL. -/
theorem C50_ext_rcode : ∃ (e : Env) (q : Query), Configured e ∧ Parsed q ∧ Plain e ∧ optSize e q ≤ 11 ∧
    ∀ g, (produce e q (start g)).2.qd.rcode = 2 ∧ Reply.rcode (produce e q (start g)).2.pkt = 18 := by
  refine ⟨{ e50 with zonedb := [([], ⟨true, true, 0, 0, 0⟩)], acl := some (some 300), beginHooks := fun _ => [fun _ => ([.cookie 24, .rcode 23], .fail)] },
    { q50 with question := List.replicate 255 1 ++ [0, 1, 0, 1], opt := some ⟨512, 0, false, false, none, false⟩ }, ⟨by decide, by decide⟩, ⟨by decide +kernel, by decide⟩,
    ⟨fun _ => rfl, ?_, fun _ => .inr (.inl rfl)⟩, by decide, ?_⟩
  · intro z h hh s
    rcases List.mem_cons.mp hh with h1 | h1
    · subst h1; exact .inr (.inr rfl)
    · cases h1
  · intro g
    rw [C50_clean _ _ g g50 ⟨by decide +kernel, by decide⟩]; decide +kernel

end Knot
