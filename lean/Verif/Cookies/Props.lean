import Verif.Cookies.Lemmas
/-!
# C32: DNS cookies
-/
namespace Knot.Cookies
open WireCtx

/-! ## Specification -/

/-- A server cookie of version 1 that carries the hash keyed by the secret over the client cookie,
its own first eight octets and the address of the client. -/
def Authentic (H : Hash) (secret raw cc sc : Bytes) : Prop :=
  sc.length = 16 ∧ sc.head? = some 1 ∧ sc.drop 8 = le64 (H secret (cc ++ sc.take 8 ++ raw))

/-- The time of issue of a server cookie. -/
def issued (sc : Bytes) : Nat := beVal ((sc.drop 4).take 4)

/-! ## Lemmas -/

theorem issued_lt (sc : Bytes) : issued sc < 2 ^ 32 := by
  have : ∀ b : Bytes, b.length ≤ 4 → beVal b < 2 ^ 32 := by
    intro b hb
    have hlt : ∀ b : Bytes, beVal b < 256 ^ b.length := by
      intro b
      induction b with
      | nil => simp [beVal]
      | cons x t ih =>
        simp only [beVal, List.length_cons, Nat.pow_succ]
        have := x.toNat_lt
        have h1 : x.toNat * 256 ^ t.length ≤ 255 * 256 ^ t.length :=
          Nat.mul_le_mul_right _ (by omega)
        omega
    have h2 : 256 ^ b.length ≤ 256 ^ 4 := Nat.pow_le_pow_right (by omega) hb
    have := hlt b
    omega
  apply this
  simp only [List.length_take]; omega

theorem gen_ok (H : Hash) (out cc raw : Bytes) (p : Params) (hp : p.client = some (some raw))
    (hc : cc.length = 8) (hn : out ≠ []) :
    generateTail H out cc p =
      if out.head? = some 1 then .ok (out ++ le64 (H p.secret (cc ++ out ++ raw))) else .err .enotsup := by
  obtain ⟨v, t, rfl⟩ := List.exists_cons_of_ne_nil hn
  simp only [generateTail, hp, hc, Res.rd]
  simp

/-- The window as the code compares it. -/
def Cmp (p : Params) (t : Nat) : Prop :=
  (p.timestamp - p.before).toNat ≤ t ∧ t ≤ (p.timestamp + p.after).toNat

theorem check_iff (H : Hash) (sc cc raw : Bytes) (p : Params) (hp : p.client = some (some raw))
    (hc : cc.length = 8) :
    (serverCheck H sc cc p = .ok () ↔ Authentic H p.secret raw cc sc ∧ Cmp p (issued sc)) ∧
    serverCheck H sc cc p ≠ .ub := by
  unfold serverCheck
  by_cases hl : sc.length < 8
  · rw [if_pos hl]
    refine ⟨⟨by simp, ?_⟩, by simp⟩
    rintro ⟨⟨h1, _⟩, _⟩; omega
  · rw [if_neg hl]
    have hto : (UInt32.ofNat (beVal ((sc.drop 4).take 4))).toNat = issued sc := by
      have := issued_lt sc
      unfold issued at *
      simp only [UInt32.toNat_ofNat']
      exact Nat.mod_eq_of_lt this
    simp only [UInt32.lt_iff_toNat_lt, gt_iff_lt, hto]
    by_cases hw : Cmp p (issued sc)
    · rw [if_neg (by unfold Cmp at hw; omega)]
      have htne : sc.take 8 ≠ [] := by
        intro h
        have := congrArg List.length h
        simp only [List.length_take, List.length_nil] at this; omega
      rw [gen_ok H _ cc raw p hp hc htne]
      have hhd : (sc.take 8).head? = sc.head? := by
        cases sc with
        | nil => simp at hl
        | cons a s => rfl
      rw [hhd]
      by_cases hv : sc.head? = some 1
      · rw [if_pos hv]
        simp only [Res.bind_ok]
        have hlen : (sc.take 8).length = 8 := by rw [List.length_take]; omega
        rw [List.length_append, hlen, le64_length]
        by_cases h16 : sc.length = 16
        · rw [if_neg (by omega), List.drop_append_of_le_length (by omega)]
          have hd0 : (sc.take 8).drop 8 = [] := List.drop_eq_nil_of_le (by omega)
          rw [hd0, List.nil_append]
          have hcm := constTimeMemcmp_eq (sc.drop 8) (le64 (H p.secret (cc ++ sc.take 8 ++ raw)))
            (by rw [le64_length, List.length_drop]; omega)
          by_cases he : sc.drop 8 = le64 (H p.secret (cc ++ sc.take 8 ++ raw))
          · rw [if_neg (by simpa using hcm.mpr he)]
            exact ⟨⟨fun _ => ⟨⟨h16, hv, he⟩, hw⟩, fun _ => rfl⟩, by simp⟩
          · rw [if_pos (fun h => he (hcm.mp h))]
            exact ⟨⟨by simp, fun h => absurd h.1.2.2 he⟩, by simp⟩
        · rw [if_pos (by omega)]
          exact ⟨⟨by simp, fun h => absurd h.1.1 h16⟩, by simp⟩
      · rw [if_neg hv]
        exact ⟨⟨by simp, fun h => absurd h.1.2.1 hv⟩, by simp⟩
    · rw [if_pos (by unfold Cmp at hw; omega)]
      exact ⟨⟨by simp, fun h => absurd h.2 hw⟩, by simp⟩

theorem generate_eq (H : Hash) (cc raw : Bytes) (p : Params) (hp : p.client = some (some raw))
    (hc : cc.length = 8) (hv : p.version = 1) :
    ∃ sc, serverGenerate H cc p = .ok sc ∧ Authentic H p.secret raw cc sc ∧
      issued sc = p.timestamp.toNat := by
  unfold serverGenerate
  rw [gen_ok H _ cc raw p hp hc (by simp), if_pos (by simp [hv])]
  have hb := length_beBytes 4 p.timestamp.toNat
  have hlen : (p.version :: 0 :: 0 :: 0 :: beBytes 4 p.timestamp.toNat).length = 8 := by simp [hb]
  refine ⟨_, rfl, ⟨?_, ?_, ?_⟩, ?_⟩
  · rw [List.length_append, hlen, le64_length]
  · simp [hv]
  · rw [List.drop_append_of_le_length (by omega), List.take_append_of_le_length (by omega)]
    rw [List.drop_eq_nil_of_le (by omega), List.take_of_length_le (by omega)]
    rfl
  · unfold issued
    have h1 : (p.version :: 0 :: 0 :: 0 :: beBytes 4 p.timestamp.toNat ++
        le64 (H p.secret (cc ++ (p.version :: 0 :: 0 :: 0 :: beBytes 4 p.timestamp.toNat) ++ raw))).drop 4 =
        beBytes 4 p.timestamp.toNat ++
        le64 (H p.secret (cc ++ (p.version :: 0 :: 0 :: 0 :: beBytes 4 p.timestamp.toNat) ++ raw)) := rfl
    rw [h1, List.take_append_of_le_length (by omega), List.take_of_length_le (by omega), beVal_beBytes]
    have := p.timestamp.toNat_lt
    omega

theorem cmp_nowrap (p : Params) (h1 : p.before.toNat ≤ p.timestamp.toNat)
    (h2 : p.timestamp.toNat + p.after.toNat < 2 ^ 32) (t : Nat) :
    Cmp p t ↔ p.timestamp.toNat - p.before.toNat ≤ t ∧ t ≤ p.timestamp.toNat + p.after.toNat := by
  unfold Cmp
  rw [UInt32.toNat_sub_of_le _ _ (UInt32.le_iff_toNat_le.mpr h1), UInt32.toNat_add, Nat.mod_eq_of_lt h2]

/-- Each secret in turn. -/
theorem tryAll_spec (H : Hash) (sc cc raw : Bytes) (p : Params) (hp : p.client = some (some raw))
    (hc : cc.length = 8) (ss : List Bytes) (last : Res Unit) :
    ((∃ s ∈ ss, serverCheck H sc cc { p with secret := s } = .ok ()) →
      (tryAll H sc cc p last ss).1 = .ok ()) ∧
    ((¬ ∃ s ∈ ss, serverCheck H sc cc { p with secret := s } = .ok ()) → ss ≠ [] →
      ∃ e, (tryAll H sc cc p last ss).1 = .err e ∧
        (tryAll H sc cc p last ss).2 = { p with secret := ss.getLastD [] }) := by
  induction ss generalizing last p with
  | nil => simp
  | cons s ss ih =>
    have hchk := check_iff H sc cc raw { p with secret := s } hp hc
    simp only [tryAll]
    cases h : serverCheck H sc cc { p with secret := s } with
    | ub => exact absurd h hchk.2
    | ok a =>
      refine ⟨fun _ => rfl, fun hn => absurd ⟨s, by simp, h⟩ hn⟩
    | err e =>
      have hi := ih { p with secret := s } hp (.err e)
      refine ⟨fun hex => hi.1 ?_, fun hn _ => ?_⟩
      · obtain ⟨s', hs', h'⟩ := hex
        rcases List.mem_cons.mp hs' with rfl | hs'
        · rw [h] at h'; cases h'
        · exact ⟨s', hs', h'⟩
      · by_cases hss : ss = []
        · subst hss
          exact ⟨e, rfl, rfl⟩
        · obtain ⟨e', h1, h2⟩ := hi.2 (fun ⟨s', hs', h'⟩ => hn ⟨s', by simp [hs'], h'⟩) hss
          refine ⟨e', h1, ?_⟩
          rw [h2]
          obtain ⟨b, t, rfl⟩ := List.exists_cons_of_ne_nil hss
          rfl

theorem putCookie_ok (cc sc : Bytes) (hc : cc.length = 8) (hs : sc.length = 16) :
    ∃ o, putCookie cc sc = .ok o ∧ Edns.cookieParse o = .ok (cc, sc) := by
  have h := C25_cookie cc sc
  exact h.2 (h.1.mpr ⟨hc, .inr (by omega)⟩) _ (by simp)

theorem parse_len {data cc sc : Bytes} (h : Edns.cookieParse data = .ok (cc, sc)) : cc.length = 8 := by
  unfold Edns.cookieParse at h
  split at h
  · cases h
  · cases h1 : load data 0 8 with
    | err e => rw [h1] at h; simp at h
    | ub => rw [h1] at h; simp at h
    | ok a =>
      rw [h1] at h
      simp only [Res.bind_ok] at h
      cases h2 : load data 8 (data.length - 8) with
      | err e => rw [h2] at h; simp at h
      | ub => rw [h2] at h; simp at h
      | ok b =>
        rw [h2] at h
        simp only [Res.bind_ok, Res.ok.injEq, Prod.mk.injEq] at h
        obtain ⟨rfl, rfl⟩ := h
        unfold load at h1
        split at h1
        · injection h1 with h1
          rw [← h1]
          simp only [List.length_take, List.length_drop]; omega
        · cases h1

/-- The parameters of the module. -/
def modParams (now : UInt32) (raw secret : Bytes) : Params := ⟨1, now, 3600, 300, some (some raw), secret⟩

/-- The module accepts the server cookie under some secret. -/
def Accepts (H : Hash) (secrets : List Bytes) (now : UInt32) (raw cc sc : Bytes) : Prop :=
  ∃ s ∈ secrets, Authentic H s raw cc sc ∧ Cmp (modParams now raw s) (issued sc)

theorem accepts_iff (H : Hash) (secrets : List Bytes) (now : UInt32) (raw cc sc : Bytes) (hc : cc.length = 8) :
    Accepts H secrets now raw cc sc ↔
    ∃ s ∈ secrets.reverse, serverCheck H sc cc { modParams now raw [] with secret := s } = .ok () := by
  unfold Accepts
  constructor
  · rintro ⟨s, hs, h⟩
    exact ⟨s, by simpa using hs, (check_iff H sc cc raw _ rfl hc).1.mpr h⟩
  · rintro ⟨s, hs, h⟩
    exact ⟨s, by simpa using hs, (check_iff H sc cc raw _ rfl hc).1.mp h⟩

theorem process_eq (H : Hash) (c : Ctx) (data cc sc : Bytes) (now : UInt32) (raw : Bytes) (udp : Bool)
    (hs : c.secrets ≠ []) (hd : Edns.cookieParse data = .ok (cc, sc)) :
    (Accepts H c.secrets now raw cc sc → ∃ o, process H c (some data) now (some raw) udp =
      .ok (.answer o true, c) ∧ Edns.cookieParse o = .ok (cc, sc)) ∧
    (¬ Accepts H c.secrets now raw cc sc → ∃ o sc', Edns.cookieParse o = .ok (cc, sc') ∧
      Authentic H (c.secrets.headD []) raw cc sc' ∧ issued sc' = now.toNat ∧
      process H c (some data) now (some raw) udp =
        if ¬ udp then .ok (.answer o false, c)
        else if c.ctr > 1 then .ok (.drop, updateCtr c)
        else .ok (.badcookie o, if c.slip > 1 then updateCtr c else c)) := by
  have hc := parse_len hd
  have htry := tryAll_spec H sc cc raw (modParams now raw []) rfl hc c.secrets.reverse (.ok ())
  rw [← accepts_iff H c.secrets now raw cc sc hc] at htry
  constructor
  · intro ha
    have h1 := htry.1 ha
    have h16 : sc.length = 16 := by obtain ⟨s, _, ⟨h, _⟩, _⟩ := ha; exact h
    obtain ⟨o, ho, hpo⟩ := putCookie_ok cc sc hc h16
    refine ⟨o, ?_, hpo⟩
    simp only [process, hd]
    change (match tryAll H sc cc (modParams now raw []) (.ok ()) c.secrets.reverse with
      | (.ub, _) => _
      | (.ok (), _) => _
      | (.err _, p) => _) = _
    generalize tryAll H sc cc (modParams now raw []) (.ok ()) c.secrets.reverse = q at *
    obtain ⟨r, p⟩ := q
    simp only at h1
    subst h1
    simp only [ho]
  · intro hna
    obtain ⟨e, h1, h2⟩ := htry.2 hna (by simpa using hs)
    have hlast : c.secrets.reverse.getLastD [] = c.secrets.headD [] := by
      cases hsl : c.secrets with
      | nil => rfl
      | cons a t => simp [List.getLastD_eq_getLast?]
    rw [hlast] at h2
    obtain ⟨sc', hg, ha, hi⟩ := generate_eq H cc raw (modParams now raw (c.secrets.headD [])) rfl hc rfl
    obtain ⟨o, ho, hpo⟩ := putCookie_ok cc sc' hc ha.1
    refine ⟨o, sc', hpo, ha, hi, ?_⟩
    simp only [process, hd]
    change (match tryAll H sc cc (modParams now raw []) (.ok ()) c.secrets.reverse with
      | (.ub, _) => _
      | (.ok (), _) => _
      | (.err _, p) => _) = _
    generalize tryAll H sc cc (modParams now raw []) (.ok ()) c.secrets.reverse = q at *
    obtain ⟨r, p⟩ := q
    simp only at h1 h2
    subst h1 h2
    have hp : ({ modParams now raw [] with secret := c.secrets.headD [] } : Params) =
      modParams now raw (c.secrets.headD []) := rfl
    simp only [renew, hp, hg, Res.bind_ok, ho]

/-- Answers to successive bad cookies over UDP: whether the counter lets the answer go. -/
def slips (c : Ctx) : Nat → List Bool
  | 0 => []
  | n + 1 => decide (¬ c.ctr > 1) :: slips (if c.ctr > 1 then updateCtr c else if c.slip > 1 then updateCtr c else c) n

theorem slips_eq (c : Ctx) (n : Nat) (h1 : 1 ≤ c.slip) (hw : c.slip < c.width) (hc : 1 ≤ c.ctr)
    (hcs : c.ctr ≤ c.slip) (k : Nat) (hk : k < n) :
    (slips c n)[k]? = some (decide ((c.ctr - 1 + k) % c.slip = 0)) := by
  induction n generalizing c k with
  | zero => omega
  | succ n ih =>
    simp only [slips]
    cases k with
    | zero =>
      simp only [List.getElem?_cons_zero, Option.some.injEq, decide_eq_decide, Nat.add_zero]
      rw [Nat.mod_eq_of_lt (by omega)]; omega
    | succ k =>
      simp only [List.getElem?_cons_succ]
      by_cases hs1 : c.slip = 1
      · have hcc : c.ctr = 1 := by omega
        rw [if_neg (by omega), if_neg (by omega), ih c h1 hw hc hcs k (by omega)]
        simp [hs1, Nat.mod_one]
      · have hsl : c.slip > 1 := by omega
        have hu : (if c.ctr > 1 then updateCtr c else if c.slip > 1 then updateCtr c else c) = updateCtr c := by
          split
          · rfl
          · rfl
        rw [hu]
        unfold updateCtr
        by_cases hlt : c.ctr < c.slip
        · rw [if_pos hlt]
          have hmod : (c.ctr + 1) % c.width = c.ctr + 1 := Nat.mod_eq_of_lt (by omega)
          rw [hmod, ih { c with ctr := c.ctr + 1 } h1 hw (by simp) hlt k (by omega)]
          simp only
          rw [show c.ctr + 1 - 1 + k = c.ctr - 1 + (k + 1) by omega]
        · rw [if_neg hlt, ih { c with ctr := 1 } h1 hw (by simp) h1 k (by omega)]
          simp only
          rw [show c.ctr - 1 + (k + 1) = (1 - 1 + k) + c.slip by omega, Nat.add_mod_right]

end Knot.Cookies

namespace Knot
open Cookies WireCtx

/-- **C32.** Away from the wrap of the clock a server cookie is accepted exactly if it is authentic
and was issued within the window. (The full claim asks this under serial arithmetic for every
clock; `C32_wrap` shows that the code does not do that.) -/
theorem C32_check_partial (H : Hash) (sc cc raw : Bytes) (p : Params) (hp : p.client = some (some raw))
    (hc : cc.length = 8) (h1 : p.before.toNat ≤ p.timestamp.toNat)
    (h2 : p.timestamp.toNat + p.after.toNat < 2 ^ 32) :
    serverCheck H sc cc p = .ok () ↔
      Authentic H p.secret raw cc sc ∧ p.timestamp.toNat - p.before.toNat ≤ issued sc ∧
        issued sc ≤ p.timestamp.toNat + p.after.toNat := by
  rw [(check_iff H sc cc raw p hp hc).1, cmp_nowrap p h1 h2]

/-- **C32.** No input makes the check fail an assertion. -/
theorem C32_safe (H : Hash) (sc cc raw : Bytes) (p : Params) (hp : p.client = some (some raw)) :
    serverCheck H sc cc p ≠ .ub := by
  by_cases hc : cc.length = 8
  · exact (check_iff H sc cc raw p hp hc).2
  · unfold serverCheck generateTail
    simp only [hp, hc]
    split
    · simp
    · split <;> simp

/-- **Finding.** When the window contains the wrap of the 32-bit clock, every cookie is refused,
also one issued right now. -/
theorem C32_wrap (H : Hash) (sc cc raw : Bytes) (p : Params) (hp : p.client = some (some raw))
    (hs : p.before.toNat + p.after.toNat < 2 ^ 32)
    (hw : p.timestamp.toNat < p.before.toNat ∨ 2 ^ 32 ≤ p.timestamp.toNat + p.after.toNat) :
    serverCheck H sc cc p ≠ .ok () := by
  by_cases hc : cc.length = 8
  · rw [ne_eq, (check_iff H sc cc raw p hp hc).1]
    rintro ⟨-, h1, h2⟩
    have ht := p.timestamp.toNat_lt
    have hb := p.before.toNat_lt
    have ha := p.after.toNat_lt
    rw [UInt32.toNat_sub] at h1
    rw [UInt32.toNat_add] at h2
    omega
  · unfold serverCheck generateTail
    simp only [hp, hc]
    split
    · simp
    · split <;> simp

/-- **C32.** A cookie issued by the server is accepted, with the same secret, for the same client
and client cookie, exactly during the window. -/
theorem C32_issued (H : Hash) (cc raw : Bytes) (p q : Params) (hp : p.client = some (some raw))
    (hq : q.client = some (some raw)) (hs : p.secret = q.secret)
    (hc : cc.length = 8) (hv : p.version = 1) (h1 : q.before.toNat ≤ q.timestamp.toNat)
    (h2 : q.timestamp.toNat + q.after.toNat < 2 ^ 32) :
    ∃ sc, serverGenerate H cc p = .ok sc ∧
      (serverCheck H sc cc q = .ok () ↔
        q.timestamp.toNat - q.before.toNat ≤ p.timestamp.toNat ∧
        p.timestamp.toNat ≤ q.timestamp.toNat + q.after.toNat) := by
  obtain ⟨sc, hg, ha, hi⟩ := generate_eq H cc raw p hp hc hv
  refine ⟨sc, hg, ?_⟩
  rw [(check_iff H sc cc raw q hq hc).1, cmp_nowrap q h1 h2, hi, ← hs]
  exact ⟨fun h => h.2, fun h => ⟨ha, h⟩⟩

/-- **C32.** A client cookie is accepted exactly if it is the one generated for the server. -/
theorem C32_client (H : Hash) (cc raw secret : Bytes) :
    clientCheck H cc (some (some raw)) secret = .ok () ↔
      clientGenerate H (some (some raw)) secret = .ok cc := by
  unfold clientCheck clientGenerate
  by_cases hc : cc.length = 8
  · rw [if_neg (by omega)]
    simp only [Res.bind_ok, Res.ok.injEq]
    rw [List.take_of_length_le (by rw [le64_length]; omega)]
    have := constTimeMemcmp_eq cc (le64 (H secret raw)) (by rw [le64_length]; exact hc)
    by_cases he : cc = le64 (H secret raw)
    · rw [if_neg (by simpa using this.mpr he)]; exact ⟨fun _ => he.symm, fun _ => rfl⟩
    · rw [if_pos (fun h => he (this.mp h))]; exact ⟨by simp, fun h => absurd h.symm he⟩
  · rw [if_pos hc]
    refine ⟨by simp, ?_⟩
    intro h
    injection h with h
    exact absurd (by rw [← h]; exact le64_length _) hc

/-- **C32, the module.** A query is flagged as having a valid cookie exactly if its server cookie is
authentic under one of the secrets and was issued in the last hour (or at most five minutes ahead). -/
theorem C32_module (H : Hash) (c : Cookies.Ctx) (data cc sc : Bytes) (now : UInt32) (raw : Bytes) (udp : Bool)
    (hs : c.secrets ≠ []) (hd : Edns.cookieParse data = .ok (cc, sc))
    (h1 : 3600 ≤ now.toNat) (h2 : now.toNat + 300 < 2 ^ 32) :
    (∃ o c', process H c (some data) now (some raw) udp = .ok (.answer o true, c')) ↔
      ∃ s ∈ c.secrets, Authentic H s raw cc sc ∧ now.toNat - 3600 ≤ issued sc ∧ issued sc ≤ now.toNat + 300 := by
  have hacc : Accepts H c.secrets now raw cc sc ↔
      ∃ s ∈ c.secrets, Authentic H s raw cc sc ∧ now.toNat - 3600 ≤ issued sc ∧ issued sc ≤ now.toNat + 300 := by
    unfold Accepts
    constructor <;> rintro ⟨s, hs, ha, hw⟩ <;> refine ⟨s, hs, ha, ?_⟩
    · exact (cmp_nowrap (modParams now raw s) h1 h2 _).mp hw
    · exact (cmp_nowrap (modParams now raw s) h1 h2 _).mpr hw
  rw [← hacc]
  have hpr := process_eq H c data cc sc now raw udp hs hd
  constructor
  · rintro ⟨o, c', h⟩
    refine Classical.byContradiction fun hna => ?_
    obtain ⟨o', sc', _, _, _, h'⟩ := hpr.2 hna
    rw [h'] at h
    split at h
    · simp at h
    · split at h <;> simp at h
  · intro ha
    obtain ⟨o, h, _⟩ := hpr.1 ha
    exact ⟨o, c, h⟩

/-- **C32, the module.** Every other query over UDP is dropped or answered BADCOOKIE, over other
transports it is processed without the flag; what is sent back is the client cookie with a new
server cookie by the first secret, which this server will accept for an hour. -/
theorem C32_renew (H : Hash) (c : Cookies.Ctx) (data cc sc : Bytes) (now : UInt32) (raw : Bytes) (udp : Bool)
    (hs : c.secrets ≠ []) (hd : Edns.cookieParse data = .ok (cc, sc))
    (hn : ∀ o c', process H c (some data) now (some raw) udp ≠ .ok (.answer o true, c')) :
    ∃ r c', process H c (some data) now (some raw) udp = .ok (r, c') ∧ c'.secrets = c.secrets ∧
      ((udp = true ∧ r = .drop) ∨
      ∃ o, ((udp = true ∧ r = .badcookie o) ∨ (udp = false ∧ r = .answer o false)) ∧
        ∃ sc', Edns.cookieParse o = .ok (cc, sc') ∧
          ∀ later : UInt32, 3600 ≤ later.toNat → later.toNat + 300 < 2 ^ 32 → now ≤ later →
            later.toNat ≤ now.toNat + 3600 → ∀ (c'' : Cookies.Ctx) (u : Bool), c''.secrets = c.secrets →
            ∃ o', process H c'' (some o) later (some raw) u = .ok (.answer o' true, c'') ∧
              Edns.cookieParse o' = .ok (cc, sc')) := by
  have hpr := process_eq H c data cc sc now raw udp hs hd
  by_cases ha : Accepts H c.secrets now raw cc sc
  · obtain ⟨o, h, _⟩ := hpr.1 ha
    exact absurd h (hn o c)
  · obtain ⟨o, sc', h1, h2, h3, h4⟩ := hpr.2 ha
    have hsec : (updateCtr c).secrets = c.secrets := by unfold updateCtr; split <;> rfl
    have hgood : ∀ later : UInt32, 3600 ≤ later.toNat → later.toNat + 300 < 2 ^ 32 → now ≤ later →
            later.toNat ≤ now.toNat + 3600 → ∀ (c'' : Cookies.Ctx) (u : Bool), c''.secrets = c.secrets →
            ∃ o', process H c'' (some o) later (some raw) u = .ok (.answer o' true, c'') ∧
              Edns.cookieParse o' = .ok (cc, sc') := by
      intro later hl1 hl2 hl3 hl4 c'' u hcs
      have hl3' := UInt32.le_iff_toNat_le.mp hl3
      refine (process_eq H c'' o cc sc' later raw u (by rw [hcs]; exact hs) h1).1 ?_
      refine ⟨c.secrets.headD [], ?_, h2, ?_⟩
      · rw [hcs]
        obtain ⟨a, t, he⟩ := List.exists_cons_of_ne_nil hs
        rw [he]; simp
      · refine (cmp_nowrap (modParams later raw _) hl1 hl2 _).mpr ?_
        rw [h3]
        change later.toNat - 3600 ≤ now.toNat ∧ now.toNat ≤ later.toNat + 300
        omega
    rw [h4]
    cases udp with
    | false => exact ⟨_, _, rfl, rfl, .inr ⟨o, .inr ⟨rfl, rfl⟩, sc', h1, hgood⟩⟩
    | true =>
      simp only [not_true_eq_false, if_false]
      split
      · exact ⟨_, _, rfl, hsec, .inl ⟨trivial, rfl⟩⟩
      · refine ⟨_, _, rfl, ?_, .inr ⟨o, .inl ⟨trivial, rfl⟩, sc', h1, hgood⟩⟩
        split
        · exact hsec
        · rfl

namespace Cookies

/-- A series of queries over UDP with bad cookies: which of them are answered. -/
def answered (H : Hash) (raw : Bytes) : Cookies.Ctx → List (Bytes × UInt32) → List Bool
  | _, [] => []
  | c, (data, now) :: qs =>
    match process H c (some data) now (some raw) true with
    | .ok (.badcookie _, c') => true :: answered H raw c' qs
    | .ok (.drop, c') => false :: answered H raw c' qs
    | _ => []

theorem answered_eq (H : Hash) (raw : Bytes) (c : Cookies.Ctx) (qs : List (Bytes × UInt32)) (hs : c.secrets ≠ [])
    (hq : ∀ q ∈ qs, ∃ cc sc, Edns.cookieParse q.1 = .ok (cc, sc) ∧ ¬ Accepts H c.secrets q.2 raw cc sc) :
    answered H raw c qs = slips c qs.length := by
  induction qs generalizing c with
  | nil => rfl
  | cons q qs ih =>
    obtain ⟨data, now⟩ := q
    obtain ⟨cc, sc, h1, h2⟩ := hq (data, now) (by simp)
    obtain ⟨o, sc', _, _, _, h4⟩ := (process_eq H c data cc sc now raw true hs h1).2 h2
    have hsec : (updateCtr c).secrets = c.secrets := by unfold updateCtr; split <;> rfl
    simp only [answered, h4, List.length_cons, slips]
    simp only [not_true_eq_false, if_false]
    by_cases hc : c.ctr > 1
    · simp only [hc, if_true]
      rw [ih (updateCtr c) (by rw [hsec]; exact hs) (by
        intro q hq'; rw [hsec]; exact hq q (by simp [hq']))]
      simp
    · simp only [hc, if_false]
      have hsec' : (if c.slip > 1 then updateCtr c else c).secrets = c.secrets := by
        split
        · exact hsec
        · rfl
      rw [ih _ (by rw [hsec']; exact hs) (by
        intro q hq'; rw [hsec']; exact hq q (by simp [hq']))]
      simp

end Cookies

/-- **C32, the module.** Of successive queries over UDP with bad cookies the first and then every
`slip`-th is answered (one thread; the counter can hold `slip`). -/
theorem C32_slip (H : Hash) (raw : Bytes) (c : Cookies.Ctx) (qs : List (Bytes × UInt32)) (hs : c.secrets ≠ [])
    (hq : ∀ q ∈ qs, ∃ cc sc, Edns.cookieParse q.1 = .ok (cc, sc) ∧ ¬ Accepts H c.secrets q.2 raw cc sc)
    (h0 : c.ctr = 1) (h1 : 1 ≤ c.slip) (hw : c.slip < c.width) (k : Nat) (hk : k < qs.length) :
    (answered H raw c qs)[k]? = some (decide (k % c.slip = 0)) := by
  rw [answered_eq H raw c qs hs hq, slips_eq c qs.length h1 hw (by omega) (by omega) k hk, h0]
  simp

/-- **Finding.** With a 16-bit counter a configured `badcookie-slip` above 65535 is not reached: after
65536 queries the counter starts at zero and two successive queries are answered. -/
theorem C32_slip_wrap (secrets : List Bytes) :
    slips ⟨secrets, 70000, 65535, 65536⟩ 4 = [false, true, true, false] := by
  simp [slips, updateCtr]

namespace Cookies.Witness

/-- A stand-in for the hash. -/
def H : Hash := fun k m => UInt64.ofNat (k.length + 7 * m.length + (m.headD 0).toNat)
def cc : Bytes := [1, 2, 3, 4, 5, 6, 7, 8]
def raw : Bytes := [192, 0, 2, 1]
def p : Params := ⟨1, 1000000, 3600, 300, some (some raw), [1, 2]⟩

/-- A cookie issued half an hour before. -/
def sc : Bytes := [1, 0, 0, 0, 0, 15, 59, 56] ++ le64 (H [1, 2] (cc ++ [1, 0, 0, 0, 0, 15, 59, 56] ++ raw))

end Cookies.Witness

open Cookies.Witness in
/-- An authentic cookie within the window, and the same one with a changed octet. -/
example : serverCheck H sc cc p = .ok () ∧ Authentic H p.secret raw cc sc ∧ issued sc = 998200 ∧
    serverCheck H (sc.set 15 99) cc p = .err .einval ∧
    serverCheck H sc cc { p with timestamp := 2000000 } = .err .erange := by
  refine ⟨by decide +kernel, ⟨by decide +kernel, by decide +kernel, by decide +kernel⟩, by decide +kernel,
    by decide +kernel, by decide +kernel⟩

open Cookies.Witness in
/-- The module with two secrets accepts a cookie by the second one; a client cookie alone is a bad
cookie and is answered. -/
example : (∃ o, process H ⟨[[9], [1, 2]], 2, 1, 65536⟩ (some (cc ++ sc)) 1000000 (some raw) true =
      .ok (.answer o true, ⟨[[9], [1, 2]], 2, 1, 65536⟩)) ∧
    (∃ o, process H ⟨[[9], [1, 2]], 2, 1, 65536⟩ (some cc) 1000000 (some raw) true =
      .ok (.badcookie o, ⟨[[9], [1, 2]], 2, 2, 65536⟩)) ∧
    Edns.cookieParse cc = .ok (cc, []) ∧ ¬ Accepts H [[9], [1, 2]] 1000000 raw cc [] := by
  refine ⟨⟨cc ++ sc, by rfl⟩, ⟨cc ++ ([1, 0, 0, 0, 0, 15, 66, 64] ++
    le64 (H [9] (cc ++ [1, 0, 0, 0, 0, 15, 66, 64] ++ raw))), by rfl⟩, by rfl, ?_⟩
  rintro ⟨s, _, ⟨h, _⟩, _⟩
  simp at h

end Knot
