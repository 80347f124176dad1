import Verif.Nsec3proof.Lemmas4
import Verif.Nsecproof.Props
/-!
# C49: NSEC3 proofs
-/
namespace Knot
open Nsec3proof
open Nsecproof (Says Wired NoWildDname)
open Answer (Zone Req Resp Rec State Link Path Lookup Owns Source Wild Regular answer Encloser Cut Deleg Auth)
open Dname (Name)
open Answer.Demo (lab nm ask nocut)
open Nsecproof.Demo (one auth_of owns_not not_says)

namespace Nsec3proof.Demo

/-! ## Zones for the examples -/

/-- A hash. -/
def digest (n : Name) : Nat := n.foldl (fun a l => l.foldl (fun a b => (a * 257 + b.toNat + 1) % 10007) (a * 257)) 0

/-- A name with its types: 0 for one of the zone, 1 for a delegation, 2 for one below a delegation. -/
abbrev Row := Name × List Nat × Nat

/-- The node, with signatures. -/
def node (rows : List Row) (x : Name) : Nsecchain.Node :=
  match rows.lookup x with
  | none => {}
  | some (l, k) => { types := l, sigs := if k = 2 then [] else if k = 1 then l.filter (· == 43) else l, nonauth := k == 2, deleg := k == 1 }

/-- The zone `e.` -/
def base (rows : List Row) (target : Name) : Zone3 :=
  { apex := nm ["e"], names := rows.map (·.1), node := node rows, target := fun _ _ => target, first := fun _ => 0, hash := digest
    tree := [], nsec3 := fun _ => none }

/-- With the chain made by knot_nsec3_create_chain(). -/
def build (o : Bool) (rows : List Row) (target : Name) : Zone3 :=
  match createChain (base rows target) o with
  | .ok z => z
  | _ => base rows target

theorem build_same (o : Bool) (rows : List Row) (t : Name) :
    (build o rows t).apex = nm ["e"] ∧ (build o rows t).hash = digest ∧ ∀ x u, (build o rows t).target x u = t := by
  unfold build createChain
  cases createNodes (base rows t) o <;> exact ⟨rfl, rfl, fun _ _ => rfl⟩

theorem adjust_fix {apex : Name} {h : Nsecchain.Heap} : ∀ (l : List Name), (∀ x ∈ l,
    if x ≠ apex ∧ ((h x.tail).deleg = true ∨ (h x.tail).nonauth = true) then (h x).nonauth = true ∧ (h x).deleg = false
    else (h x).nonauth = false ∧ (h x).deleg = decide (2 ∈ (h x).types ∧ x ≠ apex)) → Nsecchain.adjust apex l h = h
  | [], _ => rfl
  | x :: l, hl => by
    have h1 : Nsecchain.adjustOne apex h x = h := by
      have := hl x (by simp)
      have hput : ∀ n : Nsecchain.Node, n = h x → Nsecchain.put h x n = h := by
        intro n e
        funext y
        unfold Nsecchain.put
        split
        · next e' => rw [e, e']
        · rfl
      unfold Nsecchain.adjustOne
      dsimp only
      split at this
      · next hc =>
        rw [if_pos hc]
        apply hput
        cases e : h x
        simp_all
      · next hc =>
        rw [if_neg hc]
        split
        · next h2 =>
          apply hput
          cases e : h x
          simp_all
        · next h2 =>
          apply hput
          cases e : h x
          simp_all
    change Nsecchain.adjust apex l (Nsecchain.adjustOne apex h x) = h
    rw [h1]
    exact adjust_fix l (fun y hy => hl y (by simp [hy]))

theorem plan_of {rows : List Row} {t : Name}
    (h0 : ∀ x ∈ rows.map (·.1), if x ≠ nm ["e"] ∧ ((node rows x.tail).deleg = true ∨ (node rows x.tail).nonauth = true)
      then (node rows x).nonauth = true ∧ (node rows x).deleg = false
      else (node rows x).nonauth = false ∧ (node rows x).deleg = decide (2 ∈ (node rows x).types ∧ x ≠ nm ["e"]))
    (h1 : (rows.map (·.1)).Pairwise (fun a b => Dname.canonCmp a b = .lt))
    (h2 : ∀ x ∈ rows.map (·.1), nm ["e"] <:+ x) (h3 : ∀ x ∈ rows.map (·.1), x ≠ nm ["e"] → x.tail ∈ rows.map (·.1))
    (h4 : nm ["e"] ∈ rows.map (·.1)) (h5 : 6 ∈ (node rows (nm ["e"])).types)
    (h6 : ∀ x ∈ rows.map (·.1), (node rows x).nsec = [])
    (h7 : ∀ x ∈ rows.map (·.1), (node rows x).types = [] → (node rows x).sigs = [])
    (h8 : ∀ x ∈ rows.map (·.1), ∃ y ∈ rows.map (·.1), x <:+ y ∧ (node rows y).types ≠ [])
    (h9 : ∀ x ∈ rows.map (·.1), 5 ∈ (node rows x).types → ∀ u ∈ (node rows x).types, u = 5)
    (h10 : ∀ x ∈ rows.map (·.1), 39 ∈ (node rows x).types → ∀ y ∈ rows.map (·.1), x <:+ y → y = x)
    (h11 : ∀ x ∈ rows.map (·.1), 43 ∈ (node rows x).types → x ≠ nm ["e"] → 2 ∈ (node rows x).types) :
    Plan (base rows t) :=
  ⟨⟨⟨h1, h2, h3⟩, ⟨node rows, (adjust_fix _ h0).symm⟩, h4, h5⟩, h6, h7, h8, fun x hx _ => h9 x hx, fun x hx _ => h10 x hx, h11⟩

theorem ready_of {z : Zone3} (hp : Plan z) (h : ∀ x ∈ z.names, (z.node x).nonauth = false →
      ((z.node x).sigs ≠ [] ∧ ((z.node x).deleg = true → 43 ∈ (z.node x).sigs) ↔
        (z.node x).types ≠ [] ∧ ((z.node x).deleg = true → 43 ∈ (z.node x).types)))
    (h' : 51 ∈ (z.node z.apex).types) : Ready z := by
  refine ⟨fun x hx ha => ?_, h'⟩
  have := h x hx ((auth_nonauth' hp.wf hx).mp ha)
  rw [deleg_flag hp.wf hx ha] at this
  exact this

theorem signed_of {o : Bool} {rows : List Row} {t : Name} (hp : Plan (base rows t))
    (hr : Ready (base rows t)) (hi : ∀ x ∈ rows.map (·.1), ∀ y ∈ rows.map (·.1), digest x = digest y → x = y) :
    Signed (build o rows t) ∧ ∀ h ∈ (build o rows t).tree, (build o rows t).nsec3 h ≠ none := by
  obtain ⟨z', h1, h2, h3, h4, _, h5⟩ := chain_of hp hr o hi
  unfold build
  rw [h1]
  exact ⟨h4, fun h => (h5 h).mp⟩

/-- The names above, with the wildcards. -/
def around (m : Name) : List Name :=
  (List.range (m.length + 1)).flatMap (fun i => [m.drop i, [42] :: m.drop i])

theorem around_mem {m x : Name} (h : x <:+ m ∨ ∃ c, c <:+ m ∧ x = [42] :: c) : x ∈ around m := by
  unfold around
  rcases h with h | ⟨c, h, rfl⟩
  · refine List.mem_flatMap.mpr ⟨m.length - x.length, by simp; omega, ?_⟩
    rw [← List.suffix_iff_eq_drop.mp h]; simp
  · refine List.mem_flatMap.mpr ⟨m.length - c.length, by simp; omega, ?_⟩
    rw [← List.suffix_iff_eq_drop.mp h]; simp

theorem apart_of {z z' : Zone3} {t : Nat} {n : Name} (M : List Name) (hM : ∀ ls m, Path z.toZone t n ls m → m ∈ M)
    (h1 : ∀ x ∈ z.names ++ z'.names ++ M.flatMap around, ∀ y ∈ z.names ++ z'.names ++ M.flatMap around, z.hash x = z.hash y → x = y)
    (h2 : ∀ h ∈ z.tree, z.nsec3 h ≠ none) : Apart z z' t n := by
  have key : ∀ x, Asked z z' t n x → x ∈ z.names ++ z'.names ++ M.flatMap around := by
    rintro x (h | h | ⟨ls, m, hp, h⟩)
    · simp [h]
    · simp [h]
    · exact List.mem_append_right _ (List.mem_flatMap.mpr ⟨m, hM ls m hp, around_mem h⟩)
  exact ⟨fun x y hx hy => h1 x (key x hx) y (key y hy), fun x _ h => h2 _ h⟩

def rows : List Row :=
  [(nm ["e"], [6, 2, 51], 0), (nm ["a", "e"], [5], 0), (nm ["d", "e"], [39], 0), (nm ["s", "e"], [2, 43], 1), (nm ["x", "s", "e"], [1], 2),
    (nm ["t", "e"], [2], 1), (nm ["u", "e"], [], 0), (nm ["x", "u", "e"], [2], 1), (nm ["w", "e"], [], 0), (nm ["*", "w", "e"], [1], 0)]

/-- `a CNAME b.w`, `d DNAME w`, `s` delegated with DS and glue, `t` delegated, `x.u` too, `*.w` with A; `u` and `w` without
records. -/
def zone (o : Bool) : Zone3 := build o rows (nm ["b", "w", "e"])

theorem plan : Plan (base rows (nm ["b", "w", "e"])) := by apply plan_of <;> decide +kernel
theorem ready : Ready (base rows (nm ["b", "w", "e"])) := by apply ready_of plan <;> decide +kernel
theorem signed (o : Bool) : Signed (zone o) := (signed_of plan ready (by decide +kernel)).1

end Nsec3proof.Demo
open Nsec3proof.Demo

/-- C49. The chain: for every zone that can be signed, with different hashes of its names, an NSEC3 chain is created with
which the zone is signed: with a record for every authoritative name and delegation, under opt-out but for those with
nothing but delegations without DS, with the types there and the next hash of the chain; and with no other. -/
theorem C49_chain (z : Zone3) (hp : Plan z) (hr : Ready z) (optout : Bool)
    (hi : ∀ x ∈ z.names, ∀ y ∈ z.names, z.hash x = z.hash y → x = y) :
    ∃ z', createChain z optout = .ok z' ∧ z'.toZone = z.toZone ∧ z'.hash = z.hash ∧ Signed z' ∧
      (∀ x, Listed z' x ↔ x ∈ z.names ∧ Auth z.toZone 43 x ∧ ¬ (optout = true ∧ Insecure z x)) ∧
      ∀ h, h ∈ z'.tree ↔ z'.nsec3 h ≠ none :=
  chain_of hp hr optout hi

example : Plan (base rows (nm ["b", "w", "e"])) ∧ Ready (base rows (nm ["b", "w", "e"])) ∧
    (∀ x ∈ rows.map (·.1), ∀ y ∈ rows.map (·.1), digest x = digest y → x = y) := ⟨plan, ready, by decide +kernel⟩

/-- C49. A query gets its proof: for every signed zone and query for a name in it, if there is space for all, NSEC3 and DS
records are put in the authority section without any error and no assertion fails. They are records of the zone, each NSEC3
once; a DS is that of a delegation. Partial: names with the same hash are left out; if under opt-out a wildcard is right below
the closest provable encloser of a name that does not exist, or if DNAME of a wildcard is on the way, there is an error
(see C49_wildcard_optout, C49_wildcard_dname). -/
theorem C49_total_partial (z : Zone3) (hs : Signed z) (q : Req) (hq : ∀ l, q.fits l = true) (n : Name) (hn : z.apex <:+ n)
    (hr : Regular z.toZone q.type n) (hw : Wired z.toZone q.type n) (ha : Apart z z q.type n) (hc : NoWildCpe z q.type n)
    (hd : NoWildDname z.toZone q.type n) :
    ∃ p, denial z q n = .ok p ∧ p.nsec3.Nodup ∧ (∀ h ∈ p.nsec3, h ∈ z.tree) ∧
      ∀ d, p.ds = some d → Deleg z.toZone d ∧ 43 ∈ (z.node d).types := by
  obtain ⟨ls, m, st, r, p, w⟩ := whole hs hq hn hr hw ha hc hd
  obtain ⟨k1, k2⟩ := denial_own hs.plan.wf hq hn hr w.den
  refine ⟨p, w.den, k1.1, k1.2, fun d hd => ?_⟩
  obtain ⟨a, n0, b⟩ := k2 d hd
  exact ⟨b.1, a⟩

/-- C49. What is said is proved: for every signed zone and query, whatever signed zone has the signed records of the
response (the zone itself is one), the response is the correct one for that zone too, unless a record of the response with
the flag opt-out covers a name there at, above or right below one on the way that has nothing but delegations without DS;
if the response is that there is no data or a referral, the name may be missing there. Partial: as C49_total_partial; not
for ANY; not if a wildcard answers for a name that starts with `*` (see C49_wildcard_name) or if it is a delegation without
NSEC3 under opt-out. After a chain of five links, the search ends, and the chain is what is proved. -/
theorem C49_proof_partial (z : Zone3) (hs : Signed z) (q : Req) (hq : ∀ l, q.fits l = true) (ht : q.type ≠ 255) (n : Name)
    (hn : z.apex <:+ n) (hr : Regular z.toZone q.type n) (hw : Wired z.toZone q.type n) (ha : Apart z z q.type n)
    (hc : NoWildCpe z q.type n) (hd : NoWildDname z.toZone q.type n) (hp : Plain z q.type n) :
    ∃ r p, answer z.toZone q n = .ok r ∧ denial z q n = .ok p ∧ Answer.Correct z.toZone q.type n r ∧ Agrees z z r p ∧
      ∀ z', Signed z' → Apart z z' q.type n → Agrees z z' r p → Says z'.toZone q.type n r ∨
        ∃ x, OptOut z z' q.type n p x ∧ (r.state = .nodata ∨ r.state = .deleg ∨ x ∈ z'.names) := by
  obtain ⟨ls, m, st, r, p, w⟩ := whole hs hq hn hr hw ha hc hd
  refine ⟨r, p, w.ans, w.den, ⟨ls, m, w.path, w.fresh, w.len, w.ends, w.aa⟩, agrees_self hs ht hq hn hr w, fun z' hs' ap ag => ?_⟩
  by_cases ho : ∃ x, OptOut z z' q.type n p x ∧ (r.state = .nodata ∨ r.state = .deleg ∨ x ∈ z'.names)
  · exact .inr ho
  · obtain ⟨a, b | ⟨b1, b2, b3⟩⟩ := says hs hs' ht hr hp w (hd ls m w.path) ag ap ho
    · exact .inl (.inl ⟨ls, m, a, w.fresh, w.len, b, w.aa⟩)
    · exact .inl (.inr ⟨ls, m, a, b1, b2, b3⟩)

/-- C49. Without opt-out: for every zone signed without the flag and every query, whatever signed zone has the signed
records of the response, the response is the correct one for that zone too. Partial: names with the same hash are left out;
not for ANY; not if DNAME of a wildcard is on the way, or if a wildcard answers for a name that starts with `*`. -/
theorem C49_secure_partial (z : Zone3) (hs : Signed z) (ho : ∀ h r, z.nsec3 h = some r → r.optout = false)
    (q : Req) (hq : ∀ l, q.fits l = true) (ht : q.type ≠ 255) (n : Name) (hn : z.apex <:+ n) (hr : Regular z.toZone q.type n)
    (hw : Wired z.toZone q.type n) (ha : Apart z z q.type n) (hd : NoWildDname z.toZone q.type n)
    (hp : ∀ ls m s, Path z.toZone q.type n ls m → Source z.toZone s m → s ≠ m → ¬ Wild m) :
    ∃ r p, answer z.toZone q n = .ok r ∧ denial z q n = .ok p ∧
      ∀ z', Signed z' → Apart z z' q.type n → Agrees z z' r p → Says z'.toZone q.type n r := by
  obtain ⟨r, p, h1, h2, _, _, h3⟩ := C49_proof_partial z hs q hq ht n hn hr hw ha (noWildCpe hs ho ha) hd
    (fun ls m s a b c => ⟨hp ls m s a b c, fun h => all_listed hs ho ha.sep b.1 h⟩)
  refine ⟨r, p, h1, h2, fun z' hs' ap ag => (h3 z' hs' ap ag).resolve_right ?_⟩
  rintro ⟨x, ⟨_, ⟨h, hh, rr, k1, k2, _⟩, _⟩, _⟩
  rw [ag.nsec3 h hh] at k1
  rw [ho h rr k1] at k2
  cases k2

/-- C49. Referrals: for every signed zone and query, a referral has either the DS records of the delegation, or a proof that
there are none, even under opt-out: all signed zones that have the signed records of the response agree about DS there.
Partial: as C49_proof_partial. -/
theorem C49_referral_partial (z : Zone3) (hs : Signed z) (q : Req) (hq : ∀ l, q.fits l = true) (n : Name)
    (hn : z.apex <:+ n) (hr : Regular z.toZone q.type n) (hw : Wired z.toZone q.type n) (ha : Apart z z q.type n)
    (hc : NoWildCpe z q.type n) (hd : NoWildDname z.toZone q.type n) (hp : Plain z q.type n) :
    ∃ r p, answer z.toZone q n = .ok r ∧ denial z q n = .ok p ∧
      ∀ d, r.state = .deleg → r.authority = some (d, 2) → (43 ∈ (z.node d).types ↔ p.ds = some d) ∧
        ∀ z', Signed z' → Apart z z' q.type n → Agrees z z' r p → d ∈ z'.names → Auth z'.toZone 43 d →
          (43 ∈ (z'.node d).types ↔ 43 ∈ (z.node d).types) := by
  obtain ⟨ls, m, st, r, p, w⟩ := whole hs hq hn hr hw ha hc hd
  refine ⟨r, p, w.ans, w.den, fun d h1 h2 => ?_⟩
  obtain ⟨d', e, hl⟩ := (Nsecproof.ends_cases w.ends).2.2.2 h1
  rw [h2] at e
  cases e
  obtain ⟨k1, k2⟩ := w.known.deleg h1 d hl
  refine ⟨?_, fun z' hs' ap ag => ds_move hs hs' w ag ap h1 h2 ?_⟩
  · by_cases h43 : 43 ∈ (z.node d).types
    · simp [h43, k1 h43]
    · simp [h43, (k2 h43).1]
  · cases hl with
    | below a b => exact .inl b.2.1
    | referral a b c =>
      rename_i s
      by_cases e0 : s = m
      · exact .inl (e0 ▸ b.2.1)
      · rcases a.2 with e1 | ⟨_, c, hen, e1⟩
        · exact absurd e1 e0
        · by_cases e2 : d = s
          · subst e2
            exact .inr ((hp ls m d w.path a e0).2 (cut_auth b))
          · exact .inl ((suffix_strict (e1 ▸ b.2.1) (e1 ▸ e2)).trans hen.2.1)

/-! ## Cases -/

namespace Nsec3proof.Demo

theorem tree_own (o : Bool) : ∀ h ∈ (zone o).tree, (zone o).nsec3 h ≠ none := (signed_of plan ready (by decide +kernel)).2

def la : Link := ⟨nm ["a", "e"], nm ["a", "e"], 5, nm ["b", "w", "e"]⟩

theorem alias_a : Lookup (zone true).toZone 1 (nm ["a", "e"]) (.alias (nm ["a", "e"])) :=
  .alias ⟨by decide +kernel, .inl rfl⟩ (auth_of (by decide +kernel) _) (.inl (by decide +kernel)) (by unfold Answer.Direct; decide)

theorem step_a : Answer.Step (zone true).toZone 1 la := by
  have := Answer.Step.cname alias_a
  rw [show (zone true).target (nm ["a", "e"]) 5 = nm ["b", "w", "e"] from (build_same true rows _).2.2 _ _] at this
  exact this

theorem source_b : Source (zone true).toZone (nm ["*", "w", "e"]) (nm ["b", "w", "e"]) :=
  ⟨by decide +kernel, .inr ⟨by decide +kernel, nm ["w", "e"], ⟨by decide +kernel, ⟨nm ["b"], rfl⟩, by decide +kernel⟩, by decide +kernel⟩⟩

theorem data_b : Lookup (zone true).toZone 1 la.next (.data (nm ["*", "w", "e"]) 1) :=
  .data source_b (auth_of (by decide +kernel) _) (fun h => owns_not (by decide +kernel) (by omega) (by omega) h.1)
    ⟨rfl, .inl (by decide +kernel)⟩

theorem one_a {ls : List Link} {m : Name} (h : Path (zone true).toZone 1 (nm ["a", "e"]) ls m) :
    ls = [] ∧ m = nm ["a", "e"] ∨ ls = [la] ∧ m = la.next :=
  one (signed true).plan.wf step_a rfl data_b (by simp) (by simp) h

theorem regular_a : Regular (zone true).toZone 1 (nm ["a", "e"]) := by
  intro ls m h
  rcases one_a h with ⟨rfl, rfl⟩ | ⟨rfl, rfl⟩
  · exact ⟨fun c h => (by cases Answer.lookup_unique (signed true).plan.wf alias_a h), fun s h => absurd rfl h⟩
  · exact ⟨fun c h => (by cases Answer.lookup_unique (signed true).plan.wf data_b h),
      fun s _ _ h => by simpa using Answer.lookup_unique (signed true).plan.wf data_b h⟩

theorem wired_a : Wired (zone true).toZone 1 (nm ["a", "e"]) := by
  intro ls m h
  rcases one_a h with ⟨rfl, rfl⟩ | ⟨rfl, rfl⟩ <;> decide +kernel

theorem plain_a : Plain (zone true) 1 (nm ["a", "e"]) := by
  intro ls m s h h1 h2
  rcases one_a h with ⟨rfl, rfl⟩ | ⟨rfl, rfl⟩
  · exact absurd (Answer.source_unique h1 ⟨by decide +kernel, .inl rfl⟩) h2
  · refine ⟨?_, fun _ => ?_⟩
    · rintro ⟨y, h⟩
      have := congrArg List.head? h
      revert this
      simp only [la, List.head?_cons]
      decide +kernel
    · rw [Answer.source_unique h1 source_b]; exact ⟨by decide +kernel, auth_of (by decide +kernel) _, by decide +kernel⟩

theorem noWildDname_a : NoWildDname (zone true).toZone 1 (nm ["a", "e"]) := by
  intro ls m h
  rcases one_a h with ⟨rfl, rfl⟩ | ⟨rfl, rfl⟩
  · simp
  · simp [la]

theorem noWildCpe_a : NoWildCpe (zone true) 1 (nm ["a", "e"]) := by
  intro ls m h hx
  rcases one_a h with ⟨rfl, rfl⟩ | ⟨rfl, rfl⟩
  · cases Answer.lookup_unique (signed true).plan.wf alias_a hx
  · cases Answer.lookup_unique (signed true).plan.wf data_b hx

theorem apart_a : Apart (zone true) (zone true) 1 (nm ["a", "e"]) :=
  apart_of [nm ["a", "e"], nm ["b", "w", "e"]] (fun ls m h => by
    rcases one_a h with ⟨rfl, rfl⟩ | ⟨rfl, rfl⟩
    · simp
    · simp [la]) (by decide +kernel) (tree_own true)

end Nsec3proof.Demo

example : Signed (zone true) ∧ (∀ l, (ask 1).fits l = true) ∧ (ask 1).type ≠ 255 ∧ (zone true).apex <:+ nm ["a", "e"] ∧
    Regular (zone true).toZone (ask 1).type (nm ["a", "e"]) ∧ Wired (zone true).toZone (ask 1).type (nm ["a", "e"]) ∧
    Apart (zone true) (zone true) (ask 1).type (nm ["a", "e"]) ∧ NoWildCpe (zone true) (ask 1).type (nm ["a", "e"]) ∧
    NoWildDname (zone true).toZone (ask 1).type (nm ["a", "e"]) ∧ Plain (zone true) (ask 1).type (nm ["a", "e"]) :=
  ⟨signed true, fun _ => rfl, by decide, by decide +kernel, regular_a, wired_a, apart_a, noWildCpe_a, noWildDname_a, plain_a⟩

namespace Nsec3proof.Demo

theorem optout_off : ∀ h r, (zone false).nsec3 h = some r → r.optout = false := by
  intro h r hr
  have hh : h ∈ (zone false).tree := (signed false).chain.tree h (by rw [hr]; simp)
  have : ∀ h ∈ (zone false).tree, ∀ r ∈ (zone false).nsec3 h, r.optout = false := by decide +kernel
  exact this h hh r hr

theorem nxdomain_n : Lookup (zone false).toZone 1 (nm ["n", "e"]) .nxdomain := by
  have hc : Encloser (zone false).toZone (nm ["e"]) (nm ["n", "e"]) := ⟨by decide +kernel, ⟨nm ["n"], rfl⟩, by decide +kernel⟩
  have hn : ∀ d, ¬ Cut (zone false).toZone d (nm ["n", "e"]) := by
    rintro d ⟨⟨h1, h2, h3⟩, h4, _⟩
    have : ∀ d ∈ (zone false).names, d = (zone false).apex ∨ ¬ d <:+ nm ["n", "e"] := by decide +kernel
    rcases this d h1 with h | h
    · exact h2 h
    · exact h h4
  exact .nxdomain (Answer.source_or (by decide +kernel) hc (by decide +kernel)) hn hc
    (owns_not (by decide +kernel) (by omega) (by omega))

theorem path_n {ls : List Link} {m : Name} (h : Path (zone false).toZone 1 (nm ["n", "e"]) ls m) : ls = [] ∧ nm ["n", "e"] = m :=
  Answer.path_end (signed false).plan.wf nxdomain_n (by simp) (by simp) h

end Nsec3proof.Demo

example : Signed (zone false) ∧ (∀ h r, (zone false).nsec3 h = some r → r.optout = false) ∧ (zone false).apex <:+ nm ["n", "e"] ∧
    Regular (zone false).toZone (ask 1).type (nm ["n", "e"]) ∧ Wired (zone false).toZone (ask 1).type (nm ["n", "e"]) ∧
    Apart (zone false) (zone false) (ask 1).type (nm ["n", "e"]) ∧ NoWildDname (zone false).toZone (ask 1).type (nm ["n", "e"]) ∧
    ∀ ls m s, Path (zone false).toZone (ask 1).type (nm ["n", "e"]) ls m → Source (zone false).toZone s m → s ≠ m → ¬ Wild m := by
  refine ⟨signed false, optout_off, by decide +kernel, fun ls m h => ?_, fun ls m h => ?_, apart_of [nm ["n", "e"]] (fun ls m h => ?_)
    (by decide +kernel) (tree_own false), fun ls m h => ?_, fun ls m s h h1 h2 => ?_⟩ <;> obtain ⟨rfl, rfl⟩ := path_n h
  · exact ⟨fun c h => (by cases Answer.lookup_unique (signed false).plan.wf nxdomain_n h), fun s h => absurd rfl h⟩
  · decide +kernel
  · simp
  · simp
  · rintro ⟨y, h⟩
    have := congrArg List.head? h
    revert this
    simp only [List.head?_cons]
    decide +kernel

/-- A chain to a name answered by a wildcard: NSEC3 of `w` shows that there is no `b.w`. -/
example : answer (zone false).toZone (ask 1) (nm ["a", "e"]) =
      .ok ⟨.hit, true, 0, [.rr (nm ["a", "e"]) (nm ["a", "e"]) 5, .rr (nm ["b", "w", "e"]) (nm ["*", "w", "e"]) 1], none⟩ ∧
    denial (zone false) (ask 1) (nm ["a", "e"]) = .ok ⟨[digest (nm ["w", "e"])], none⟩ := by decide +kernel
/-- A name that does not exist: NSEC3 of the apex, the one that covers the name, and the one that covers the wildcard. -/
example : denial (zone false) (ask 1) (nm ["n", "e"]) =
    .ok ⟨[digest (nm ["e"]), digest (nm ["d", "e"]), digest (nm ["s", "e"])], none⟩ := by decide +kernel
/-- No records of the type at a wildcard: NSEC3 of the wildcard, of `w`, which covers the name too. -/
example : denial (zone false) (ask 16) (nm ["b", "w", "e"]) = .ok ⟨[digest (nm ["*", "w", "e"]), digest (nm ["w", "e"])], none⟩ := by
  decide +kernel
/-- Delegations with and without DS, and under opt-out. -/
example : denial (zone false) (ask 1) (nm ["y", "s", "e"]) = .ok ⟨[], some (nm ["s", "e"])⟩ ∧
    denial (zone false) (ask 1) (nm ["y", "t", "e"]) = .ok ⟨[digest (nm ["t", "e"])], none⟩ ∧
    denial (zone true) (ask 1) (nm ["y", "t", "e"]) = .ok ⟨[digest (nm ["e"]), digest (nm ["w", "e"])], none⟩ := by decide +kernel
/-- Under opt-out, delegations without DS and names with nothing else have no NSEC3. -/
example : (zone false).tree.map (fun h => rows.map (·.1) |>.filter (fun x => digest x == h)) =
      [[nm ["e"]], [nm ["w", "e"]], [nm ["t", "e"]], [nm ["x", "u", "e"]], [nm ["d", "e"]], [nm ["s", "e"]], [nm ["a", "e"]],
        [nm ["u", "e"]], [nm ["*", "w", "e"]]] ∧
    (zone true).tree.map (fun h => rows.map (·.1) |>.filter (fun x => digest x == h)) =
      [[nm ["e"]], [nm ["w", "e"]], [nm ["d", "e"]], [nm ["s", "e"]], [nm ["a", "e"]], [nm ["*", "w", "e"]]] := by decide +kernel

namespace Nsec3proof.Demo

/-- The same zone with one more delegation, `n`. -/
def rows1 : List Row :=
  [(nm ["e"], [6, 2, 51], 0), (nm ["a", "e"], [5], 0), (nm ["d", "e"], [39], 0), (nm ["n", "e"], [2], 1), (nm ["s", "e"], [2, 43], 1),
    (nm ["x", "s", "e"], [1], 2), (nm ["t", "e"], [2], 1), (nm ["u", "e"], [], 0), (nm ["x", "u", "e"], [2], 1), (nm ["w", "e"], [], 0),
    (nm ["*", "w", "e"], [1], 0)]

theorem plan1 : Plan (base rows1 (nm ["b", "w", "e"])) := by apply plan_of <;> decide +kernel
theorem ready1 : Ready (base rows1 (nm ["b", "w", "e"])) := by apply ready_of plan1 <;> decide +kernel

/-- `*` has A, there is a delegation `x.u`, and nothing else at and below `u`. -/
def rows2 : List Row := [(nm ["e"], [6, 2, 51], 0), (nm ["*", "e"], [1], 0), (nm ["u", "e"], [], 0), (nm ["x", "u", "e"], [2], 1)]

theorem plan2 : Plan (base rows2 []) := by apply plan_of <;> decide +kernel
theorem ready2 : Ready (base rows2 []) := by apply ready_of plan2 <;> decide +kernel

/-- `*.x DNAME a`. -/
def rows3 : List Row := [(nm ["e"], [6, 2, 51], 0), (nm ["a", "e"], [1], 0), (nm ["x", "e"], [], 0), (nm ["*", "x", "e"], [39], 0)]

theorem plan3 : Plan (base rows3 (nm ["a", "e"])) := by apply plan_of <;> decide +kernel
theorem ready3 : Ready (base rows3 (nm ["a", "e"])) := by apply ready_of plan3 <;> decide +kernel

/-- `*` has A. -/
def rows4 : List Row := [(nm ["e"], [6, 2, 51], 0), (nm ["*", "e"], [1], 0)]
/-- `*` and `*.b` have A. -/
def rows5 : List Row := [(nm ["e"], [6, 2, 51], 0), (nm ["*", "e"], [1], 0), (nm ["b", "e"], [], 0), (nm ["*", "b", "e"], [1], 0)]

theorem plan4 : Plan (base rows4 []) := by apply plan_of <;> decide +kernel
theorem ready4 : Ready (base rows4 []) := by apply ready_of plan4 <;> decide +kernel
theorem plan5 : Plan (base rows5 []) := by apply plan_of <;> decide +kernel
theorem ready5 : Ready (base rows5 []) := by apply ready_of plan5 <;> decide +kernel

end Nsec3proof.Demo

/-- C49. What opt-out leaves open: the response that a name does not exist is consistent with a zone that has a delegation
there without DS. (This is the purpose of the flag, RFC 5155 6.) -/
theorem C49_optout : Signed (zone true) ∧ Signed (build true rows1 (nm ["b", "w", "e"])) ∧
    Lookup (build true rows1 (nm ["b", "w", "e"])).toZone 1 (nm ["n", "e"]) (.referral (nm ["n", "e"])) ∧
    ∃ r p, answer (zone true).toZone (ask 1) (nm ["n", "e"]) = .ok r ∧ denial (zone true) (ask 1) (nm ["n", "e"]) = .ok p ∧
      r.state = .miss ∧ Agrees (zone true) (build true rows1 (nm ["b", "w", "e"])) r p := by
  refine ⟨signed true, (signed_of plan1 ready1 (by decide +kernel)).1, ?_, ⟨.miss, true, 3, [], some (nm ["e"], 6)⟩,
    ⟨[digest (nm ["e"]), digest (nm ["d", "e"]), digest (nm ["s", "e"])], none⟩, by decide +kernel, by decide +kernel, rfl, ?_⟩
  · refine .referral (s := nm ["n", "e"]) ⟨by decide +kernel, .inl rfl⟩ ⟨⟨by decide +kernel, by decide +kernel, by decide +kernel⟩,
      List.suffix_refl _, ?_⟩ (by simp)
    rintro d ⟨h1, h2, h3⟩ h4
    have : ∀ d ∈ (build true rows1 (nm ["b", "w", "e"])).names, d ≠ nm ["e"] → d <:+ nm ["n", "e"] → nm ["n", "e"] <:+ d := by decide +kernel
    exact this d h1 (by rw [← (build_same true rows1 (nm ["b", "w", "e"])).1]; exact h2) h4
  · exact ⟨(build_same _ _ _).1.trans (build_same _ _ _).1.symm, (build_same _ _ _).2.1.trans (build_same _ _ _).2.1.symm,
      by decide +kernel, by simp, by simp⟩

/-- C49. Finding: a zone with NSEC3PARAM and a signed SOA is taken as one with NSEC3, even if it has no NSEC3 record. Then
for a name that does not exist an assertion fails: nsec3_encloser() finds the apex, the missing tree is ignored by
put_covering_nsec3(), but not by put_nsec3_nxdomain(). -/
theorem C49_empty_chain : Plan (base rows (nm ["b", "w", "e"])) ∧ Ready (base rows (nm ["b", "w", "e"])) ∧
    6 ∈ ((base rows (nm ["b", "w", "e"])).node (nm ["e"])).sigs ∧ (base rows (nm ["b", "w", "e"])).tree = [] ∧
    answer (base rows (nm ["b", "w", "e"])).toZone (ask 1) (nm ["n", "e"]) = .ok ⟨.miss, true, 3, [], some (nm ["e"], 6)⟩ ∧
    denial (base rows (nm ["b", "w", "e"])) (ask 1) (nm ["n", "e"]) = .ub :=
  ⟨plan, ready, by decide +kernel, rfl, by decide +kernel, by decide +kernel⟩

/-- C49. Finding: under opt-out, if a name that does not exist is below one without NSEC3, and there is a wildcard below the
closest encloser with NSEC3, then the proof fails, and so does the query: the wildcard of that encloser is looked up, which
is not the one that would answer. -/
theorem C49_wildcard_optout : Signed (build true rows2 []) ∧
    answer (build true rows2 []).toZone (ask 1) (nm ["n", "u", "e"]) = .ok ⟨.miss, true, 3, [], some (nm ["e"], 6)⟩ ∧
    denial (build true rows2 []) (ask 1) (nm ["n", "u", "e"]) = .err .error :=
  ⟨(signed_of plan2 ready2 (by decide +kernel)).1, by decide +kernel, by decide +kernel⟩

/-- C49. Finding: if DNAME of a wildcard applies to a name below it, then the proof fails, and so does the query: the
wildcard is taken as expanded, but the next closer name that should not exist is the wildcard. -/
theorem C49_wildcard_dname : Signed (build false rows3 (nm ["a", "e"])) ∧
    answer (build false rows3 (nm ["a", "e"])).toZone (ask 39) (nm ["*", "x", "e"]) =
      .ok ⟨.hit, true, 0, [.rr (nm ["*", "x", "e"]) (nm ["*", "x", "e"]) 39], none⟩ ∧
    (∃ r, answer (build false rows3 (nm ["a", "e"])).toZone (ask 1) (nm ["b", "*", "x", "e"]) = .ok r ∧ r.rcode = 3) ∧
    denial (build false rows3 (nm ["a", "e"])) (ask 1) (nm ["b", "*", "x", "e"]) = .err .error :=
  ⟨(signed_of plan3 ready3 (by decide +kernel)).1, by decide +kernel, ⟨⟨.miss, true, 3, [.rr (nm ["*", "x", "e"]) (nm ["*", "x", "e"]) 39,
    .synth (nm ["b", "*", "x", "e"]) (nm ["b", "a", "e"])], some (nm ["e"], 6)⟩, by decide +kernel, rfl⟩, by decide +kernel⟩

/-- C49. Finding: if a wildcard answers for a name that starts with `*`, nothing shows that the name does not exist. The
records of the response are also in a zone where it does, with records of its own. -/
theorem C49_wildcard_name : Signed (build false rows4 []) ∧ Signed (build false rows5 []) ∧
    ∃ r p, answer (build false rows4 []).toZone (ask 1) (nm ["*", "b", "e"]) = .ok r ∧
      denial (build false rows4 []) (ask 1) (nm ["*", "b", "e"]) = .ok p ∧ p.nsec3 = [] ∧
      Agrees (build false rows4 []) (build false rows5 []) r p ∧ ¬ Says (build false rows5 []).toZone 1 (nm ["*", "b", "e"]) r := by
  refine ⟨(signed_of plan4 ready4 (by decide +kernel)).1, (signed_of plan5 ready5 (by decide +kernel)).1,
    ⟨.hit, true, 0, [.rr (nm ["*", "b", "e"]) (nm ["*", "e"]) 1], none⟩, ⟨[], none⟩, by decide +kernel,
    by decide +kernel, rfl, ⟨(build_same _ _ _).1.trans (build_same _ _ _).1.symm, (build_same _ _ _).2.1.trans (build_same _ _ _).2.1.symm,
      by simp, by simp, ?_⟩, ?_⟩
  · intro o s u h
    simp only [List.mem_singleton, Rec.rr.injEq] at h
    obtain ⟨_, rfl, rfl⟩ := h
    exact ⟨by decide +kernel, .inl (by decide +kernel), auth_of (by decide +kernel) _,
      ((build_same _ _ _).2.2 _ _).trans ((build_same _ _ _).2.2 _ _).symm⟩
  · refine not_says (signed_of plan5 ready5 (by decide +kernel)).1.plan.wf (t := 1) (s := nm ["*", "b", "e"]) (u := 1)
      (.data ⟨by decide +kernel, .inl rfl⟩ (auth_of (by decide +kernel) _)
      (fun h => owns_not (by decide +kernel) (by omega) (by omega) h.1) ⟨rfl, .inl (by decide +kernel)⟩) ?_
    intro h
    have := congrArg Resp.answer h
    revert this
    decide +kernel

end Knot
