import Verif.Confdb.Lemmas4
/-!
# C52: the configuration database is a map

After any history of commands, every read of the configuration database gives
what the commands that were accepted say, and nothing else is left in it.
-/
namespace Knot
open Confdb

/-- C52. After any history of `conf-set` and `conf-unset` commands the program
reads from the database, for each section, item and identifier, what the history
says: each accepted command with its effect on what it names and on nothing else,
each refused one with none. -/
theorem C52_map {S : Schema} (P : Proper S) (l : List Op) : Shows S (run S empty l) (after S l) := by
  obtain ⟨σ, τ, h⟩ := run_is P l empty Store.empty ⟨_, _, rep_empty S⟩
  exact shows_of P h

/-- C52. A command is accepted exactly if it has an effect and its values fit;
it then gives a database that shows the effect. In particular the codes of the
database never run out, and no command stops on what another one left. -/
theorem C52_command {S : Schema} (P : Proper S) (l : List Op) (o : Op) :
    (∀ d', io S (run S empty l) o = .ok d' → ∃ b, effect S (after S l) o = some b ∧ Fits S b ∧ Shows S d' b) ∧
    (∀ b, effect S (after S l) o = some b → Fits S b → ∃ d', io S (run S empty l) o = .ok d') := by
  have h := run_is P l empty Store.empty ⟨_, _, rep_empty S⟩
  obtain ⟨h1, h2⟩ := io_spec P h o
  constructor
  · intro d' hd
    obtain ⟨b, hb, hf⟩ := h2 d' hd
    obtain ⟨d2, hd2, σ, τ, hr⟩ := h1 b hb hf
    rw [hd] at hd2
    injection hd2 with hd2
    subst hd2
    exact ⟨b, hb, hf, shows_of P hr⟩
  · intro b hb hf
    obtain ⟨d2, hd2, _⟩ := h1 b hb hf
    exact ⟨d2, hd2⟩

/-- C52. What is set is read back, and every other item of any section, and the
same item of any other identifier, is as before. -/
theorem C52_set_get {S : Schema} (P : Proper S) (l : List Op) {g : Group} (hg : g ∈ S) {x : Item} (hx : x ∈ g.items)
    {id v : Bytes} (hid : g.multi = true → id ≠ []) {d' : Db}
    (hok : io S (run S empty l) (.set g.name x.name id v) = .ok d') :
    v ∈ read d' g x id ∧ (x.multi = false → read d' g x id = [v]) ∧
    (∀ w ∈ read (run S empty l) g x id, x.multi = true → w ∈ read d' g x id) ∧
    ∀ g' ∈ S, ∀ x' ∈ g'.items, ∀ id', (g'.name, x'.name, id') ≠ (g.name, x.name, id) →
      read d' g' x' id' = read (run S empty l) g' x' id' := by
  have h0 := C52_map P l
  obtain ⟨b, hb, _, hs⟩ := (C52_command P l _).1 d' hok
  dsimp only [effect] at hb
  rw [P.group hg, Option.bind_some, P.item hg hx, Option.bind_some] at hb
  unfold effSet at hb
  split at hb
  · cases hb
  · rw [if_neg (fun hh => hid hh.1 hh.2)] at hb
    split at hb
    · injection hb with hb
      subst hb
      rw [hs.vals g hg x hx id, put_val, if_pos ⟨rfl, rfl, rfl⟩, h0.vals g hg x hx id]
      refine ⟨?_, ?_, ?_, ?_⟩
      · unfold addVal
        cases x.multi
        · simp
        · simp only [if_true]; split <;> simp_all
      · intro hm; unfold addVal; rw [hm]; rfl
      · intro w hw hm; unfold addVal; rw [hm]; simp only [if_true]; split <;> simp [hw]
      · intro g' hg' x' hx' id' hne
        rw [hs.vals g' hg' x' hx' id', h0.vals g' hg' x' hx' id', put_val, if_neg]
        rintro ⟨h1, h2, h3⟩
        exact hne (by rw [h1, h2, h3])
    · cases hb

/-- C52. Removing an identifier, or a section, removes all its values: nothing of
it is read later, also not if the identifier is added again. -/
theorem C52_removed {S : Schema} (P : Proper S) (l : List Op) {g : Group} (hg : g ∈ S) :
    (∀ id d', io S (run S empty l) (.unsetId g.name id) = .ok d' →
      hasId d' g id = false ∧ (∀ x ∈ g.items, read d' g x id = []) ∧
      ∀ d'', io S d' (.setId g.name id) = .ok d'' → hasId d'' g id = true ∧ ∀ x ∈ g.items, read d'' g x id = []) ∧
    (∃ d', io S (run S empty l) (.unsetAll g.name) = .ok d' ∧ ids d' g = [] ∧
      ∀ x ∈ g.items, ∀ id, read d' g x id = []) := by
  have hi := run_is P l empty Store.empty ⟨_, _, rep_empty S⟩
  constructor
  · intro id d' hok
    obtain ⟨h1, h2⟩ := io_spec P hi (.unsetId g.name id)
    obtain ⟨b, hb, hf⟩ := h2 d' hok
    obtain ⟨d2, hd2, hr⟩ := h1 b hb hf
    rw [hok] at hd2
    injection hd2 with hd2
    subst hd2
    have hi2 := hr
    obtain ⟨σ, τ, hr⟩ := hr
    have hs := shows_of P hr
    dsimp only [effect] at hb
    rw [P.group hg, Option.bind_some] at hb
    split at hb
    · injection hb with hb
      subst hb
      refine ⟨by rw [hs.has g hg, mark_has]; simp, fun x hx => by rw [hs.vals g hg x hx]; simp [Store.mark], ?_⟩
      intro d'' hok2
      obtain ⟨h3, h4⟩ := io_spec P hi2 (.setId g.name id)
      obtain ⟨b2, hb2, hf2⟩ := h4 d'' hok2
      obtain ⟨d3, hd3, σ3, τ3, hr3⟩ := h3 b2 hb2 hf2
      rw [hok2] at hd3
      injection hd3 with hd3
      subst hd3
      have hs3 := shows_of P hr3
      dsimp only [effect] at hb2
      rw [P.group hg, Option.bind_some] at hb2
      split at hb2
      · injection hb2 with hb2
        subst hb2
        exact ⟨by rw [hs3.has g hg, mark_has]; simp, fun x hx => by rw [hs3.vals g hg x hx]; simp [Store.mark]⟩
      · cases hb2
    · cases hb
  · obtain ⟨h1, h2⟩ := io_spec P hi (.unsetAll g.name)
    obtain ⟨d', hd, hr⟩ := ioUnsetAll_ok P hi hg
    obtain ⟨σ, τ, hr⟩ := hr
    have hs := shows_of P hr
    refine ⟨d', ?_, ?_, ?_⟩
    · dsimp only [io, withGroup]; rw [P.group hg]; exact hd
    · rw [List.eq_nil_iff_forall_not_mem]
      intro id hid
      have := (hs.iter g hg id).1 hid
      simp [Store.clear] at this
    · intro x hx id
      rw [hs.vals g hg x hx]; simp [Store.clear]

/-- C52. Nothing else is in the database: each entry is the version of the
database, the code of a section or item of the schema, an identifier that is
there, or the values of an item of a section without identifiers or of an
identifier that is there. Codes are from 2 to 200. -/
theorem C52_no_leftovers {S : Schema} (P : Proper S) (l : List Op) {k v : Bytes} (hk : find (run S empty l) k = some v) :
    (k = [0, 255] ∧ v = [2]) ∨
    (∃ g ∈ S, ∃ c, k = 0 :: 0 :: g.name ∧ v = [c] ∧ 2 ≤ c.toNat ∧ c.toNat ≤ 200) ∨
    (∃ g ∈ S, ∃ c, getCode (run S empty l) 0 g.name = .ok c ∧
      ((∃ x ∈ g.items, ∃ e, k = c :: 0 :: x.name ∧ v = [e] ∧ 2 ≤ e.toNat ∧ e.toNat ≤ 200) ∨
       (∃ id, k = c :: 1 :: id ∧ v = [] ∧ hasId (run S empty l) g id = true) ∨
       (∃ x ∈ g.items, ∃ e id, getCode (run S empty l) c x.name = .ok e ∧ k = c :: e :: id ∧
         (if g.multi then hasId (run S empty l) g id = true else id = []) ∧
         getItem (run S empty l) g x id = .ok v ∧ read (run S empty l) g x id ≠ []))) := by
  obtain ⟨σ, τ, h⟩ := run_is P l empty Store.empty ⟨_, _, rep_empty S⟩
  have hs := shows_of P h
  rcases h.vers.2 k (by rw [hk]; rfl) with hkk | ⟨c, e, r, hkk, hc⟩
  · left
    rw [hkk, h.vers.1] at hk
    injection hk with hk
    exact ⟨hkk, hk.symm⟩
  · subst hkk
    right
    by_cases hc0 : c = 0
    · left
      subst hc0
      have he := hc rfl
      subst he
      rw [h.secs] at hk
      cases hr : σ r with
      | none => rw [hr] at hk; cases hk
      | some c =>
        rw [hr] at hk
        injection hk with hk
        obtain ⟨h1, h2, g, hg, hn⟩ := h.secR r c hr
        exact ⟨g, hg, c, by rw [hn], hk.symm, h1, h2⟩
    · right
      rcases h.closed c e r (by rw [hk]; rfl) with h0 | ⟨s, hs1, he⟩
      · exact absurd h0 hc0
      · obtain ⟨_, _, g, hg, hn⟩ := h.secR s c hs1
        subst hn
        refine ⟨g, hg, c, by rw [h.getSec, hs1], ?_⟩
        rcases he with he | he | ⟨i, he⟩
        · left
          subst he
          rw [h.items _ _ _ hs1] at hk
          cases hr : τ g.name r with
          | none => rw [hr] at hk; cases hk
          | some e =>
            rw [hr] at hk
            injection hk with hk
            obtain ⟨h1, h2, _, g', hg', hn, x, hx, hxe⟩ := h.itemR _ _ _ hr
            rw [P.uniq g' hg' g hg hn] at hx
            exact ⟨x, hx, e, by rw [hxe], hk.symm, h1, h2⟩
        · right; left
          subst he
          rw [h.idents _ _ _ hs1] at hk
          split at hk
          · rename_i hin
            injection hk with hk
            exact ⟨r, rfl, hk.symm, by rw [hs.has g hg]; exact hin⟩
          · cases hk
        · right; right
          obtain ⟨e1, e2, _, g', hg', hn, x, hx, hxe⟩ := h.itemR _ _ _ he
          rw [P.uniq g' hg' g hg hn] at hx
          subst hxe
          have hf := h.vals _ _ _ _ r hs1 he
          rw [hk] at hf
          split at hf
          · cases hf
          · rename_i hv
            have hp := h.valPres P hg hv
            refine ⟨x, hx, e, r, by rw [h.getIt hs1, he], rfl, ?_, ?_, ?_⟩
            · unfold Store.present at hp
              split
              · rename_i hm
                rw [if_pos hm] at hp
                rw [hs.has g hg]; exact hp
              · rename_i hm
                rw [if_neg hm] at hp
                simpa using hp
            · unfold getItem
              rw [h.getSec, hs1]
              dsimp only
              have hok : (r == [] || (l.foldl (next S) Store.empty).has g.name r) = true := by
                unfold Store.present at hp
                split at hp
                · rw [hp, Bool.or_true]
                · rw [hp]; rfl
              rw [h.idOk hs1, hok, if_neg (by simp), h.getIt hs1, he]
              dsimp only
              rw [hk]
            · rw [hs.vals g hg x hx]
              exact hv

/-! A schema with a section of one and a section of many -/

private def one52 : Item := ⟨[115], false⟩
private def more52 : Item := ⟨[109], true⟩
private def srv52 : Group := ⟨[118], false, [one52, more52]⟩
private def zone52 : Group := ⟨[122], true, [one52, more52]⟩
private def S52 : Schema := [srv52, zone52]
private def l52 : List Op :=
  [.setId [122] [1, 2], .setId [122] [3], .setId [122] [3], .set [118] [109] [] [9], .set [118] [109] [] [8, 8],
   .set [122] [109] [3] [7], .set [122] [109] [] [6], .set [122] [115] [3] [5], .set [122] [115] [3] [4],
   .set [122] [115] [9] [4], .unset [118] [109] [] [9], .unsetId [122] [1, 2]]

private theorem proper52 : Proper S52 :=
  ⟨by decide, by decide, by decide, by decide⟩

/- The database after it. -/
example : read (run S52 empty l52) srv52 more52 [] = [[8, 8]] := by decide +kernel
example : read (run S52 empty l52) zone52 more52 [3] = [[7], [6]] := by decide +kernel
example : read (run S52 empty l52) zone52 one52 [3] = [[4]] := by decide +kernel
example : ids (run S52 empty l52) zone52 = [[3]] := by decide +kernel
example : Shows S52 (run S52 empty l52) (after S52 l52) := C52_map proper52 l52
example : (io S52 (run S52 empty l52) (.set srv52.name one52.name [] [1])).toOption.isSome = true := by decide +kernel
example : (io S52 (run S52 empty l52) (.unsetId zone52.name [3])).toOption.isSome = true := by decide +kernel
example : find (run S52 empty l52) [2, 3, 3] = some [4] := by decide +kernel
/- A value that does not fit is refused. -/
example (n : Nat) (h : n > 65536) : dbSet [] [2, 2] (List.replicate n 0) false = .error .range := by
  unfold dbSet
  rw [if_pos rfl, if_pos (by rw [List.length_replicate]; exact h)]

end Knot
