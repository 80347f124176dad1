import Verif.Reverse.Spec
import Verif.Changeset.Lemmas
/-!
# Lemmas about reverse zones
-/
namespace Knot.Reverse
open Knot.Dname (Name wire)
open Knot.Changeset (Bytes Key RRs RRset Contents lookup ttlChanged insertRR recs put nodeAdd merge lookup_put put_nodup mem_merge)
open Sockaddr (Fam)
open Synth.Spec (reverseName decimal nibble octets typeOf)
open Spec

theorem digits_all : ∀ i : Fin 256, digits (UInt8.ofNat i) = decimal (UInt8.ofNat i) := by decide +kernel

theorem digits_eq (b : UInt8) : digits b = decimal b := by
  have := digits_all ⟨b.toNat, b.toNat_lt⟩
  simpa using this

theorem hex_all : ∀ i : Fin 256, hexChars[(UInt8.ofNat i &&& 0xF).toNat]? = some (nibble ((UInt8.ofNat i).toNat % 16)) ∧
    hexChars[(UInt8.ofNat i >>> 4).toNat]? = some (nibble ((UInt8.ofNat i).toNat / 16)) := by decide +kernel

theorem hex_eq (b : UInt8) : hexChars[(b &&& 0xF).toNat]? = some (nibble (b.toNat % 16)) ∧
    hexChars[(b >>> 4).toNat]? = some (nibble (b.toNat / 16)) := by
  have := hex_all ⟨b.toNat, b.toNat_lt⟩
  simpa using this

theorem postfix_eq : postfix4 = [octets "in-addr", octets "arpa"] ∧ postfix6 = [octets "ip6", octets "arpa"] := by decide +kernel

theorem take_rev {α} (l : List α) (n : Nat) (a : α) (h : l[n]? = some a) : (l.take (n + 1)).reverse = a :: (l.take n).reverse := by
  rw [List.take_add_one, h]
  simp

theorem owner4Loop_ok (raw : Bytes) : ∀ n, n ≤ raw.length → owner4Loop raw n = .ok ((raw.take n).reverse.map decimal ++ postfix4)
  | 0, _ => rfl
  | n + 1, h => by
    have hn := List.getElem?_eq_getElem (show n < raw.length by omega)
    unfold owner4Loop
    rw [hn, owner4Loop_ok raw n (by omega), take_rev raw n _ hn]
    simp [digits_eq]

theorem owner6Loop_ok (raw : Bytes) : ∀ n, n ≤ raw.length →
    owner6Loop raw n = .ok ((raw.take n).reverse.flatMap (fun b => [[nibble (b.toNat % 16)], [nibble (b.toNat / 16)]]) ++ postfix6)
  | 0, _ => rfl
  | n + 1, h => by
    have hn := List.getElem?_eq_getElem (show n < raw.length by omega)
    unfold owner6Loop
    rw [hn, owner6Loop_ok raw n (by omega), take_rev raw n _ hn]
    dsimp only
    rw [(hex_eq _).1, (hex_eq _).2]
    simp

theorem own_ok (zone : Name) (raw : Bytes) (h : raw.length = rawLen (famOf zone)) :
    own (decide (postfix6 <:+ zone)) raw = .ok (ptrKey (famOf zone) raw).owner := by
  unfold own famOf ptrKey at *
  rw [← postfix_eq.2] at *
  by_cases hz : postfix6 <:+ zone
  · simp only [hz, if_true, decide_true] at h ⊢
    unfold owner6
    rw [owner6Loop_ok raw 16 (by simp [rawLen] at h; omega), List.take_of_length_le (by simp [rawLen] at h; omega), postfix_eq.2]
    rfl
  · simp only [hz, if_false, decide_false] at h ⊢
    rw [if_neg (by simp)]
    unfold owner4
    rw [owner4Loop_ok raw 4 (by simp [rawLen] at h; omega), List.take_of_length_le (by simp [rawLen] at h; omega), postfix_eq.1]
    rfl

/-- An address record. -/
structure Item where
  owner : Name
  ttl : Nat
  raw : Bytes

def run (zone : Name) (ipv6 : Bool) : List Item → Contents → Res Contents
  | [], c => .ok c
  | i :: rest, c => do
    let o ← own ipv6 i.raw
    if zone <:+ o then do
      let c ← addRR c (⟨false, o, 12⟩, ⟨i.ttl, [wire i.owner]⟩)
      run zone ipv6 rest c
    else run zone ipv6 rest c

def items (ipv6 : Bool) : Contents → List Item
  | [] => []
  | (k, r) :: rest =>
    if k.nsec3 = false ∧ k.type = addrType ipv6 then r.data.map (fun x => ⟨k.owner, r.ttl, x⟩) ++ items ipv6 rest
    else items ipv6 rest

theorem node_run (zone : Name) (ipv6 : Bool) (owner : Name) (ttl : Nat) (more : List Item) : ∀ (l : List Bytes) (c : Contents),
    run zone ipv6 (l.map (fun x => ⟨owner, ttl, x⟩) ++ more) c = (nodeLoop zone ipv6 owner ttl l c).bind (run zone ipv6 more)
  | [], c => rfl
  | x :: l, c => by
    simp only [List.map_cons, List.cons_append, run, nodeLoop]
    cases own ipv6 x with
    | ok o =>
      simp only [Res.bind_ok]
      split
      · cases addRR c (⟨false, o, 12⟩, ⟨ttl, [wire owner]⟩) with
        | ok c' => simp only [Res.bind_ok]; exact node_run zone ipv6 owner ttl more l c'
        | err e => rfl
        | ub => rfl
      · exact node_run zone ipv6 owner ttl more l c
    | err e => rfl
    | ub => rfl

theorem apply_run (zone : Name) (ipv6 : Bool) : ∀ (src c : Contents), apply zone ipv6 src c = run zone ipv6 (items ipv6 src) c
  | [], c => rfl
  | (k, r) :: rest, c => by
    unfold apply items
    split
    · rw [node_run]
      cases nodeLoop zone ipv6 k.owner r.ttl r.data c with
      | ok c' => simp only [Res.bind_ok]; exact apply_run zone ipv6 rest c'
      | err e => rfl
      | ub => rfl
    · exact apply_run zone ipv6 rest c

theorem mem_items (ipv6 : Bool) (i : Item) : ∀ src : Contents, i ∈ items ipv6 src ↔
    ∃ r, ((⟨false, i.owner, addrType ipv6⟩, r) : RRset) ∈ src ∧ r.ttl = i.ttl ∧ i.raw ∈ r.data
  | [] => by simp [items]
  | (k, r) :: rest => by
    have ih := mem_items ipv6 i rest
    unfold items
    split
    · rename_i hk
      rw [List.mem_append, ih, List.mem_map]
      obtain ⟨a, b, ty⟩ := k
      obtain ⟨h1, h2⟩ := hk
      dsimp only at h1 h2
      subst h1 h2
      constructor
      · rintro (⟨x, hx, rfl⟩ | ⟨r', h1, h2⟩)
        · exact ⟨r, by simp, rfl, hx⟩
        · exact ⟨r', by simp [h1], h2⟩
      · rintro ⟨r', h1, h2, h3⟩
        rcases List.mem_cons.1 h1 with e | e
        · left
          simp only [Prod.mk.injEq, Key.mk.injEq, true_and, and_true] at e
          obtain ⟨e1, e2⟩ := e
          subst e2
          exact ⟨i.raw, h3, by cases i; simp_all⟩
        · exact .inr ⟨r', e, h2, h3⟩
    · rename_i hk
      rw [ih]
      constructor
      · rintro ⟨r', h1, h2⟩
        exact ⟨r', by simp [h1], h2⟩
      · rintro ⟨r', h1, h2⟩
        rcases List.mem_cons.1 h1 with e | e
        · exfalso
          simp only [Prod.mk.injEq] at e
          apply hk
          rw [← e.1]
          exact ⟨rfl, rfl⟩
        · exact ⟨r', e, h2⟩

/-- Proper contents. -/
def W (c : Contents) : Prop := (c.map (·.1)).Nodup ∧ ∀ k d, lookup c k = some d → d.data ≠ []

theorem addRR_spec {c : Contents} (hw : W c) (o : Name) (ttl : Nat) (x : Bytes) :
    (addRR c (⟨false, o, 12⟩, ⟨ttl, [x]⟩) = .err .ettl ∧ ∃ d, lookup c ⟨false, o, 12⟩ = some d ∧ d.ttl ≠ ttl) ∨
    (∃ z e, addRR c (⟨false, o, 12⟩, ⟨ttl, [x]⟩) = .ok z ∧ W z ∧ (∀ k, lookup z k = if k = ⟨false, o, 12⟩ then some e else lookup c k) ∧
      e.ttl = ttl ∧ (∀ y, y ∈ e.data ↔ y ∈ recs (lookup c ⟨false, o, 12⟩) ∨ y = x) ∧
      (∀ d, lookup c ⟨false, o, 12⟩ = some d → d.ttl = ttl)) := by
  unfold addRR
  have hl := lookup_put hw.1
  have main : ∀ e : RRs, e.data ≠ [] → W (put c ⟨false, o, 12⟩ (some e)) := by
    intro e he
    refine ⟨put_nodup hw.1 _ _, fun k d h => ?_⟩
    rw [hl] at h
    split at h
    · cases h; exact he
    · exact hw.2 k d h
  cases hd : lookup c ⟨false, o, 12⟩ with
  | none =>
    right
    refine ⟨_, ⟨ttl, [x]⟩, rfl, ?_, ?_, rfl, by simp [recs], by simp⟩
    · unfold insertRR nodeAdd; dsimp only; rw [hd]; exact main _ (by simp)
    · intro k; unfold insertRR nodeAdd; dsimp only; rw [hd, hl]
  | some d =>
    have hne := hw.2 _ _ hd
    dsimp only
    by_cases ht : ttl = d.ttl
    · right
      have hc : ttlChanged 12 d ⟨ttl, [x]⟩ = false := by simp [ttlChanged, ht]
      rw [hc]
      refine ⟨_, ⟨d.ttl, merge d.data [x]⟩, rfl, ?_, ?_, ht.symm, ?_, ?_⟩
      · unfold insertRR nodeAdd
        dsimp only
        rw [hd]
        dsimp only
        rw [hc]
        refine main _ ?_
        intro h
        have := (mem_merge (x := x) (a := d.data) (b := [x])).2 (.inr (by simp))
        dsimp only at h
        rw [h] at this
        cases this
      · intro k
        unfold insertRR nodeAdd
        dsimp only
        rw [hd]
        dsimp only
        rw [hc, hl]
        rfl
      · intro y; simp [mem_merge, recs]
      · intro d' e; cases e; exact ht.symm
    · left
      have hc : ttlChanged 12 d ⟨ttl, [x]⟩ = true := by simp [ttlChanged, Changeset.rrsig, hne, ht]
      rw [hc]
      exact ⟨rfl, d, rfl, fun e => ht e.symm⟩

/-- The TTLs agree. -/
def Agree (zone : Name) (key : Bytes → Key) (T : Key → Nat) (l : List Item) (c : Contents) : Prop :=
  (∀ k d, lookup c k = some d → d.ttl = T k) ∧ ∀ i ∈ l, zone <:+ (key i.raw).owner → i.ttl = T (key i.raw)

/-- What the contents are at the end. -/
structure Post (zone : Name) (key : Bytes → Key) (l : List Item) (c z : Contents) : Prop where
  records : ∀ k x, x ∈ recs (lookup z k) ↔ x ∈ recs (lookup c k) ∨
    ∃ i ∈ l, zone <:+ (key i.raw).owner ∧ k = key i.raw ∧ x = wire i.owner
  ttls : ∀ k d, lookup c k = some d → ∃ e, lookup z k = some e ∧ e.ttl = d.ttl
  ttlsNew : ∀ i ∈ l, zone <:+ (key i.raw).owner → ∃ e, lookup z (key i.raw) = some e ∧ e.ttl = i.ttl
  others : ∀ k, (∀ i ∈ l, zone <:+ (key i.raw).owner → k ≠ key i.raw) → lookup z k = lookup c k

theorem run_spec (zone : Name) (ipv6 : Bool) (key : Bytes → Key) (hkey : ∀ raw, (key raw).nsec3 = false ∧ (key raw).type = 12) :
    ∀ (l : List Item) (c : Contents), W c → (∀ i ∈ l, own ipv6 i.raw = .ok (key i.raw).owner) →
    (∃ z, run zone ipv6 l c = .ok z ∧ Post zone key l c z) ∨
      (run zone ipv6 l c = .err .ettl ∧ ∀ T, ¬Agree zone key T l c)
  | [], c, hw, _ => .inl ⟨c, rfl, by simp, fun k d h => ⟨d, h, rfl⟩, by simp, fun k _ => rfl⟩
  | i :: l, c, hw, ho => by
    have hk : (⟨false, (key i.raw).owner, 12⟩ : Key) = key i.raw := by
      obtain ⟨h1, h2⟩ := hkey i.raw
      generalize key i.raw = q at *
      cases q; simp_all
    unfold run
    rw [ho i (by simp)]
    simp only [Res.bind_ok]
    by_cases hz : zone <:+ (key i.raw).owner
    · rw [if_pos hz]
      have ha := addRR_spec hw (key i.raw).owner i.ttl (wire i.owner)
      rw [hk] at ha ⊢
      rcases ha with ⟨h1, d, h2, h3⟩ | ⟨c', e, h1, h2, h3, h4, h5, h6⟩
      · right
        rw [h1]
        refine ⟨rfl, fun T hT => h3 ?_⟩
        rw [hT.1 _ _ h2, ← hT.2 i (by simp) hz]
      · rw [h1]
        simp only [Res.bind_ok]
        rcases run_spec zone ipv6 key hkey l c' h2 (fun j hj => ho j (by simp [hj])) with ⟨z, g1, g2⟩ | ⟨g1, g2⟩
        · left
          refine ⟨z, g1, ?_, ?_, ?_, ?_⟩
          · intro k x
            rw [g2.records, h3]
            by_cases hki : k = key i.raw
            · subst hki
              rw [if_pos rfl]
              simp only [recs, h5, List.mem_cons, exists_eq_or_imp]
              constructor
              · rintro ((h | h) | h)
                · exact .inl h
                · exact .inr (.inl ⟨hz, by simp, h⟩)
                · exact .inr (.inr h)
              · rintro (h | ⟨_, _, h⟩ | h)
                · exact .inl (.inl h)
                · exact .inl (.inr h)
                · exact .inr h
            · rw [if_neg hki]
              simp only [List.mem_cons, exists_eq_or_imp, hki, false_and, and_false, false_or]
          · intro k d hd
            by_cases hki : k = key i.raw
            · obtain ⟨e', a, b⟩ := g2.ttls k e (by rw [h3, if_pos hki])
              exact ⟨e', a, by rw [b, h4, h6 d (hki ▸ hd)]⟩
            · exact g2.ttls k d (by rw [h3, if_neg hki]; exact hd)
          · intro j hj hjz
            rcases List.mem_cons.1 hj with rfl | hj
            · obtain ⟨e', a, b⟩ := g2.ttls (key j.raw) e (by rw [h3, if_pos rfl])
              exact ⟨e', a, by rw [b, h4]⟩
            · exact g2.ttlsNew j hj hjz
          · intro k hk'
            rw [g2.others k (fun j hj => hk' j (by simp [hj])), h3, if_neg (hk' i (by simp) hz)]
        · right
          refine ⟨g1, fun T hT => g2 T ⟨?_, fun j hj => hT.2 j (by simp [hj])⟩⟩
          intro k d hd
          rw [h3] at hd
          split at hd
          · rename_i hki
            cases hd
            rw [h4, hki, hT.2 i (by simp) hz]
          · exact hT.1 k d hd
    · rw [if_neg hz]
      rcases run_spec zone ipv6 key hkey l c hw (fun j hj => ho j (by simp [hj])) with ⟨z, g1, g2⟩ | ⟨g1, g2⟩
      · left
        refine ⟨z, g1, ?_, g2.ttls, ?_, ?_⟩
        · intro k x
          rw [g2.records]
          simp only [List.mem_cons, exists_eq_or_imp, hz, false_and, false_or]
        · intro j hj hjz
          rcases List.mem_cons.1 hj with rfl | hj
          · exact absurd hjz hz
          · exact g2.ttlsNew j hj hjz
        · intro k hk'
          exact g2.others k (fun j hj => hk' j (by simp [hj]))
      · exact .inr ⟨g1, fun T hT => g2 T ⟨hT.1, fun j hj => hT.2 j (by simp [hj])⟩⟩

end Knot.Reverse
