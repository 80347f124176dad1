import Verif.WireCtx.Model
/-!
# C26: wire buffer contexts
-/
namespace Knot
open WireCtx

namespace WireCtx

/-- A context is sane when the declared size does not exceed the memory and the position is inside. -/
def Sane (c : Ctx) : Prop := c.pos ≤ c.size ∧ c.size ≤ c.mem.length

instance (c : Ctx) : Decidable (Sane c) := by unfold Sane; infer_instance

/-- The operations of the interface. -/
inductive Op where
  | setOffset (n : Nat) | skip (d : Int) | read (n : Nat) | write (data : Bytes) | clear (n : Nat)
  | printf (s : Bytes)

/-- Perform one operation: the delivered bytes (empty when nothing is read) and the new context. -/
def Op.run (c : Ctx) : Op → Res (Bytes × Ctx)
  | .setOffset n => .ok ([], WireCtx.setOffset c n)
  | .skip d => .ok ([], WireCtx.skip c d)
  | .read n => WireCtx.read c n
  | .write d => do let c ← WireCtx.write c d; .ok ([], c)
  | .clear n => do let c ← WireCtx.clear c n; .ok ([], c)
  | .printf s => do let c ← WireCtx.printf c s; .ok ([], c)

/-- Perform a history, concatenating what was read. -/
def runAll (c : Ctx) : List Op → Res (Bytes × Ctx)
  | [] => .ok ([], c)
  | o :: os => do
    let (d, c) ← o.run c
    let (d', c) ← runAll c os
    .ok (d ++ d', c)

/-- What an operation is meant to do on the pair (buffer of declared size, position): `none` if it
does not fit. This is the specification of the interface. -/
def Op.spec (buf : Bytes) (pos : Nat) (ro : Bool) : Op → Option (Bytes × Bytes × Nat)
  | .setOffset n => if n ≤ buf.length then some ([], buf, n) else none
  | .skip d => if 0 ≤ (pos : Int) + d ∧ (pos : Int) + d ≤ buf.length
      then some ([], buf, ((pos : Int) + d).toNat) else none
  | .read n => if pos + n ≤ buf.length then some ((buf.drop pos).take n, buf, pos + n) else none
  | .write d => if d = [] ∨ (ro = false ∧ pos + d.length ≤ buf.length)
      then some ([], buf.take pos ++ d ++ buf.drop (pos + d.length), pos + d.length) else none
  | .clear n => if n = 0 ∨ (ro = false ∧ pos + n ≤ buf.length)
      then some ([], buf.take pos ++ List.replicate n 0 ++ buf.drop (pos + n), pos + n) else none
  | .printf s => if ro = false ∧ pos + s.length < buf.length
      then some ([], buf.take pos ++ s ++ [0] ++ buf.drop (pos + s.length + 1), pos + s.length) else none

/-- The operations except `printf`. -/
def Op.basic : Op → Prop
  | .printf _ => False
  | _ => True

theorem load_ok (mem : Bytes) (pos n : Nat) (h : pos + n ≤ mem.length) :
    load mem pos n = .ok ((mem.drop pos).take n) := by simp [load, h]

theorem store_ok (mem : Bytes) (pos : Nat) (d : Bytes) (h : pos + d.length ≤ mem.length) :
    store mem pos d = .ok (mem.take pos ++ d ++ mem.drop (pos + d.length)) := by simp [store, h]

theorem take_store (mem d : Bytes) (pos size : Nat) (h : pos + d.length ≤ size) (hs : size ≤ mem.length) :
    (mem.take pos ++ d ++ mem.drop (pos + d.length)).take size =
      (mem.take size).take pos ++ d ++ (mem.take size).drop (pos + d.length) := by
  rw [List.take_append, List.take_append, List.take_take, List.drop_take]
  simp only [List.length_append, List.length_take]
  congr 1
  · congr 1
    · rw [List.take_take]; congr 1; omega
    · rw [List.take_of_length_le]; omega
  · congr 1; omega

theorem drop_store (mem d : Bytes) (pos size : Nat) (h : pos + d.length ≤ size) (hs : size ≤ mem.length) :
    (mem.take pos ++ d ++ mem.drop (pos + d.length)).drop size = mem.drop size := by
  rw [List.drop_append, List.drop_eq_nil_of_le (by simp; omega), List.nil_append, List.drop_drop]
  congr 1
  simp only [List.length_append, List.length_take]
  omega

theorem length_store (mem d : Bytes) (pos : Nat) (h : pos + d.length ≤ mem.length) :
    (mem.take pos ++ d ++ mem.drop (pos + d.length)).length = mem.length := by
  simp; omega

end WireCtx

/-- C26. A single operation (other than `printf`) on a sane context without error. Either it fits
and does exactly what it is meant to do, or only the error is set. Memory behind the declared size
is never changed and there is no access outside the memory. -/
theorem C26_step (c : Ctx) (h : Sane c) (he : c.error = none) (o : Op) (ho : o.basic) :
    (∃ d c', o.run c = .ok (d, c') ∧
      o.spec (c.mem.take c.size) c.pos c.readonly = some (d, c'.mem.take c.size, c'.pos) ∧
      c'.mem.drop c.size = c.mem.drop c.size ∧ c'.mem.length = c.mem.length ∧
      c'.size = c.size ∧ c'.readonly = c.readonly ∧ c'.error = none) ∨
    (∃ d e, o.run c = .ok (d, { c with error := some e }) ∧
      o.spec (c.mem.take c.size) c.pos c.readonly = none ∧
      d = match o with | .read n => List.replicate n 0 | _ => []) := by
  obtain ⟨mem, size, pos, error, ro⟩ := c
  simp only at he
  subst he
  obtain ⟨h1, h2⟩ := h
  simp only at h1 h2
  have hl : (mem.take size).length = size := by simp; omega
  cases o with
  | setOffset n =>
    simp only [Op.run, Op.spec, setOffset, hl]
    by_cases hn : n ≤ size
    · left
      refine ⟨[], ⟨mem, size, n, none, ro⟩, ?_, ?_, rfl, rfl, rfl, rfl, rfl⟩
      · simp [Nat.not_lt.mpr hn]
      · simp [hn]
    · right
      exact ⟨[], .erange, by simp [Nat.lt_of_not_le hn], by simp [hn], rfl⟩
  | skip d =>
    simp only [Op.run, Op.spec, skip, available, hl]
    by_cases hd : 0 ≤ (pos : Int) + d ∧ (pos : Int) + d ≤ size
    · left
      refine ⟨[], ⟨mem, size, ((pos : Int) + d).toNat, none, ro⟩, ?_, by simp [hd], rfl, rfl, rfl, rfl, rfl⟩
      by_cases h0 : d ≥ 0
      · rw [if_neg (by simp), if_pos h0, if_neg (by omega)]
        have : pos + d.toNat = ((pos : Int) + d).toNat := by omega
        rw [this]
      · rw [if_neg (by simp), if_neg h0, if_neg (by omega)]
        have : pos - (-d).toNat = ((pos : Int) + d).toNat := by omega
        rw [this]
    · right
      refine ⟨[], .erange, ?_, by simp [hd], rfl⟩
      by_cases h0 : d ≥ 0
      · rw [if_neg (by simp), if_pos h0, if_pos (by omega)]
      · rw [if_neg (by simp), if_neg h0, if_pos (by omega)]
  | read n =>
    simp only [Op.run, Op.spec, WireCtx.read, canRead, available, hl]
    by_cases hn : pos + n ≤ size
    · left
      refine ⟨(mem.drop pos).take n, ⟨mem, size, pos + n, none, ro⟩, ?_, ?_, rfl, rfl, rfl, rfl, rfl⟩
      · rw [if_neg (by simp), if_neg (by omega)]
        simp only
        rw [load_ok _ _ _ (by omega)]
        rfl
      · rw [if_pos hn]
        rw [List.drop_take, List.take_take]
        simp only [Option.some.injEq, Prod.mk.injEq, and_true]
        congr 1
        omega
    · right
      refine ⟨List.replicate n 0, .efewdata, ?_, by simp [hn], rfl⟩
      rw [if_neg (by simp), if_pos (by omega)]
  | write d =>
    simp only [Op.run, Op.spec, WireCtx.write, canWrite, available, hl]
    by_cases hd : d = []
    · subst hd
      left
      refine ⟨[], ⟨mem, size, pos, none, ro⟩, ?_, ?_, rfl, rfl, rfl, rfl, rfl⟩
      · simp
      · simp
    · have hd' : d.length ≠ 0 := fun h => hd (List.eq_nil_of_length_eq_zero h)
      rw [if_neg (by simp), if_neg hd']
      cases ro with
      | true =>
        right
        exact ⟨[], .eacces, rfl, by simp [hd], rfl⟩
      | false =>
        by_cases hn : pos + d.length ≤ size
        · left
          refine ⟨[], ⟨mem.take pos ++ d ++ mem.drop (pos + d.length), size, pos + d.length, none, false⟩,
            ?_, ?_, drop_store _ _ _ _ hn h2, length_store _ _ _ (by omega), rfl, rfl, rfl⟩
          · simp only [Bool.false_eq_true, if_false]
            rw [if_neg (by omega)]
            simp only
            rw [store_ok _ _ _ (by omega)]
            rfl
          · rw [if_pos (.inr ⟨rfl, hn⟩)]
            simp only [take_store _ _ _ _ hn h2]
        · right
          refine ⟨[], .espace, ?_, by simp [hd, hn], rfl⟩
          simp only [Bool.false_eq_true, if_false]
          rw [if_pos (by omega)]
          rfl
  | clear n =>
    simp only [Op.run, Op.spec, WireCtx.clear, canWrite, available, hl]
    by_cases hd : n = 0
    · subst hd
      left
      refine ⟨[], ⟨mem, size, pos, none, ro⟩, ?_, ?_, rfl, rfl, rfl, rfl, rfl⟩
      · simp
      · simp
    · rw [if_neg (by simp), if_neg hd]
      cases ro with
      | true =>
        right
        exact ⟨[], .eacces, rfl, by simp [hd], rfl⟩
      | false =>
        have hrl : (List.replicate n (0 : UInt8)).length = n := by simp
        by_cases hn : pos + n ≤ size
        · left
          have t1 := take_store mem (List.replicate n 0) pos size (by rw [hrl]; exact hn) h2
          have t2 := drop_store mem (List.replicate n 0) pos size (by rw [hrl]; exact hn) h2
          have t3 := length_store mem (List.replicate n 0) pos (by rw [hrl]; omega)
          have t4 := store_ok mem pos (List.replicate n 0) (by rw [hrl]; omega)
          rw [hrl] at t1 t2 t3 t4
          refine ⟨[], ⟨mem.take pos ++ List.replicate n 0 ++ mem.drop (pos + n), size, pos + n, none, false⟩,
            ?_, ?_, t2, t3, rfl, rfl, rfl⟩
          · simp only [Bool.false_eq_true, if_false]
            rw [if_neg (by omega)]
            simp only
            rw [t4]
            rfl
          · rw [if_pos (.inr ⟨rfl, hn⟩)]
            simp only [t1]
        · right
          refine ⟨[], .espace, ?_, by simp [hd, hn], rfl⟩
          simp only [Bool.false_eq_true, if_false]
          rw [if_pos (by omega)]
          rfl
  | printf s => cases ho

/-- C26. The error is sticky: afterwards no operation (other than `printf`) changes anything, and
reads deliver zeros. -/
theorem C26_sticky (c : Ctx) (he : c.error ≠ none) (o : Op) (ho : o.basic) :
    ∃ d, o.run c = .ok (d, c) ∧ ∀ b ∈ d, b = 0 := by
  cases o with
  | setOffset n => exact ⟨[], by simp [Op.run, setOffset, he], by simp⟩
  | skip n => exact ⟨[], by simp [Op.run, skip, he], by simp⟩
  | read n => exact ⟨List.replicate n 0, by simp [Op.run, WireCtx.read, he], by simp⟩
  | write n => exact ⟨[], by simp [Op.run, WireCtx.write, he], by simp⟩
  | clear n => exact ⟨[], by simp [Op.run, WireCtx.clear, he], by simp⟩
  | printf n => cases ho

/-- C26. `printf` never accesses memory outside the declared buffer. -/
theorem C26_printf_safe (c : Ctx) (h : Sane c) (s : WireCtx.Bytes) :
    ∃ c', printf c s = .ok c' ∧ Sane c' ∧ c'.size = c.size ∧ c'.mem.length = c.mem.length ∧
      c'.mem.drop c.size = c.mem.drop c.size ∧ c'.mem.take c.pos = c.mem.take c.pos := by
  obtain ⟨mem, size, pos, error, ro⟩ := c
  obtain ⟨h1, h2⟩ := h
  simp only at h1 h2
  simp only [printf, available, Sane]
  by_cases h0 : size - pos = 0
  · rw [if_pos h0]
    simp only [Res.bind_ok]
    by_cases hs : s.length > size - pos
    · rw [if_pos hs]
      exact ⟨_, rfl, ⟨h1, h2⟩, rfl, rfl, rfl, rfl⟩
    · rw [if_neg hs]
      exact ⟨_, rfl, ⟨by show pos + s.length ≤ size; omega, h2⟩, rfl, rfl, rfl, rfl⟩
  · rw [if_neg h0]
    have hlen : (s.take (size - pos - 1) ++ [(0 : UInt8)]).length ≤ size - pos := by simp; omega
    rw [store_ok _ _ _ (by omega)]
    simp only [Res.bind_ok]
    have t2 := drop_store mem (s.take (size - pos - 1) ++ [(0 : UInt8)]) pos size (by omega) h2
    have t3 := length_store mem (s.take (size - pos - 1) ++ [(0 : UInt8)]) pos (by omega)
    have t5 : (mem.take pos ++ (s.take (size - pos - 1) ++ [(0 : UInt8)]) ++
        mem.drop (pos + (s.take (size - pos - 1) ++ [(0 : UInt8)]).length)).take pos = mem.take pos := by
      rw [List.append_assoc, List.take_append_of_le_length (by simp; omega), List.take_take]
      simp
    by_cases hs : s.length > size - pos
    · rw [if_pos hs]
      exact ⟨_, rfl, ⟨h1, by rw [t3]; exact h2⟩, rfl, t3, t2, t5⟩
    · rw [if_neg hs]
      exact ⟨_, rfl, ⟨by show pos + s.length ≤ size; omega, by rw [t3]; exact h2⟩, rfl, t3, t2, t5⟩

/-- C26. On every history of operations from a fresh context nothing outside the buffer is read or
written (there is no undefined behaviour), and the position stays inside. -/
theorem C26_histories (ops : List Op) (mem : WireCtx.Bytes) (size : Nat) (hs : size ≤ mem.length)
    (ro : Bool) :
    ∃ d c', runAll (if ro then initConst mem size else WireCtx.init mem size) ops = .ok (d, c') ∧
      c'.pos ≤ size ∧ c'.mem.length = mem.length ∧ c'.mem.drop size = mem.drop size := by
  have gen : ∀ ops (c : Ctx), Sane c → ∃ d c', runAll c ops = .ok (d, c') ∧
      c'.pos ≤ c.size ∧ c'.mem.length = c.mem.length ∧ c'.mem.drop c.size = c.mem.drop c.size := by
    intro ops
    induction ops with
    | nil => exact fun c h => ⟨[], c, rfl, h.1, rfl, rfl⟩
    | cons o os ih =>
      intro c h
      have hstep : ∃ d c', o.run c = .ok (d, c') ∧ Sane c' ∧ c'.size = c.size ∧
          c'.mem.length = c.mem.length ∧ c'.mem.drop c.size = c.mem.drop c.size := by
        by_cases ho : o.basic
        · by_cases he : c.error = none
          · rcases C26_step c h he o ho with ⟨d, c', h1, h2, h3, h4, h5, h6, h7⟩ | ⟨d, e, h1, _⟩
            · refine ⟨d, c', h1, ⟨?_, by rw [h5, h4]; exact h.2⟩, h5, h4, h3⟩
              rw [h5]
              have hl : (c.mem.take c.size).length = c.size := by
                have := h.2; simp; omega
              have hp := h.1
              cases o <;> simp only [Op.spec, hl] at h2
              all_goals (try split at h2)
              all_goals (first | (cases h2; done) | skip)
              all_goals (try (simp only [Option.some.injEq, Prod.mk.injEq] at h2))
              all_goals (try omega)
              all_goals (first
                | (rename_i hc
                   rcases hc with rfl | hc
                   · simp at h2; omega
                   · omega)
                | cases ho)
            · exact ⟨d, _, h1, h, rfl, rfl, rfl⟩
          · obtain ⟨d, h1, _⟩ := C26_sticky c he o ho
            exact ⟨d, c, h1, h, rfl, rfl, rfl⟩
        · cases o with
          | printf s =>
            obtain ⟨c', h1, h2, h3, h4, h5, _⟩ := C26_printf_safe c h s
            exact ⟨[], c', by simp [Op.run, h1], h2, h3, h4, h5⟩
          | _ => exact absurd trivial ho
      obtain ⟨d, c1, h1, h2, h3, h4, h5⟩ := hstep
      obtain ⟨d', c', g1, g2, g3, g4⟩ := ih c1 h2
      refine ⟨d ++ d', c', ?_, by omega, by omega, ?_⟩
      · simp [runAll, h1, g1]
      · rw [h3] at g4
        rw [g4, h5]
  cases ro with
  | true => exact gen ops (initConst mem size) ⟨Nat.zero_le _, hs⟩
  | false => exact gen ops (WireCtx.init mem size) ⟨Nat.zero_le _, hs⟩

/-- C26, the full claim for `printf` is the specification `Op.spec`; it holds when the context has
no error, is writable, and the text with its terminating NUL fits. Missing: the other cases, which
the code gets wrong (see the two theorems below). -/
theorem C26_printf_partial (c : Ctx) (h : Sane c) (s : WireCtx.Bytes) (hs : c.pos + s.length < c.size) :
    ∃ c', printf c s = .ok c' ∧ c'.mem.take c.size =
      (c.mem.take c.size).take c.pos ++ s ++ [0] ++ (c.mem.take c.size).drop (c.pos + s.length + 1) ∧
      c'.pos = c.pos + s.length ∧ c'.error = c.error := by
  obtain ⟨mem, size, pos, error, ro⟩ := c
  obtain ⟨h1, h2⟩ := h
  simp only at h1 h2 hs
  simp only [printf, available]
  rw [if_neg (by omega), List.take_of_length_le (by omega : s.length ≤ size - pos - 1)]
  have hl : (s ++ [0]).length = s.length + 1 := by simp
  rw [store_ok _ _ _ (by omega)]
  simp only [Res.bind_ok]
  rw [if_neg (by omega)]
  refine ⟨_, rfl, ?_, rfl, rfl⟩
  simp only
  rw [take_store _ _ _ _ (by omega) h2, hl]
  simp only [List.append_assoc, Nat.add_assoc]

/-- C26. A text that exactly fills the buffer is reported as written, but its last character is
overwritten with NUL (the comparison should be `>=`). -/
theorem C26_printf_truncates : ∃ c s c', Sane c ∧ c.error = none ∧ printf c s = .ok c' ∧
    c'.error = none ∧ c'.pos = c.pos + s.length ∧ c'.mem.take s.length ≠ s :=
  ⟨WireCtx.init [0, 0] 2, [65, 66], ⟨[65, 0], 2, 2, none, false⟩, by decide, rfl, by decide, rfl, rfl, by decide⟩

/-- C26. `printf` writes into read-only contexts and after an error. -/
theorem C26_printf_ignores_state : ∃ c s c', Sane c ∧ c.readonly = true ∧ c.error ≠ none ∧
    printf c s = .ok c' ∧ c'.mem ≠ c.mem :=
  ⟨⟨[0, 0], 2, 0, some .erange, true⟩, [65], ⟨[65, 0], 2, 1, some .erange, true⟩, by decide, rfl, by decide,
    by decide, by decide⟩

/-! ## Reads return what writes stored -/

namespace WireCtx

theorem length_beBytes (n v : Nat) : (beBytes n v).length = n := by
  induction n with
  | zero => rfl
  | succ n ih => simp [beBytes, ih]

theorem beVal_beBytes (n v : Nat) : beVal (beBytes n v) = v % 256 ^ n := by
  induction n with
  | zero => simp [beBytes, beVal, Nat.mod_one]
  | succ n ih =>
    simp only [beBytes, beVal, length_beBytes, ih]
    rw [show (UInt8.ofNat (v / 256 ^ n % 256)).toNat = v / 256 ^ n % 256 by
      rw [UInt8.toNat_ofNat']; omega]
    rw [Nat.pow_succ, Nat.mod_mul, Nat.mul_comm (256 ^ n)]
    omega

/-- The typed fields of the interface. -/
inductive Field where
  | u8 (v : Nat) | u16 (v : Nat) | u32 (v : Nat) | u48 (v : Nat) | u64 (v : Nat) | raw (d : Bytes)

/-- Values are in the range of the C type of the field (48-bit fields: below 2^48). -/
def Field.Valid : Field → Prop
  | .u8 v => v < 2 ^ 8 | .u16 v => v < 2 ^ 16 | .u32 v => v < 2 ^ 32 | .u48 v => v < 2 ^ 48
  | .u64 v => v < 2 ^ 64 | .raw _ => True

/-- Number of bytes a field takes. -/
def Field.size : Field → Nat
  | .u8 _ => 1 | .u16 _ => 2 | .u32 _ => 4 | .u48 _ => 6 | .u64 _ => 8 | .raw d => d.length

def Field.put (c : Ctx) : Field → Res Ctx
  | .u8 v => writeU c 1 v | .u16 v => writeU c 2 v | .u32 v => writeU c 4 v | .u48 v => writeU48 c v
  | .u64 v => writeU c 8 v | .raw d => write c d

/-- Read a field of the same kind (and size) as `f`. -/
def Field.get (c : Ctx) : Field → Res (Field × Ctx)
  | .u8 _ => do let (v, c) ← readU c 1; .ok (.u8 v, c)
  | .u16 _ => do let (v, c) ← readU c 2; .ok (.u16 v, c)
  | .u32 _ => do let (v, c) ← readU c 4; .ok (.u32 v, c)
  | .u48 _ => do let (v, c) ← readU48 c; .ok (.u48 v, c)
  | .u64 _ => do let (v, c) ← readU c 8; .ok (.u64 v, c)
  | .raw d => do let (d, c) ← read c d.length; .ok (.raw d, c)

def putAll (c : Ctx) : List Field → Res Ctx
  | [] => .ok c
  | f :: fs => do let c ← f.put c; putAll c fs

def getAll (c : Ctx) : List Field → Res (List Field × Ctx)
  | [] => .ok ([], c)
  | f :: fs => do
    let (f, c) ← f.get c
    let (fs, c) ← getAll c fs
    .ok (f :: fs, c)

/-- The bytes of a field. -/
def Field.bytes : Field → Bytes
  | .u8 v => beBytes 1 v | .u16 v => beBytes 2 v | .u32 v => beBytes 4 v
  | .u48 v => ((beBytes 8 (v * 256 % 18446744073709551616)).drop 1).take 6
  | .u64 v => beBytes 8 v | .raw d => d

theorem Field.length_bytes (f : Field) : f.bytes.length = f.size := by
  cases f <;> simp [Field.bytes, Field.size, length_beBytes]

theorem Field.put_eq (c : Ctx) (f : Field) : f.put c = write c f.bytes := by cases f <;> rfl

theorem beBytes_append (a b v : Nat) : beBytes (a + b) v = beBytes a (v / 256 ^ b) ++ beBytes b v := by
  induction a with
  | zero => simp [beBytes]
  | succ a ih =>
    rw [Nat.succ_add]
    simp only [beBytes, List.cons_append, ih, Nat.div_div_eq_div_mul, ← Nat.pow_add]
    rw [Nat.add_comm b a]

theorem beBytes_mod (n v m : Nat) (h : n ≤ m) : beBytes n (v % 256 ^ m) = beBytes n v := by
  induction n with
  | zero => rfl
  | succ n ih =>
    simp only [beBytes, ih (by omega)]
    congr 2
    obtain ⟨k, rfl⟩ : ∃ k, m = n + 1 + k := ⟨m - (n + 1), by omega⟩
    rw [Nat.pow_add, Nat.pow_succ, Nat.mul_assoc, Nat.mod_mul_right_div_self]
    rw [Nat.mod_mul_right_mod]

theorem bytes48 (v : Nat) :
    ((beBytes 8 (v * 256 % 18446744073709551616)).drop 1).take 6 = beBytes 6 v := by
  have h1 : (18446744073709551616 : Nat) = 256 ^ 8 := by decide
  rw [h1, beBytes_mod 8 _ 8 (by omega), show (8 : Nat) = 1 + (6 + 1) by rfl, beBytes_append 1 (6 + 1),
    List.drop_left' (length_beBytes 1 _), beBytes_append 6 1, List.take_left' (length_beBytes 6 _)]
  congr 1
  omega

theorem beVal_append (a b : Bytes) : beVal (a ++ b) = beVal a * 256 ^ b.length + beVal b := by
  induction a with
  | nil => simp [beVal]
  | cons x a ih =>
    simp only [List.cons_append, beVal, ih, List.length_append, Nat.pow_add]
    rw [Nat.add_mul, Nat.mul_assoc, Nat.add_assoc]

theorem Field.get_eq (c : Ctx) (h : Sane c) (he : c.error = none) (f : Field) (hf : f.Valid)
    (rest : Bytes) (hm : c.mem.drop c.pos = f.bytes ++ rest) (hs : c.pos + f.size ≤ c.size) :
    f.get c = .ok (f, { c with pos := c.pos + f.size }) := by
  have hr : ∀ n, n = f.size → read c n = .ok (f.bytes, { c with pos := c.pos + n }) := by
    rintro n rfl
    have h2 := h.2
    simp only [read, he, canRead, available]
    rw [if_neg (by simp), if_neg (by omega)]
    simp only
    rw [load_ok _ _ _ (by omega), hm, List.take_left' f.length_bytes]
    rfl
  cases f with
  | u8 v =>
    simp only [Field.get, readU]
    rw [hr 1 rfl]
    simp only [Res.bind_ok, Field.bytes, beVal_beBytes]
    rw [Nat.mod_eq_of_lt hf]; rfl
  | u16 v =>
    simp only [Field.get, readU]
    rw [hr 2 rfl]
    simp only [Res.bind_ok, Field.bytes, beVal_beBytes]
    rw [Nat.mod_eq_of_lt hf]; rfl
  | u32 v =>
    simp only [Field.get, readU]
    rw [hr 4 rfl]
    simp only [Res.bind_ok, Field.bytes, beVal_beBytes]
    rw [Nat.mod_eq_of_lt hf]; rfl
  | u64 v =>
    simp only [Field.get, readU]
    rw [hr 8 rfl]
    simp only [Res.bind_ok, Field.bytes, beVal_beBytes]
    rw [Nat.mod_eq_of_lt hf]; rfl
  | u48 v =>
    simp only [Field.get, readU48]
    rw [hr 6 rfl]
    simp only [Res.bind_ok, Field.bytes, bytes48]
    have : beVal (0 :: beBytes 6 v ++ [0]) / 256 = v := by
      rw [beVal_append, beVal]
      simp only [beVal_beBytes, List.length_singleton, beVal, List.length_nil]
      rw [Nat.mod_eq_of_lt (show v < 256 ^ 6 from hf)]
      simp
    rw [this]; rfl
  | raw d =>
    simp only [Field.get]
    rw [hr d.length rfl]
    rfl

end WireCtx

/-- C26. Reads return what writes stored: writing any list of typed fields into a fresh writable
buffer that has room, going back to the start, and reading fields of the same types delivers
exactly the values written, and no error is set. -/
theorem C26_write_read (fs : List Field) (hv : ∀ f ∈ fs, f.Valid) (mem : WireCtx.Bytes) (size : Nat)
    (hs : size ≤ mem.length) (hfit : (fs.map Field.size).sum ≤ size) :
    ∃ c c', putAll (WireCtx.init mem size) fs = .ok c ∧ c.error = none ∧
      c.pos = (fs.map Field.size).sum ∧
      getAll (setOffset c 0) fs = .ok (fs, c') ∧ c'.error = none ∧ c'.pos = c.pos := by
  -- writing
  have hput : ∀ fs : List Field, ∀ c : Ctx, Sane c → c.error = none → c.readonly = false →
      c.pos + (fs.map Field.size).sum ≤ c.size →
      ∃ c', putAll c fs = .ok c' ∧ c'.error = none ∧ c'.size = c.size ∧ Sane c' ∧
        c'.pos = c.pos + (fs.map Field.size).sum ∧
        ∃ rest, c'.mem = c.mem.take c.pos ++ (fs.map Field.bytes).flatten ++ rest := by
    intro fs
    induction fs with
    | nil =>
      intro c h he _ _
      exact ⟨c, rfl, he, rfl, h, by simp, c.mem.drop c.pos, by simp⟩
    | cons f fs ih =>
      intro c h he hro hfit
      simp only [List.map_cons, List.sum_cons] at hfit
      have hlb := f.length_bytes
      obtain ⟨h1, h2⟩ := h
      have hwr : write c f.bytes =
          .ok { c with mem := c.mem.take c.pos ++ f.bytes ++ c.mem.drop (c.pos + f.size),
                       pos := c.pos + f.size } := by
        by_cases h0 : f.bytes = []
        · have h0' : f.size = 0 := by rw [← hlb, h0]; rfl
          obtain ⟨m, s, p, e, r⟩ := c
          simp only at he; subst he
          simp [write, h0, h0']
        · have h0' : f.bytes.length ≠ 0 := fun h => h0 (List.eq_nil_of_length_eq_zero h)
          simp only [write, he, canWrite, hro, available]
          rw [if_neg (by simp), if_neg h0', if_neg (by simp), if_neg (by omega)]
          simp only
          rw [store_ok _ _ _ (by omega), hlb]
          rfl
      simp only [putAll, Field.put_eq, hwr, Res.bind_ok]
      have hsane : Sane { c with mem := c.mem.take c.pos ++ f.bytes ++ c.mem.drop (c.pos + f.size),
                                 pos := c.pos + f.size } := by
        refine ⟨by show c.pos + f.size ≤ c.size; omega, ?_⟩
        show c.size ≤ _
        simp only [List.length_append, List.length_take, List.length_drop, hlb]
        omega
      obtain ⟨c', g1, g2, g3, g4, g5, rest, g6⟩ := ih _ hsane he hro (by
        show c.pos + f.size + _ ≤ c.size
        omega)
      refine ⟨c', g1, g2, g3, g4, ?_, rest, ?_⟩
      · rw [g5]; simp only [List.map_cons, List.sum_cons]; omega
      · rw [g6]
        simp only [List.map_cons, List.flatten_cons]
        rw [List.take_left' (by simp only [List.length_append, List.length_take, hlb]; omega)]
        simp only [List.append_assoc]
  -- reading
  have hget : ∀ fs : List Field, (∀ f ∈ fs, f.Valid) → ∀ c : Ctx, Sane c → c.error = none →
      c.pos + (fs.map Field.size).sum ≤ c.size →
      (∃ rest, c.mem.drop c.pos = (fs.map Field.bytes).flatten ++ rest) →
      getAll c fs = .ok (fs, { c with pos := c.pos + (fs.map Field.size).sum }) := by
    intro fs
    induction fs with
    | nil => intro _ c _ _ _ _; simp [getAll]
    | cons f fs ih =>
      intro hv c h he hfit ⟨rest, hm⟩
      simp only [List.map_cons, List.sum_cons, List.flatten_cons, List.append_assoc] at hfit hm
      have hg := Field.get_eq c h he f (hv f (by simp)) _ hm (by omega)
      simp only [getAll, hg, Res.bind_ok]
      rw [ih (fun f hf => hv f (by simp [hf])) { c with pos := c.pos + f.size }
        ⟨by show c.pos + f.size ≤ c.size; omega, h.2⟩ he (by show c.pos + f.size + _ ≤ c.size; omega)
        ⟨rest, by
          show c.mem.drop (c.pos + f.size) = _
          rw [← List.drop_drop, hm, List.drop_left' f.length_bytes]⟩]
      simp only [Res.bind_ok, List.map_cons, List.sum_cons, Nat.add_assoc]
  obtain ⟨c, g1, g2, g3, g4, g5, rest, g6⟩ := hput fs (WireCtx.init mem size) ⟨Nat.zero_le _, hs⟩ rfl rfl
    (by simpa [WireCtx.init] using hfit)
  have g5' : c.pos = (fs.map Field.size).sum := by simpa [WireCtx.init] using g5
  have hset : setOffset c 0 = { c with pos := 0 } := by simp [setOffset, g2]
  refine ⟨c, { c with pos := 0 + (fs.map Field.size).sum }, g1, g2, g5', ?_, g2, by simp [g5']⟩
  rw [hset]
  exact hget fs hv { c with pos := 0 } ⟨Nat.zero_le _, g4.2⟩ g2
    (by show 0 + _ ≤ c.size; rw [g3]; simpa [WireCtx.init] using hfit)
    ⟨rest, by show c.mem.drop 0 = _; rw [g6]; simp [WireCtx.init]⟩

/-- C26. `copy` moves exactly the requested bytes, or only sets the error of the destination. -/
theorem C26_copy (dst src : Ctx) (hd : Sane dst) (hs : Sane src) (n : Nat) :
    copy dst src n =
      if n = 0 ∨ dst.error ≠ none then .ok (dst, src)
      else if src.error ≠ none ∨ src.pos + n > src.size then
        .ok ({ dst with error := some .efewdata }, src)
      else if dst.readonly then .ok ({ dst with error := some .eacces }, src)
      else if dst.pos + n > dst.size then .ok ({ dst with error := some .espace }, src)
      else .ok ({ dst with mem := dst.mem.take dst.pos ++ (src.mem.drop src.pos).take n ++
                                    dst.mem.drop (dst.pos + n),
                           pos := dst.pos + n }, { src with pos := src.pos + n }) := by
  have h1 := hd.1
  have h2 := hd.2
  have h3 := hs.1
  have h4 := hs.2
  simp only [copy]
  by_cases c1 : n = 0 ∨ dst.error ≠ none
  · rw [if_pos c1, if_pos c1]
  · rw [if_neg c1, if_neg c1]
    have de : dst.error = none := by
      rcases hq : dst.error with _ | e
      · rfl
      · exact absurd (.inr (by simp [hq])) c1
    cases se : src.error with
    | some e => simp [canRead, se]
    | none =>
      simp only [canRead, se, available]
      by_cases c2 : src.pos + n > src.size
      · rw [if_pos (by rw [if_pos (by omega)]; simp), if_pos (.inr c2)]
      · rw [if_neg (by rw [if_neg (by omega)]; simp), if_neg (by simp; omega)]
        simp only [canWrite, de, available]
        cases ro : dst.readonly with
        | true => simp
        | false =>
          simp only [Bool.false_eq_true, if_false]
          by_cases c3 : dst.pos + n > dst.size
          · rw [if_pos (by omega), if_pos c3]
          · rw [if_neg (by omega), if_neg c3]
            simp only
            rw [load_ok _ _ _ (by omega)]
            simp only [Res.bind_ok]
            have hl : ((src.mem.drop src.pos).take n).length = n := by simp; omega
            rw [store_ok _ _ _ (by omega), hl]
            rfl

example : Sane (WireCtx.init [1, 2, 3, 4] 3) := by decide
example : ∃ c, putAll (WireCtx.init (List.replicate 12 7) 11) [.u16 513, .u48 1099511627776, .raw [9]] = .ok c ∧
    c.mem = [2, 1, 1, 0, 0, 0, 0, 0, 9, 7, 7, 7] := ⟨_, by rfl, by decide⟩

end Knot
