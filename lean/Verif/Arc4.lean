/-! # Model of `src/primitives/arc4.c`

The table `m` of 256 bytes is a function on bytes; all indices of the code are reduced modulo 256, so
no access is out of bounds except possibly into the key. -/

namespace Verif.Arc4

abbrev Byte := BitVec 8

/-- `arc4_context` (arc4.h). -/
structure Ctx where
  x : Byte
  y : Byte
  m : Byte → Byte

/-- `m[i] = v` -/
def set (m : Byte → Byte) (i v : Byte) : Byte → Byte := fun k => if k = i then v else m k

/-- One pass through the loop of `arc4_crypt` (arc4.c:87-97): new context and the byte that is
combined with `buf[i]`. -/
def next (c : Ctx) : Ctx × Byte :=
  let x := c.x + 1
  let a := c.m x
  let y := c.y + a
  let b := c.m y
  let m := set (set c.m x b) y a
  ({ x := x, y := y, m := m }, m (a + b))

/-- `arc4_crypt` (arc4.c:78-101). -/
def crypt : Ctx → List Byte → Ctx × List Byte
  | c, [] => (c, [])
  | c, b :: bs =>
    let (c', k) := next c
    let (c'', r) := crypt c' bs
    (c'', (b ^^^ k) :: r)

/-- The loop of `arc4_setup` (arc4.c:61-69) from `i` for `n` more passes; `k` is reset to 0 when it
reaches `keylen`.  `none`: the key is read out of bounds. -/
def schedule (key : List Byte) (keylen : Nat) : Nat → Byte → Byte → Nat → (Byte → Byte) → Option (Byte → Byte)
  | 0, _, _, _, m => some m
  | n+1, i, j, k, m =>
    let k := if k ≥ keylen then 0 else k
    match key[k]? with
    | none => none
    | some kb =>
      let a := m i
      let j := j + a + kb
      schedule key keylen n (i + 1) j (k + 1) (set (set m i (m j)) j a)

/-- `arc4_setup` (arc4.c:46-73).  `scrap` is the uninitialised buffer encrypted at the end. -/
def setup (scrap : List Byte) (key : List Byte) (keylen : Nat) : Option Ctx :=
  (schedule key keylen 256 0 0 0 id).map fun m => (crypt { x := 0, y := 0, m := m } scrap).1

/-! ## Lemmas -/

/-- The bytes combined with the data. -/
def stream : Ctx → Nat → List Byte
  | _, 0 => []
  | c, n+1 => (next c).2 :: stream (next c).1 n

theorem crypt_eq (c : Ctx) (l : List Byte) :
    (crypt c l).2 = List.zipWith (· ^^^ ·) l (stream c l.length) := by
  induction l generalizing c with
  | nil => rfl
  | cons b l ih => simp [crypt, stream, ih]

theorem crypt_ctx (c : Ctx) (l l' : List Byte) (h : l.length = l'.length) : (crypt c l).1 = (crypt c l').1 := by
  induction l generalizing c l' with
  | nil => cases l' with
    | nil => rfl
    | cons _ _ => simp at h
  | cons b l ih => cases l' with
    | nil => simp at h
    | cons b' l' => simp only [crypt]; exact ih _ _ (by simpa using h)

theorem stream_length (c : Ctx) (n : Nat) : (stream c n).length = n := by
  induction n generalizing c with
  | zero => rfl
  | succ n ih => simp [stream, ih]

theorem zip_xor_twice (l s : List Byte) (h : l.length = s.length) :
    List.zipWith (· ^^^ ·) (List.zipWith (· ^^^ ·) l s) s = l := by
  induction l generalizing s with
  | nil => rfl
  | cons a l ih => cases s with
    | nil => simp at h
    | cons b s =>
      simp only [List.zipWith_cons_cons, List.length_cons] at h ⊢
      rw [ih s (by omega), BitVec.xor_assoc, BitVec.xor_self, BitVec.xor_zero]

theorem schedule_defined (key : List Byte) (keylen : Nat) (h0 : key ≠ []) (hk : keylen ≤ key.length) :
    ∀ n i j k m, (schedule key keylen n i j k m).isSome := by
  intro n
  induction n with
  | zero => intros; rfl
  | succ n ih =>
    intro i j k m
    simp only [schedule]
    have hpos : 0 < key.length := List.length_pos_iff.2 h0
    have : (if k ≥ keylen then 0 else k) < key.length := by split <;> omega
    rw [List.getElem?_eq_getElem this]
    exact ih ..

theorem swap_inj {m : Byte → Byte} (h : Function.Injective m) (i j : Byte) :
    Function.Injective (set (set m i (m j)) j (m i)) := by
  intro p q e
  simp only [set] at e
  grind [Function.Injective]

theorem schedule_inj (key : List Byte) (keylen : Nat) : ∀ n i j k m m', Function.Injective m →
    schedule key keylen n i j k m = some m' → Function.Injective m' := by
  intro n
  induction n with
  | zero => intro i j k m m' h e; simp [schedule] at e; rwa [← e]
  | succ n ih =>
    intro i j k m m' h e
    simp only [schedule] at e
    split at e
    · cases e
    · exact ih _ _ _ _ _ (swap_inj h _ _) e

theorem next_inj {c : Ctx} (h : Function.Injective c.m) : Function.Injective (next c).1.m := swap_inj h _ _

theorem crypt_inj {c : Ctx} (h : Function.Injective c.m) (l : List Byte) : Function.Injective (crypt c l).1.m := by
  induction l generalizing c with
  | nil => exact h
  | cons b l ih => simp only [crypt]; exact ih (next_inj h)

end Verif.Arc4
