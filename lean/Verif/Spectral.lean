import Mathlib.Algebra.Field.Defs

/-! # Spectral transforms

Model of src/spectral/dimcal.F, src/spectral/alpas2.F, src/spectral/spaf2.F and src/spectral/fasp2.F over any field: rounding
is not modelled.  Real and imaginary parts are treated alike by the code; the model is of one of them.  Arrays are functions of
the index. -/

namespace Verif.Spectral

/-- Row lengths and size of a field. -/
structure Dims where
  lrs : List ℕ
  lra : List ℕ
  la : ℕ
deriving DecidableEq

/-- A row of the rhomboid (dimcal.F:46-50). -/
def rhomb (ir khem : ℕ) : ℕ × ℕ := (if khem ≠ 0 then ir / 2 + 1 else ir + 1, if khem ≠ 0 then (ir + 1) / 2 else ir + 1)

/-- Row `m` of the triangle, from 1 (dimcal.F:65-69). -/
def triang (ir khem m : ℕ) : ℕ × ℕ :=
  (if khem ≠ 0 then (ir + 1 - m) / 2 + 1 else ir + 2 - m, if khem ≠ 0 then (ir + 2 - m) / 2 else ir + 2 - m)

/-- `DIMCAL` (dimcal.F:20-76): `none` is the `STOP`. -/
def dimcal (lm ir khem : ℕ) (ntrunc : Int) : Option Dims :=
  let rows (f : ℕ → ℕ × ℕ) : Dims :=
    let l := (List.range lm).map fun i => f (i + 1)
    { lrs := l.map (·.1), lra := l.map (·.2), la := l.foldl (fun la r => la + r.1) 0 }
  if ntrunc = 1 then some (rows fun _ => rhomb ir khem)
  else if ntrunc = 2 then if lm ≤ ir + 1 then some (rows (triang ir khem)) else none
  else some (rows fun _ => rhomb ir khem)

/-- `a(i) = v`. -/
def put {α : Type} (a : ℕ → α) (i : ℕ) (v : α) : ℕ → α := fun j => if j = i then v else a j

/-- The loop 80 of alpas2.F:53-60 for `N` from `n` on, `k` passes. -/
def asRow {α : Type} (w : ℕ → α) (mhs mha mf : ℕ) : ℕ → ℕ → (ℕ → α) → (ℕ → α)
  | _, 0, a => a
  | n, k + 1, a => asRow w mhs mha mf (n + 1) k (put (put a (mhs + n) (w (mf + 2 * n - 1))) (mha + n) (w (mf + 2 * n - 1 + 1)))

/-- The loop 70 of alpas2.F:49-65, on pairs of row lengths. -/
def asRows {α : Type} (w : ℕ → α) : List (ℕ × ℕ) → ℕ → ℕ → ℕ → (ℕ → α) → (ℕ → α)
  | [], _, _, _, a => a
  | (lhs, lha) :: l, mhs, mha, mf, a => asRows w l (mhs + lhs) (mha + lha) (mf + 2 * lhs) (asRow w mhs mha mf 1 lhs a)

/-- `ALPAS2` (alpas2.F:20-68): the work array is `ALP` up to 2 LA, `wrk` beyond. -/
def alpas {α : Type} (alp wrk : ℕ → α) (la : ℕ) (l : List (ℕ × ℕ)) : ℕ → α :=
  asRows (fun i => if 1 ≤ i ∧ i ≤ 2 * la then alp i else wrk i) l 0 la 0 alp

variable {K : Type} [Field K]

/-- The loop 20 of spaf2.F:86-89: `k` products from index `i` on. -/
def dot (alp sc : ℕ → K) : ℕ → ℕ → K → K
  | _, 0, f => f
  | i, k + 1, f => dot alp sc (i + 1) k (f + alp i * sc i)

/-- The loop 30 of spaf2.F:80-92. -/
def spafRows (alp sc : ℕ → K) : ℕ → ℕ → List ℕ → (ℕ → K) → (ℕ → K)
  | _, _, [], c => c
  | m, mr, lr :: l, c => spafRows alp sc (m + 1) (mr + lr) l (put c m (dot alp sc (mr + 1) lr 0))

/-- The rows treated (spaf2.F:77-78, fasp2.F:77-78). -/
def rows (lr : List ℕ) : List ℕ := if lr.getLast? = some 0 then lr.dropLast else lr

/-- `SPAF2` (spaf2.F:20-95); `LM` is the length of `lr`. -/
def spaf (cfc sc : ℕ → K) (lr : List ℕ) (alp : ℕ → K) : ℕ → K := spafRows alp sc 1 0 (rows lr) (put cfc lr.length 0)

/-- The loop 20 of fasp2.F:86-89. -/
def addRow (alp : ℕ → K) (c : K) : ℕ → ℕ → (ℕ → K) → (ℕ → K)
  | _, 0, s => s
  | i, k + 1, s => addRow alp c (i + 1) k (put s i (s i + c * alp i))

/-- The loop 30 of fasp2.F:80-91. -/
def faspRows (cfc alp : ℕ → K) (weight : K) : ℕ → ℕ → List ℕ → (ℕ → K) → (ℕ → K)
  | _, _, [], s => s
  | m, mr, lr :: l, s => faspRows cfc alp weight (m + 1) (mr + lr) l (addRow alp (cfc m * weight) (mr + 1) lr s)

/-- `FASP2` (fasp2.F:20-94). -/
def fasp (sc : ℕ → K) (lr : List ℕ) (cfc alp : ℕ → K) (weight : K) : ℕ → K := faspRows cfc alp weight 1 0 (rows lr) sc

end Verif.Spectral
