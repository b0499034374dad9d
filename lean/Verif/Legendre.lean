import Mathlib.Algebra.Field.Defs

/-! # Associated Legendre functions and their derivatives

Model of src/spectral/epsil2.F, src/spectral/alpnm2.F and src/spectral/alpdr2.F over any field, with the square root as a
parameter: rounding is not modelled.  Arrays are functions of the index; `lrs` is the list of the row lengths `LALP(M)*MULT`.
The number of the row is `ms = M-1`. -/

namespace Verif.Legendre

variable {K : Type} [Field K]

/-- `a(i) = v`. -/
def put (a : ℕ → K) (i : ℕ) (v : K) : ℕ → K := fun j => if j = i then v else a j

/-- The loop 30 of epsil2.F:39-44 for `N` from `n` on, `k` passes. -/
def epsRow (sqrt : K → K) (ms mr : ℕ) : ℕ → ℕ → (ℕ → K) → (ℕ → K)
  | _, 0, e => e
  | n, k + 1, e =>
    let ns : K := (ms + n - 1 : ℕ)
    epsRow sqrt ms mr (n + 1) k (put e (mr + n) (sqrt ((ns ^ 2 - (ms : K) ^ 2) / (4 * ns ^ 2 - 1))))

/-- The loop 20 of epsil2.F:34-46. -/
def epsRows (sqrt : K → K) : ℕ → ℕ → List ℕ → (ℕ → K) → (ℕ → K)
  | _, _, [], e => e
  | ms, mr, lr :: lrs, e =>
    let n1 := if ms = 0 then 2 else 1
    epsRows sqrt (ms + 1) (mr + lr) lrs (epsRow sqrt ms mr n1 (lr + 1 - n1) e)

/-- `EPSIL2` (epsil2.F:20-50). -/
def epsil (sqrt : K → K) (lrs : List ℕ) (e : ℕ → K) : ℕ → K := put (epsRows sqrt 0 0 lrs e) 1 0

/-- The loop 20 of alpnm2.F:55-59 for `N` from `n` on, `k` passes; `p` is `ALPILM`. -/
def alpRow (x : K) (eps : ℕ → K) (mr : ℕ) : ℕ → ℕ → K → (ℕ → K) → (ℕ → K)
  | _, 0, _, a => a
  | n, k + 1, p, a =>
    let a' := put a (mr + n) ((x * a (mr + n - 1) - eps (mr + n - 1) * p) / eps (mr + n))
    alpRow x eps mr (n + 1) k (a' (mr + n - 1)) a'

/-- The loop 30 of alpnm2.F:43-66; `aa` and `bb` are `A` and `B`.  A row of length 1 is left without any change of these, of
`PROD` and of `MR`. -/
def alpRows (sqrt : K → K) (x : K) (eps : ℕ → K) : List ℕ → ℕ → K → K → K → (ℕ → K) → (ℕ → K)
  | [], _, _, _, _, a => a
  | lr :: lrs, mr, aa, bb, prod, a =>
    let a := put a (mr + 1) (sqrt (prod / 2))
    if lr = 1 then alpRows sqrt x eps lrs mr aa bb prod a
    else alpRows sqrt x eps lrs (mr + lr) (aa + 2) (bb + 2) (prod * (1 - x ^ 2) * (aa + 2) / (bb + 2))
      (alpRow x eps mr 2 (lr - 1) 0 a)

/-- `ALPNM2` (alpnm2.F:20-69). -/
def alpnm (sqrt : K → K) (x : K) (eps : ℕ → K) (lrs : List ℕ) (a : ℕ → K) : ℕ → K := alpRows sqrt x eps lrs 0 1 0 1 a

/-- The loop 20 of alpdr2.F:39-44 for `N` from `n` on, `k` passes, in row `ms`. -/
def drRow (x : K) (eps alp : ℕ → K) (ms mr : ℕ) : ℕ → ℕ → K → (ℕ → K) → (ℕ → K)
  | _, 0, _, d => d
  | n, k + 1, p, d =>
    let fns : K := (ms + n - 1 : ℕ)
    drRow x eps alp ms mr (n + 1) k (alp (mr + n)) (put d (mr + n) ((fns + fns + 1) * eps (mr + n) * p - fns * x * alp (mr + n)))

/-- The loop 30 of alpdr2.F:35-47. -/
def drRows (x : K) (eps alp : ℕ → K) : ℕ → ℕ → List ℕ → (ℕ → K) → (ℕ → K)
  | _, _, [], d => d
  | ms, mr, lr :: lrs, d => drRows x eps alp (ms + 1) (mr + lr) lrs (drRow x eps alp ms mr 1 lr 0 d)

/-- `ALPDR2` (alpdr2.F:20-50). -/
def alpdr (x : K) (eps alp : ℕ → K) (lrs : List ℕ) (d : ℕ → K) : ℕ → K := drRows x eps alp 0 0 lrs d

end Verif.Legendre
