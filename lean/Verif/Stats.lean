import Mathlib.Analysis.Real.Sqrt

/-! # Scores (`src/base/mwerms.f`, `src/base/corcof.f`, `src/base/s1scor.f`)

Reals without rounding.  `none`: the routine reads outside of an array, or takes the root of a negative number. -/

namespace Verif.Stats

/-- The values that mean that there is no score. -/
def missing : ℝ := 99999

/-- `do k = a, b, c`. -/
def loop (a b : Int) (c : Nat) : List Int := (List.range ((b + c - a) / c).toNat).map fun (n : Nat) => a + (n : Int) * c

/-- The two loops over the window (mwerms.f:88-89, corcof.f:91-92, s1scor.f:87-88). -/
def window (i1 j1 i2 j2 : Int) (c : Nat) : List (Int × Int) :=
  (loop j1 j2 c).flatMap fun j => (loop i1 i2 c).map fun i => (i, j)

/-- The checks of the window (mwerms.f:80-82, corcof.f:85-87, s1scor.f:78-80). -/
def bad (ni nj iw1 iw2 nw1 nw2 : Int) : Bool :=
  ni < 1 || ni < iw1 || ni < nw1 || nj < 1 || nj < iw2 || nj < nw2 || nw1 < iw1 || nw2 < iw2

/-- `MWERMS` (mwerms.f:23-107): bias and standard deviation. -/
noncomputable def mwerms (f v w : Int → Int → ℝ) (ni nj iw1 iw2 nw1 nw2 : Int) : Option (ℝ × ℝ) :=
  if bad ni nj iw1 iw2 nw1 nw2 then some (missing, missing)
  else if iw1 < 1 ∨ iw2 < 1 then none
  else
    let s := (window iw1 iw2 nw1 nw2 1).foldl (fun (s : ℝ × ℝ × ℝ) p =>
      let wij := w p.1 p.2
      let fmv := f p.1 p.2 - v p.1 p.2
      (s.1 + fmv * wij, s.2.1 + fmv * fmv * wij, s.2.2 + wij)) (0, 0, 0)
    let (x, y, ftw) := s
    if ftw = 0 then some (missing, missing)
    else
      let bias := x / ftw
      some (bias, √(max 0 (y / ftw - bias * bias)))

/-- `CORCOF` (corcof.f:22-122). -/
noncomputable def corcof (fi ff fv w : Int → Int → ℝ) (ni nj iw1 iw2 nw1 nw2 : Int) : Option ℝ :=
  if bad ni nj iw1 iw2 nw1 nw2 then some missing
  else if iw1 < 1 ∨ iw2 < 1 then none
  else
    let s := (window iw1 iw2 nw1 nw2 1).foldl (fun (s : ℝ × ℝ × ℝ × ℝ × ℝ × ℝ) p =>
      let ffi := fi p.1 p.2
      let da := fv p.1 p.2 - ffi
      let df := ff p.1 p.2 - ffi
      let dw := w p.1 p.2
      let x := dw * da
      let y := dw * df
      (s.1 + dw, s.2.1 + x * df, s.2.2.1 + y * df, s.2.2.2.1 + x * da, s.2.2.2.2.1 + y, s.2.2.2.2.2 + x)) (0, 0, 0, 0, 0, 0)
    let (ftw, r1, r2, r3, r4, r5) := s
    if ftw = 0 then some missing
    else
      let a := r1 / ftw - r4 / ftw * (r5 / ftw)
      let b := r2 / ftw - r4 / ftw * (r4 / ftw)
      let c := r3 / ftw - r5 / ftw * (r5 / ftw)
      if b = 0 ∨ c = 0 then some missing
      else if b * c < 0 then none
      else some (a / √(b * c))

/-- `S1SCOR` (s1scor.f:22-106). -/
noncomputable def s1scor (f v : Int → Int → ℝ) (ni nj iw1 iw2 nw1 nw2 igl : Int) : Option ℝ :=
  if igl ≠ 1 ∧ igl ≠ 2 then some missing
  else if nw1 - iw1 < igl ∨ nw2 - iw2 < igl then some missing
  else if bad ni nj iw1 iw2 nw1 nw2 then some missing
  else if iw1 < 1 ∨ iw2 < 1 then none
  else
    let s := (window iw1 iw2 (nw1 - igl) (nw2 - igl) igl.toNat).foldl (fun (s : ℝ × ℝ) p =>
      let vij := v p.1 p.2
      let fij := f p.1 p.2
      let fi1j := f (p.1 + 1) p.2
      let vi1j := v (p.1 + 1) p.2
      let fij1 := f p.1 (p.2 + 1)
      let vij1 := v p.1 (p.2 + 1)
      (s.1 + |fij - fi1j - vij + vi1j| + |fij - fij1 - vij + vij1|,
        s.2 + max |fij - fi1j| |vij - vi1j| + max |fij - fij1| |vij - vij1|)) (0, 0)
    if s.2 ≠ 0 then some (s.1 / s.2 * 100) else some missing

end Verif.Stats
