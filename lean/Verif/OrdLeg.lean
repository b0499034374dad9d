import Mathlib.Analysis.SpecialFunctions.Trigonometric.Inverse

namespace Verif.OrdLeg

/-! Ordinary Legendre polynomials by Belousov's algorithm (src/spectral/ordleg8.F), over the real numbers. -/

/-- `C1` after the loop of ordleg8.F:69-76. -/
noncomputable def norm : Nat → ℝ
  | 0 => √2
  | n + 1 => norm n * √(1 - 1 / ((2 * ((n : ℝ) + 1)) * (2 * ((n : ℝ) + 1))))

/-- The loop of ordleg8.F:86-95: `i` passes are left, `k` is `KK-1`. -/
noncomputable def loop (n : Nat) (fn fn2 theta : ℝ) : Nat → Nat → ℝ → ℝ → ℝ → ℝ → ℝ → ℝ
  | 0, _, _, s1, _, _, _ => s1
  | i + 1, k, ang, s1, c4, a, b =>
    let c4 := if k = n then 0.5 * c4 else c4
    let s1 := s1 + c4 * Real.cos ang
    let a := a + 2
    let b := b + 1
    loop n fn fn2 theta i (k + 2) (theta * (fn - k - 2)) s1 ((a * (fn - b + 1) / (b * (fn2 - a))) * c4) a b

/-- `ORDLEG8` (ordleg8.F:25-100).  `FN` and `FN2` are set by the loop of the constant only; `junk` is what they hold if it has no
pass.  The passes of a loop from 1 to `N+1` by 2 are `N/2+1`. -/
noncomputable def ordleg8 (coa : ℝ) (ir : Nat) (junk : ℝ × ℝ) : ℝ :=
  let theta := Real.arccos coa
  let fn := if ir = 0 then junk.1 else ir
  let fn2 := if ir = 0 then junk.2 else 2 * ir
  loop ir fn fn2 theta (ir / 2 + 1) 0 (fn * theta) 0 1 (-1) 0 * norm ir

end Verif.OrdLeg
