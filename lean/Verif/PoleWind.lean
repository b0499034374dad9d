import Mathlib.Analysis.SpecialFunctions.Complex.Arg

namespace Verif.PoleWind

/-! The wind at a pole (src/base/npspin.F and its call in src/base/vglo.F) over the real numbers; the constants of pi.cdk are taken
as exact.  Fields are functions of the two indices from 1 on. -/

/-- A sum accumulated by a loop from 1 to `n` (npspin.F:79-82, 89, 98-103). -/
noncomputable def acc (f : Nat → ℝ) : Nat → ℝ
  | 0 => 0
  | n + 1 => acc f n + f (n + 1)

/-- `CLAMBI` (npspin.F:93). -/
noncomputable def lam (dellam : ℝ) (i : Nat) : ℝ := ((i : ℝ) - 1) * dellam * (Real.pi / 180)

/-- `UI` of a row (npspin.F:94-96, 100), `S` is the negative sine. -/
noncomputable def ui (dellam : ℝ) (u v : Nat → ℝ) (i : Nat) : ℝ := -Real.sin (lam dellam i) * u i - Real.cos (lam dellam i) * v i

/-- `VI` of a row (npspin.F:97, 101). -/
noncomputable def vi (dellam : ℝ) (u v : Nat → ℝ) (i : Nat) : ℝ := Real.cos (lam dellam i) * u i + -Real.sin (lam dellam i) * v i

/-- `POLIN` (npspin.F:68). -/
noncomputable def polin (a b : ℝ) (n : Nat) : ℝ := (a * 1.125 - b * 0.125) / n

/-- The rows used (npspin.F:73-76); `GLOBAL` is 0 (kases.cdk:2). -/
noncomputable def rows (lj : Nat) (kase : Int) (phi : ℝ) : Nat × Nat := if phi > 90 ∧ kase = 0 then (lj, lj - 1) else (1, 2)

/-- `NPSPIN` (npspin.F:25-115): speed and direction. -/
noncomputable def npspin (u v : Nat → Nat → ℝ) (li lj : Nat) (kase : Int) (phi arbpsi dellam : ℝ) : ℝ × ℝ :=
  let j1 := (rows lj kase phi).1
  let j2 := (rows lj kase phi).2
  let r (f : ℝ → (Nat → ℝ) → (Nat → ℝ) → Nat → ℝ) (j : Nat) := acc (f dellam (fun i => u i j) (fun i => v i j)) li
  let upole := polin (r ui j1) (r ui j2) li
  let vpole := polin (r vi j1) (r vi j2) li
  let speed := √(upole ^ 2 + vpole ^ 2)
  let psi := if speed ≠ 0 then 180 / Real.pi * Complex.arg ⟨upole, vpole⟩ else arbpsi
  (speed, if psi < 0 then psi + 360 else psi)

/-- `VGLO` and `VWNH` near a pole (vglo.F:108-122): `DELLAM` is only set behind the call, at line 132; `junk` is what it held. `none`
is any other place. -/
noncomputable def vgloPole (u v : Nat → Nat → ℝ) (li lj : Nat) (kase : Int) (clamda phi junk : ℝ) : Option (ℝ × ℝ) :=
  if 0 ≤ phi ∧ phi ≤ 180 ∧ -180 ≤ clamda ∧ clamda < 360 ∧ 4 ≤ li ∧ 4 ≤ lj ∧ li * lj < 70000 ∧ ¬ (phi > 1 / 10 ^ 8 ∧ phi < 180 - 1 / 10 ^ 8) then
    some (npspin u v li lj kase phi 99999 junk)
  else none

end Verif.PoleWind
