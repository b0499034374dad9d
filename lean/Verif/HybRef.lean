import Mathlib.Analysis.SpecialFunctions.Pow.Real
import Mathlib.Algebra.Order.Round

namespace Verif.HybRef

/-! Hybrid vertical coordinates (src/fstd98/hybref.f90): conversions to pressure over the real numbers, the coding of the reference
values over the rational numbers with a rounding. -/

/-- `hyb_to_pres` at one level and one point (hybref.f90:694-720); `none` for another kind. -/
noncomputable def hybToPres (kind : Int) (hyb ptop rcoef pref ps : ℝ) : Option ℝ :=
  if kind = 1 ∨ kind = 5 then
    let hybm := if kind = 1 then hyb + (1 - hyb) * ptop / pref else hyb
    let pr1 := 1 / (1 - ptop / pref)
    let pibb := (max (hybm - ptop / pref) 0 * pr1) ^ rcoef
    let pia := pref * (hybm - pibb)
    some (pia + pibb * ps)
  else none

/-- `eta_to_pres` (hybref.f90:757-769). -/
noncomputable def etaToPres (hybm ptop ps : ℝ) : ℝ :=
  let pibb := hybm
  let pia := ptop * (1 - hybm)
  pia + pibb * ps

/-- `etasef_to_pres` (hybref.f90:809-822). -/
noncomputable def etasefToPres (hybm ptop etatop ps : ℝ) : ℝ :=
  let eta1 := 1 / (1 - etatop)
  let pibb := (hybm - etatop) * eta1
  let pia := ptop * (1 - pibb)
  pia + pibb * ps

/-- `sigma_to_pres` (hybref.f90:859-866). -/
noncomputable def sigmaToPres (hybm ps : ℝ) : ℝ := hybm * ps

/-- `hybrid_to_pres` at one level and one point (hybref.f90:233-283), where `ps1` is the first surface pressure and `hyb1` the first
level; `none` for the values which are refused. -/
noncomputable def hybridToPres (hyb hyb1 ptop rcoef pref ps ps1 : ℝ) : Option ℝ :=
  if rcoef < 1 ∨ rcoef > 2 then none
  else if pref < 400 ∨ pref > 1050 then none
  else if ptop < 0 ∨ ptop > 1200 then none
  else
    let rcoef := if |rcoef - 1| < 1 / 10 ^ 5 then 1 else rcoef
    let fact : ℝ := if ps1 < 40000 then 1 / 100 else 1
    let conv : ℝ := if ps1 < 40000 then 100 else 1
    if hyb1 < 0 ∨ hyb1 > 1 ∨ hyb < 0 ∨ hyb > 1 then none
    else
      let hybm := hyb + (1 - hyb) * ptop / pref
      let hybm1 := hyb1 + (1 - hyb1) * ptop / pref
      let prpref := 100 * ptop / hybm1
      let pr1 := 1 / (1 - hybm1)
      let pibb := ((hybm - hybm1) * pr1) ^ rcoef
      let pia := prpref * (hybm - pibb)
      let pibb := pibb * conv
      some ((pia + pibb * ps) * fact)

/-- `hybref_to_ig` (hybref.f90:317-331); `rd` rounds the product, the assignments to integers truncate positive values. -/
def hybrefToIg (rd : ℚ → ℚ) (rcoef pref : ℚ) : Option (Int × Int × Int × Int) :=
  if pref < 400 ∨ pref > 1050 then none
  else if rcoef < 1 ∨ rcoef > 2 then none
  else some (⌊pref⌋, ⌊rd (rcoef * 1000)⌋, 0, 0)

/-- `ig_to_hybref` (hybref.f90:366-386): `rcoef` and `pref`. -/
def igToHybref (rd : ℚ → ℚ) (ig : Int × Int × Int × Int) : Option (ℚ × ℚ) :=
  let pref : ℚ := ig.1
  let rcoef : ℚ := rd (ig.2.1 / 1000)
  if pref < 400 ∨ pref > 1050 then none
  else if rcoef < 1 ∨ rcoef > 2 then none
  else if ig.2.2.1 ≠ 0 then none
  else if ig.2.2.2 ≠ 0 then none
  else some (rcoef, pref)

/-- Rounding to 24 bits, for values from 1 on. -/
def near24 (q : ℚ) : ℚ :=
  let u : ℚ := 2 ^ (Nat.log 2 ⌊q⌋.toNat) / 2 ^ 23
  round (q / u) * u

/-- Dimensions of a record or of a field of the caller. -/
abbrev Dims := Nat × Nat × Nat

/-- The records `hyb2pres` looks for; all of them can be read. -/
structure File where
  hy : Option (Dims × ℝ × ℝ × ℝ)
  pt : Option (Dims × ℝ)
  e1 : Option (Dims × ℝ)
  p0 : Option (Dims × (Nat → ℝ))
  xx : Option Dims

/-- The output array, by position; `none` where nothing was written. -/
abbrev Out := Nat → Option ℝ

/-- The loops over levels and points of the conversions, for the dimensions they are given. -/
def fill (d : Dims) (hyb ps : Nat → ℝ) (f : ℝ → ℝ → Option ℝ) : Out := fun m =>
  if m < d.1 * d.2.1 * d.2.2 then f (hyb (m / (d.1 * d.2.1))) (ps (m % (d.1 * d.2.1))) else none

/-- `if (logPX_L) PX(:,:,:)=log(100.0*PX(:,:,:))`. -/
noncomputable def logOf (b : Bool) (o : Out) : Out := if b then fun m => (o m).map fun p => Real.log (100 * p) else o

/-- The dimensions after `fstinf` or `fstluk`: those of the record which was found (fstd98.c:1633-1870, 2165-2167). -/
def found {α : Type} (d : Dims) (r : Option (Dims × α)) : Dims :=
  match r with
  | some (d', _) => d'
  | none => d

/-- `hyb2pres` from line 80 on, when all keys are valid (hybref.f90:80-182). -/
noncomputable def hyb2pres (f : File) (d : Dims) (kind : Int) (hyb : Nat → ℝ) (log : Bool) : Int × Out :=
  let none' : Out := fun _ => none
  if kind ≠ 1 ∧ kind ≠ 2 ∧ kind ≠ 5 then (-1, none')
  else
    let d := found (found (found d f.hy) f.pt) f.e1
    if kind = 1 then
      match f.p0 with
      | none => (-1, none')
      | some (d0, p0) =>
        match f.pt with
        | some (dt, ptop) =>
          match f.e1 with
          | some (de, etatop) => (0, logOf log (fill de hyb p0 fun h ps => some (etasefToPres h ptop etatop ps)))
          | none => (0, logOf log (fill dt hyb p0 fun h ps => some (etaToPres h ptop ps)))
        | none =>
          match f.hy with
          | some (_, ptop, pref, rcoef) => (0, logOf log (fill d0 hyb p0 fun h ps => hybToPres kind h ptop rcoef pref ps))
          | none => (0, logOf log (fill d0 hyb p0 fun h ps => some (sigmaToPres h ps)))
    else if kind = 2 then (0, fill d hyb (fun _ => 0) fun h _ => some (h * 100))
    else
      match f.xx with
      | some _ => (0, none')
      | none =>
        match f.hy with
        | some (_, ptop, pref, rcoef) =>
          match f.p0 with
          | none => (-1, none')
          | some (d0, p0) => (0, fill d0 hyb p0 fun h ps => hybToPres kind h ptop rcoef pref ps)
        | none => (-1, none')

end Verif.HybRef
