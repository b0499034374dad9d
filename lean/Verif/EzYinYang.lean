import Verif.EzZones
import Verif.EzOpt

/-! # Yin-yang pairs of grids (`src/interp`)

`c_ezgdef_yymask`, `c_gdxyfll`, `c_gdllfxy`, `c_gdxysval` and `c_gdllsval` on pairs, `c_ezyymint`,
`c_ezyy_calcxy`, `c_ezyysint` and the choice made by `c_ezsint`.  Arithmetic is exact.  What a single grid
does (positions, coordinates, values) is a parameter.  Not modelled: winds (`ezyyuvint.c`,
`ezyywdint.c`), messages, and the table of pairs of grids (see `EzSets`). -/

namespace Verif.EzYinYang
open Verif.EzOpt Verif.EzZones

/-- The number of axis entries found within limits, and the first and last of their 0-based indices. -/
structure Band where
  n : ℕ := 0
  i0 : ℕ := 0
  i1 : ℕ := 0
deriving DecidableEq

/-- The loops of ezgdef_yymask.c:28-37 and 39-48. -/
def band (lo hi : ℚ) : List ℚ → ℕ → Band → Band
  | [], _, b => b
  | a :: l, i, b =>
    band lo hi l (i + 1)
      (if lo ≤ a ∧ a ≤ hi then ⟨b.n + 1, if b.n + 1 = 1 then i else b.i0, i⟩ else b)

/-- The axis of the mask grid (ezgdef_yymask.c:50-52): `n` entries from `i0` on. -/
def bandAxis (lo hi : ℚ) (ax : List ℚ) : List ℚ :=
  let b := band lo hi ax 0 {}
  (ax.drop b.i0).take b.n

/-- A grid of a pair: its size, the limits of its mask (0-based, ezgdef_yymask.c:54-57), and the
functions `c_gdxyfll_orig` and `c_gdllfxy_orig` for it. -/
structure Sub where
  ni : ℕ
  nj : ℕ
  i0 : ℕ
  i1 : ℕ
  j0 : ℕ
  j1 : ℕ
  xy : ℚ × ℚ → ℚ × ℚ
  ll : ℚ × ℚ → ℚ × ℚ

/-- The test of gdxyfll.c:192-195 and 199-202. -/
def Sub.core (s : Sub) (p : ℚ × ℚ) : Bool :=
  (s.i0 : ℚ) ≤ p.1 ∧ p.1 ≤ s.i1 ∧ (s.j0 : ℚ) ≤ p.2 ∧ p.2 ≤ s.j1

/-- The test of gdxyfll.c:184, with the size of yin. -/
def Sub.bad (s : Sub) (p : ℚ × ℚ) : Bool :=
  (s.ni : ℚ) < p.1 ∨ p.1 < 1 ∨ (s.nj : ℚ) < p.2 ∨ p.2 < 1

/-- `c_gdxyfll` on a pair (gdxyfll.c:168-207), one point. -/
def gdxyfll (yin yan : Sub) (p : ℚ × ℚ) : ℚ × ℚ :=
  let a := yin.xy p
  let b := yan.xy p
  let r := if yin.bad a then (b.1, b.2 + yin.nj) else a
  let r := if yan.core b then (b.1, b.2 + yin.nj) else r
  if yin.core a then a else r

/-- The row in the grid of the pair it belongs to (gdllfxy.c:49-55, gdxysval.c:70-80). -/
def row (yin : Sub) (y : ℚ) : ℚ := if (yin.nj : ℚ) < y then y - yin.nj else y

/-- `c_gdllfxy` on a pair (gdllfxy.c:40-78), one point. -/
def gdllfxy (yin yan : Sub) (q : ℚ × ℚ) : ℚ × ℚ :=
  let latyin := yin.ll (q.1, row yin q.2)
  let latyan := yan.ll (q.1, row yin q.2)
  if (yin.nj : ℚ) < q.2 then latyan else latyin

/-- `c_gdxysval` on a pair (gdxysval.c:60-97), one point; `vyin` and `vyan` are what
`c_gdxysval_orig` gives for the two halves of the field. -/
def gdxysval (yin : Sub) (vyin vyan : ℚ × ℚ → Option ℚ) (q : ℚ × ℚ) : Option ℚ :=
  let a := vyin (q.1, row yin q.2)
  let b := vyan (q.1, row yin q.2)
  if (yin.nj : ℚ) < q.2 then b else a

/-- `c_gdllsval` on a pair (gdllsval.c:35-55), one point. -/
def gdllsval (yin yan : Sub) (vyin vyan : ℚ × ℚ → Option ℚ) (p : ℚ × ℚ) : Option ℚ :=
  gdxysval yin vyin vyan (gdxyfll yin yan p)

/-- The options `c_ezyymint` sets for the interpolation of the mask (first) and leaves behind (second)
(ezyymint.c:44-71).  `junk` and `g` are what uninitialised variables hold. -/
def yymintOpts {F : Type} (ofInt : Int → F) (one : F) (junk : String) (g : F) (o : Opts) (v : Vals F) :
    Option ((Opts × Vals F) × (Opts × Vals F)) := do
  let gi ← getopt o "interp_degree" junk
  let ge ← getopt o "extrap_degree" junk
  let gv ← if ge = "value" then getval ofInt v "extrap_value" g else some g
  let r ← setopt o "interp_degree" "nearest"
  let w ← setfval v "extrap_value" one
  let r ← setopt r.2 "extrap_degree" "value"
  let during := (r.2, w)
  let r ← setopt r.2 "interp_degree" gi
  let w ← if ge = "value" then setfval w "extrap_value" gv else some w
  let r ← setopt r.2 "extrap_degree" ge
  return (during, (r.2, w))

/-- The mask on a list of points (ezyymint.c:42-43, 63-64 and ezsint.c:115-124): interpolation of zeros
by nearest neighbour from the mask grid, with the value 1 for points outside of it. -/
def maskout (m : Src) (polar : Bool) (n : ℕ) (x y : ℕ → ℚ) : ℕ → Option ℚ :=
  let z := fun k => gdinterp m 0 (fun _ _ => 0) (x k) (y k)
  if polar then (corrval m { interp := 0, extrap := 6, valeur := 1 } (fun _ _ => 0) n x y z).2 else z

/-- The two lists of points (ezyymint.c:75-97): for yin, for yang. -/
def deal {α : Type} : List (Bool × α) → List α × List α
  | [] => ([], [])
  | (m, p) :: l =>
    let r := deal l
    if m then (r.1, p :: r.2) else (p :: r.1, r.2)

/-- The loops of ezyysint.c:160-173 and 206-234: values taken in turn from the two lists. -/
def merge {β : Type} : List Bool → List β → List β → Option (List β)
  | [], _, _ => some []
  | true :: ms, yin, b :: yan => (merge ms yin yan).map (b :: ·)
  | false :: ms, a :: yin, yan => (merge ms yin yan).map (a :: ·)
  | _ :: _, _, _ => none

/-- A number of a grid with its subgrids. -/
structure Grid where
  id : ℕ
  subs : Option (ℕ × ℕ) := none

/-- What single grids do: number of points, points, mask of a source grid at the points of a target
grid, values at points, and interpolation between two different single grids. -/
structure Env where
  size : ℕ → ℕ
  points : ℕ → List (ℚ × ℚ)
  mask : ℕ → ℕ → List Bool
  val : ℕ → List ℚ → ℚ × ℚ → Option ℚ
  sint : ℕ → ℕ → List ℚ → List (Option ℚ)

/-- `c_ezsint_orig` (ezsint.c:75-135): equal grids are copied. -/
def sintOrig (e : Env) (gout gin : ℕ) (z : List ℚ) : List (Option ℚ) :=
  if gin = gout then (z.take (e.size gin)).map some else e.sint gout gin z

/-- Interpolation from both grids of a pair to one grid (ezyy_calcxy.c:89-117, ezyysint.c:145-177). -/
def both (e : Env) (yin yan gout : ℕ) (z : List ℚ) : Option (List (Option ℚ)) :=
  let d := deal ((e.mask yin gout).zip (e.points gout))
  merge (e.mask yin gout) (d.1.map (e.val yin z)) (d.2.map (e.val yan (z.drop (e.size yin))))

/-- `c_ezyysint` (ezyysint.c:26-242); `none` where it answers -1 and sets nothing. -/
def ezyysint (e : Env) (use1 : Bool) (sub : ℤ) (gout gin : Grid) (z : List ℚ) :
    Option (List (Option ℚ)) :=
  match gin.subs, gout.subs with
  | none, some (yo, ya) => some (sintOrig e yo gin.id z ++ sintOrig e ya gin.id z)
  | none, none => none
  | some (yi, ya), out =>
    if yi = gout.id then some (sintOrig e gout.id yi z)
    else if ya = gout.id then some (sintOrig e gout.id ya (z.drop (e.size yi)))
    else if use1 then
      if out.isSome then none
      else if sub ≠ yi ∧ sub ≠ ya then none
      else if sub = yi then some (sintOrig e gout.id yi z)
      else some (sintOrig e gout.id ya (z.drop (e.size yi)))
    else
      match out with
      | none => both e yi ya gout.id z
      | some (oi, oa) => do
        let a ← both e yi ya oi z
        let b ← both e yi ya oa z
        return a ++ b

/-- `c_ezsint` (ezsint.c:38-73). -/
def ezsint (e : Env) (use1 : Bool) (sub : ℤ) (gout gin : Grid) (z : List ℚ) :
    Option (List (Option ℚ)) :=
  if gin.id = gout.id then some ((z.take (e.size gin.id)).map some)
  else if gin.subs.isSome ∨ gout.subs.isSome then ezyysint e use1 sub gout gin z
  else some (sintOrig e gout.id gin.id z)

end Verif.EzYinYang
