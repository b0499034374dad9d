/-! # Interpolation options by name (`ezsetopt.c`, `ezgetopt.c`, `ezsetval.c`, `ezgetval.c`)

`c_ezsetopt` and `c_ezgetopt` on the members of `groptions` they use.  Names and values are strings
shorter than 32 bytes (`strcpy` to `char [32]`; longer ones are out of bounds writes, `none` here); one
character is one byte.  Messages are left out, and so are the Fortran entry points.  The numeric options
of `ezsetval.c` and `ezgetval.c` follow; a `float` is any type `F` with a conversion from integers. -/

namespace Verif.EzOpt

/-- The members of `groptions` (ez_def.h) set by name, with the initial values of ez_statics.c:17. -/
structure Opts where
  use1 : Int := 0
  verbose : Int := 0
  polar : Int := 1
  interp : Int := 3
  extrap : Int := 4
  cld : Int := 4
deriving DecidableEq

/-- `tolower` in the C locale (ezsetopt.c:74-80). -/
def lower (s : String) : String := s.map Char.toLower

/-- The French names of the options (ezsetopt.c:82-85). -/
def englishOpt (s : String) : String :=
  if s = "correction_polaire" then "polar_correction"
  else if s = "degre_interp" then "interp_degree"
  else if s = "degre_extrap" then "extrap_degree"
  else if s = "use_1sousgrille" then "use_1subgrid"
  else s

/-- The French values (ezsetopt.c:87-95). -/
def englishVal (s : String) : String :=
  if s = "oui" then "yes"
  else if s = "ouiouioui" then "yesyesyes"
  else if s = "non" then "no"
  else if s = "voisin" then "nearest"
  else if s = "lineair" then "linear"
  else if s = "lineaire" then "linear"
  else if s = "cubique" then "cubic"
  else if s = "neutre" then "neutral"
  else if s = "valeur" then "value"
  else s

/-- The `if` blocks of ezsetopt.c:97-202 on the translated names: the new options, or `none` where the
option or the value is not recognized. -/
def assign (o : Opts) (opt val : String) : Option Opts :=
  if opt = "use_1subgrid" then
    if val = "yes" then some { o with use1 := 1 }
    else if val = "no" then some { o with use1 := 0 }
    else none
  else if opt = "verbose" then
    if val = "yes" then some { o with verbose := 1 }
    else if val = "yesyesyes" then some { o with verbose := 2 }
    else if val = "no" then some { o with verbose := 0 }
    else none
  else if opt = "polar_correction" then
    if val = "yes" then some { o with polar := 1 }
    else if val = "no" then some { o with polar := 0 }
    else none
  else if opt = "interp_degree" then
    if val = "nearest" then some { o with interp := 0 }
    else if val = "linear" then some { o with interp := 1 }
    else if val = "cubic" then some { o with interp := 3 }
    else if val = "average" then some { o with interp := 4 }
    else if val = "sph_average" then some { o with interp := 5 }
    else none
  else if opt = "extrap_degree" then
    if val = "neutral" then some { o with extrap := o.interp }
    else if val = "nearest" then some { o with extrap := 0 }
    else if val = "linear" then some { o with extrap := 1 }
    else if val = "cubic" then some { o with extrap := 3 }
    else if val = "maximum" then some { o with extrap := 4 }
    else if val = "minimum" then some { o with extrap := 5 }
    else if val = "value" then some { o with extrap := 6 }
    else if val = "abort" then some { o with extrap := 13 }
    else none
  else if opt = "cloud_interp_alg" then
    if val = "linear" then some { o with cld := 1 }
    else if val = "distance" then some { o with cld := 4 }
    else none
  else none

/-- `c_ezsetopt` (ezsetopt.c:59-215): the code and the options. -/
def setopt (o : Opts) (opt val : String) : Option (Int × Opts) :=
  if 32 ≤ opt.length ∨ 32 ≤ val.length then none
  else
    match assign o (englishOpt (lower opt)) (englishVal (lower val)) with
    | some o' => some (0, o')
    | none => some (-1, o)

/-- The names of a degree of interpolation (ezgetopt.c:106-122 and 126-142). -/
def interpName (d : Int) (french : Bool) : String :=
  if d = 0 then (if french then "voisin" else "nearest")
  else if d = 1 then (if french then "lineaire" else "linear")
  else if d = 3 then (if french then "cubique" else "cubic")
  else if french then "erreur" else "error"

/-- The names of a degree of extrapolation (ezgetopt.c:146-178 and 182-214). -/
def extrapName (d : Int) (french : Bool) : String :=
  if d = 0 then (if french then "voisin" else "nearest")
  else if d = 1 then (if french then "lineaire" else "linear")
  else if d = 3 then (if french then "cubique" else "cubic")
  else if d = 4 then "maximum"
  else if d = 5 then "minimum"
  else if d = 6 then (if french then "valeur" else "value")
  else if d = 13 then "abort"
  else if french then "erreur" else "error"

/-- `c_ezgetopt` (ezgetopt.c:53-233): what it leaves in `value`, given what was there; it always
answers 0. -/
def getopt (o : Opts) (opt value : String) : Option String :=
  let opt' := lower opt
  if 32 ≤ opt.length then none
  else some (
    if opt' = "verbose" then
      (if o.verbose = 1 then "yes" else if o.verbose = 2 then "yesyesyes" else "no")
    else if opt' = "use_1subgrid" then (if o.use1 = 1 then "yes" else "no")
    else if opt' = "polar_correction" then (if o.polar = 1 then "yes" else "no")
    else if opt' = "interp_degree" then interpName o.interp false
    else if opt' = "degre_interp" then interpName o.interp true
    else if opt' = "extrap_degree" then extrapName o.extrap false
    else if opt' = "degre_extrap" then extrapName o.extrap true
    else if opt' = "cloud_interp_alg" then (if o.cld = 1 then "linear" else "distance")
    else value)

/-- The members of `groptions` with numeric values. -/
structure Vals (F : Type) where
  extrap : F
  gridptDist : F
  distThresh : F
  wgtNum : Int
  ptTol : Int
  subgrid : Int

variable {F : Type}

/-- `c_ezsetfval` and `c_ezsetval` (ezsetval.c:86-119); it always answers 0. -/
def setfval (o : Vals F) (opt : String) (f : F) : Option (Vals F) :=
  let opt' := lower opt
  if 32 ≤ opt.length then none
  else some (
    if opt' = "extrap_value" then { o with extrap := f }
    else if opt' = "missing_gridpt_distance" then { o with gridptDist := f }
    else if opt' = "missing_distance_threshold" then { o with distThresh := f }
    else o)

/-- `c_ezsetival` (ezsetval.c:122-148); it always answers 0. -/
def setival (o : Vals F) (opt : String) (i : Int) : Option (Vals F) :=
  let opt' := lower opt
  if 32 ≤ opt.length then none
  else some (
    if opt' = "weight_number" then { o with wgtNum := i }
    else if opt' = "missing_points_tolerance" then { o with ptTol := i }
    else if opt' = "subgridid" then { o with subgrid := i }
    else o)

/-- `c_ezgetval` (ezgetval.c:55-87): what it leaves in `*fvalue`, given what was there. -/
def getval (ofInt : Int → F) (o : Vals F) (opt : String) (value : F) : Option F :=
  let opt' := lower opt
  if 32 ≤ opt.length then none
  else some (
    if opt' = "extrap_value" then o.extrap
    else if opt' = "missing_distance_threshold" then o.distThresh
    else if opt' = "weight_number" then ofInt o.wgtNum
    else if opt' = "missing_points_tolerance" then ofInt o.ptTol
    else value)

/-- `c_ezgetival` (ezgetval.c:89-117). -/
def getival (o : Vals F) (opt : String) (value : Int) : Option Int :=
  let opt' := lower opt
  if 32 ≤ opt.length then none
  else some (
    if opt' = "subgridid" then o.subgrid
    else if opt' = "weight_number" then o.wgtNum
    else if opt' = "missing_points_tolerance" then o.ptTol
    else value)

end Verif.EzOpt
