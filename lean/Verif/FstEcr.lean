import Verif.XdfSearch
import Verif.XdfRun

/-! # Writing a standard record, with or without rewriting

The end of `c_fstecr` on a random file: choice of the handle and call of `c_xdfput`. -/

namespace Verif.Xdf
open FstKeys

/-- The criteria `c_fstecr` gives to `c_fstinf` to find the record to rewrite (fstd98.c:1090): no
date, and the names and numbers of the new record. -/
def rewriteQuery (a : Args) : Query :=
  { datev := BitVec.ofInt 32 (-1), etiket := padTo 12 a.etiket, ip1 := BitVec.ofInt 32 a.ip1,
    ip2 := BitVec.ofInt 32 a.ip2, ip3 := BitVec.ofInt 32 a.ip3, typvar := padTo 2 a.typvar,
    nomvar := padTo 4 a.nomvar }

/-- What a query looks for in the directory: `c_fstinfx` and `build_fstd_prim_keys`, the search mask of
the file (`srch`) and its filter. -/
def queryCriteria (srch : List W) (q : Query) (filter : Nat → Nat → Bool) : Criteria :=
  { words := (buildPrim (target q) (mask q)).1
    mask := List.zipWith (· &&& ·) (buildPrim (target q) (mask q)).2 srch
    filter := filter }

/-- The call of `c_xdfput` made by `c_fstecr` (fstd98.c:1084-1099, 1373): `field` are the packed data
words.  The filter of the file is removed during the search.  `none`: `ERR_OUT_RANGE`, or the search
is still running after `fuel` pages. -/
def fstecrOp (m : Mem) (a : Args) (field : List W) (rewrit : Bool) (fuel : Nat) (res3 : W)
    (junk : List Entry) : Option Op :=
  match fstecrKeys a with
  | none => none
  | some k =>
    if rewrit then
      match locFirst [⟨m.pages, none, none⟩] 0 (queryCriteria srchInit (rewriteQuery a) fun _ _ => true) fuel with
      | none => none
      | some (.hit p r, _) => some (.rewrite p r (k.words ++ field) res3 junk)
      | some (_, _) => some (.append (k.words ++ field) res3 junk)
    else some (.append (k.words ++ field) res3 junk)

/-- `c_fstecr` on a random file that is not linked, from the packed words on. -/
def fstecr (m : Mem) (d : Disk) (a : Args) (field : List W) (rewrit : Bool) (fuel : Nat) (res3 : W)
    (junk : List Entry) : Option (Mem × List Write × Code) :=
  (fstecrOp m a field rewrit fuel res3 junk).bind (step m d)

end Verif.Xdf
