import Verif.Bufr

namespace Verif.Qrbsct

/-! Reading of the table of BUFR elements and of the bits of repeated elements (src/burp98_f/qrbsct.F90, mrbrpt.F90, the macros of
include/ftnmacros.hf).  A line of the file is given by the fields the code looks at, with its numbers already read; an open that
fails, reading errors and the environment are left out. -/

abbrev W := BitVec 32

/-- Fields of a line (qrbsct.F90:113-134): first character, element (1:6), character 51, scale (64:66), reference (67:77),
character 85. -/
structure Line where
  first : Char
  elem : Nat
  c51 : Char
  scale : Int
  ref : Int
  c85 : Char

/-- `PUTBIT(w, 1, y, 1)` (ftnmacros.hf:44-45) with words of 32 bits; `none` is a store outside the array. -/
def putbit (w : List W) (y : Nat) : Option (List W) :=
  (w[y / 32]?).map fun x : W => w.set (y / 32) (x ||| (1#32 <<< (31 - y % 32)))

/-- `GETBIT(x, y, 1)` (ftnmacros.hf:35-36); `none` is a read outside the array. -/
def getbit (w : List W) (y : Nat) : Option Nat := (w[y / 32]?).map fun x : W => ((x >>> (31 - y % 32)) &&& 1#32).toNat

/-- What the routine leaves. -/
structure Res where
  ret : Int
  nelelu : Nat
  rows : List (Nat × Int × Int)
  rep : List W
  closed : Bool

/-- A comment (qrbsct.F90:113). -/
def comment (l : Line) : Bool := l.first == '*' || l.first == '#'

/-- The loop over the lines (qrbsct.F90:111-137); `ERBTAB` is 35 (codes.cdk:33), the file stays open then. -/
def loop (tabdim nelelu : Nat) : List Line → List (Nat × Int × Int) → List W → Option Res
  | [], rows, rep =>
    -- 140-148: `ERELEM` is set and replaced by 0
    some ⟨0, if nelelu ≠ rows.length then rows.length else nelelu, rows, rep, true⟩
  | l :: ls, rows, rep =>
    if comment l then loop tabdim nelelu ls rows rep
    else
      let travail := Bufr.cov l.elem
      (if l.c85 = 'M' ∨ l.c85 = 'm' then putbit rep travail else some rep).bind fun rep =>
        if l.c51 ≠ '*' then
          if rows.length + 1 > tabdim then some ⟨35, nelelu, rows, rep, false⟩
          else loop tabdim nelelu ls (rows ++ [(travail, l.scale, l.ref)]) rep
        else loop tabdim nelelu ls rows rep

/-- `QRBSCT` after the open (qrbsct.F90:101-149): `nelelu` is the second number of the first line. -/
def qrbsct (tabdim nelelu : Nat) (ls : List Line) (rep : List W) : Option Res := loop tabdim nelelu ls [] rep

/-- `MRBRPT` (mrbrpt.F90:51-57), `MAXREP` 2048 (defi.cdk:35) words of 32 bits; `ERELEM` is 37. -/
def mrbrpt (rep : List W) (e : Int) : Option Int :=
  if e < 1 ∨ e > 2048 * 32 then some 37 else (getbit rep e.toNat).map Int.ofNat

end Verif.Qrbsct
