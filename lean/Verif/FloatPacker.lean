/-!
Model of src/packers/float_packer.c: `float_packer_1`, `float_unpacker_1`, `c_float_packer`,
`c_float_unpacker`.

Floats are bit patterns.  Every finite IEEE single is an integer multiple of 2^-149; `val` is that
integer, and float comparison is comparison of `val`.  C `int` arithmetic is on mathematical
integers (Props/FloatPacker.lean proves that the values stay in range).  The subtraction of floats in
the unpacker is a parameter: any function that returns a nearest float.
-/
namespace Verif.FloatPacker

abbrev F32 := BitVec 32

/-- IEEE fields. -/
def expo (b : F32) : Nat := b.toNat / 2 ^ 23 % 256
def frac (b : F32) : Nat := b.toNat % 2 ^ 23
def neg (b : F32) : Bool := b.toNat / 2 ^ 31 == 1

/-- Value of a finite float in units of 2^-149. -/
def val (b : F32) : Int :=
  let m : Nat := if expo b = 0 then frac b else (2 ^ 23 + frac b) * 2 ^ (expo b - 1)
  if neg b then -(m : Int) else m

/-- Smallest and largest value, lines 137-144. -/
def minOf (z : F32) (src : List F32) : F32 := src.foldl (fun m x => if val m > val x then x else m) z
def maxOf (z : F32) (src : List F32) : F32 := src.foldl (fun m x => if val m < val x then x else m) z

/-- Mantissa with its hidden bit aligned on the largest exponent, lines 150-155, 160-165, 189-194. -/
def norm (maxExp : Nat) (src : F32) : Int :=
  let mantis : Nat := (2 ^ 23 + frac src) / 2 ^ (min (maxExp - expo src) 31)
  if neg src then -(mantis : Int) else mantis

/-- Lines 156-157, 166-167. -/
def normExtreme (maxExp : Nat) (src : F32) : Int := if expo src < 1 then 0 else norm maxExp src

/-- Number of bits to drop, lines 170-177; the largest range is below 2^25. -/
def shift2 (mask : Int) : Nat → Int → Nat
  | 0, _ => 0
  | fuel + 1, maximum => if maximum > mask then shift2 mask fuel (maximum / 2) + 1 else 0

/-- Token of a value, lines 195-198; `round` is half of 2^shift2. -/
def token (minimum : Int) (sh : Nat) (mask : Int) (mantis : Int) : Int :=
  min ((mantis - minimum + (2 ^ sh / 2 : Nat)) / 2 ^ sh) mask

/-- Two tokens in each word, lines 199-203. -/
def words : List Nat → List (BitVec 32)
  | [] => []
  | [a] => [BitVec.ofNat 32 (a <<< 16)]
  | a :: b :: t => BitVec.ofNat 32 (a <<< 16 ||| b) :: words t

/-- Packed record. -/
structure Packed where
  h0 : BitVec 32
  h1 : Int
  h2 : Nat
  stream : List (BitVec 32)

/-- `c_float_packer`, lines 288-296, with `float_packer_1`, lines 128-205, for at least one value. -/
def pack (z : F32) (rest : List F32) (nbits : Nat) : Packed :=
  let src := z :: rest
  let fmin := minOf z src
  let fmax := maxOf z src
  let maxExp := max (expo fmax) (expo fmin)
  let minimum := normExtreme maxExp fmin
  let maximum := normExtreme maxExp fmax - minimum
  let mask : Int := 2 ^ nbits - 1
  let sh := shift2 mask 32 maximum
  { h0 := BitVec.ofNat 32 (0xEFF <<< 20 ||| ((nbits - 1) <<< 16 ||| ((maxExp % 256) <<< 8 ||| sh % 256)))
    h1 := minimum
    h2 := src.length
    stream := words (src.map fun x => (token minimum sh mask (norm maxExp x)).toNat) }

/-- Tokens of a stream, lines 75-76, 104-108.  (After an even number of values the next word is read
too; it is not used.) -/
def tokens : Nat → List (BitVec 32) → List Nat
  | 0, _ => []
  | _ + 1, [] => []
  | 1, w :: _ => [w.toNat / 2 ^ 16 % 2 ^ 16]
  | n + 2, w :: t => w.toNat / 2 ^ 16 % 2 ^ 16 :: w.toNat % 2 ^ 16 :: tokens n t

/-- Float made of a sign, an exponent and a fraction. -/
def mk (s : Bool) (e f : Nat) : F32 := BitVec.ofNat 32 ((if s then 2 ^ 31 else 0) + e * 2 ^ 23 + f)

/-- A value from its token, lines 77-103. -/
def decode (sub : F32 → F32 → F32) (maxExp sh : Nat) (minimum : Int) (tok : Nat) : F32 :=
  let mantis : Int := (tok * 2 ^ sh : Nat) + minimum
  let sgn := decide (mantis < 0)
  let m := min mantis.natAbs 0xFFFFFF
  let temp := mk sgn maxExp (m % 2 ^ 23)
  if m / 2 ^ 23 % 2 = 1 then temp else sub temp (mk sgn maxExp 0)

/-- `c_float_unpacker`, lines 233-247, with `float_unpacker_1`, lines 53-111: `none` is the error
return. -/
def unpack (sub : F32 → F32 → F32) (p : Packed) (npts : Nat) : Option (List F32 × Nat) :=
  if p.h0.toNat / 2 ^ 20 % 2 ^ 12 ≠ 0xEFF then none
  else if npts ≠ p.h2 then none
  else
    let maxExp := p.h0.toNat / 2 ^ 8 % 2 ^ 8
    let sh := p.h0.toNat % 2 ^ 8
    let nbits := p.h0.toNat / 2 ^ 16 % 2 ^ 4 + 1
    if maxExp = 0 then some (List.replicate npts 0#32, nbits)
    else some ((tokens npts p.stream).map (decode sub maxExp sh p.h1), nbits)

end Verif.FloatPacker
