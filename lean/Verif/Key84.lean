import Verif.BitSlicer

/-! # Keys of 84 bits

Model of src/fstd98/c_fstgrib_helper.c.  The results are stored in a memory of 32-bit integers at the addresses passed.  The
checksum of the header and the time of day are parameters. -/

namespace Verif.Key84

open Verif Verif.BitSlicer

/-- `c_84bits_ig_put` (c_fstgrib_helper.c:114-126): the three words of the token. -/
def igPut (g : List W) : Option (List W) := fBitsPut [0, 0, 0] (List.zip [21, 21, 21, 21] g)

/-- `c_84bits_ip_put` (c_fstgrib_helper.c:142-153). -/
def ipPut (p : List W) : Option (List W) := fBitsPut [0, 0, 0] (List.zip [28, 28, 28] p)

/-- The slices of `c_84bits_ig_get` and `grb_84bits_to_ig1234` (c_fstgrib_helper.c:100-106, 86-92). -/
def igGet (junk : W) (token : List W) : Option (List W) := fBitsGet junk token [21, 21, 21, 21]

/-- The slices of `c_84bits_ip_get` and `grb_84bits_to_ip123` (c_fstgrib_helper.c:129-135, 73-79). -/
def ipGet (junk : W) (token : List W) : Option (List W) := fBitsGet junk token [28, 28, 28]

/-- `c_igaip84` (c_fstgrib_helper.c:156-162): ig1 to ig4 into ip1 to ip3. -/
def igaip (junk : W) (g : List W) : Option (List W) := (igPut g).bind (ipGet junk)

/-- `c_ipaig84` (c_fstgrib_helper.c:165-171). -/
def ipaig (junk : W) (p : List W) : Option (List W) := (ipPut p).bind (igGet junk)

/-- `c_84bits_token` (c_fstgrib_helper.c:47-70): `t` is the time in microseconds, `old` what the array was before. -/
def token (old : List W) (crc : W) (t : Nat) : Option (List W) :=
  let micro := t % 1000000
  let sec := (t - micro) / 1000000
  fBitsPut old [(32, crc), (32, BitVec.ofNat 32 sec), (20, BitVec.ofNat 32 micro)]

/-- Stores at the addresses `as`, in order (c_fstgrib_helper.c:107-110, 136-138). -/
def stores : List Nat → List W → (Nat → W) → (Nat → W)
  | a :: as, v :: vs, m => stores as vs fun x => if x = a then v else m x
  | _, _, m => m

/-- `c_def_84bitkey` (c_fstgrib_helper.c:37-44): `ip` and `ig` are the addresses of the results. -/
def cDef (junk : W) (old : List W) (crc : W) (t : Nat) (ip ig : List Nat) (m : Nat → W) : Option (Nat → W) := do
  let k ← token old crc t
  let p ← ipGet junk k
  let g ← igGet junk k
  some (stores ig g (stores ip p m))

/-- `f_def_84bitkey` (c_fstgrib_helper.c:30-34): the address of `ip1` is passed in place of that of `ig1`. -/
def fDef (junk : W) (old : List W) (crc : W) (t : Nat) (ip ig : List Nat) (m : Nat → W) : Option (Nat → W) :=
  cDef junk old crc t ip (ip.take 1 ++ ig.drop 1) m

end Verif.Key84
