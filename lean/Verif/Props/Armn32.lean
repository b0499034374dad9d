import Verif.Armn32Zip

/-! # Properties of the IEEE field compressor (`c_armn_compress32`, `c_armn_uncompress32`, `pack1bitRLE`) -/

namespace Verif.Armn32

open Verif

/-! ## Runs of single bits -/

/-- An array of zeros and ones, however long and in whatever order, is written by `pack1bitRLE` in at most eight bits
for seven elements and the last partial word, words in front of the stream are left alone, and `unpack1bitRLE` on any
memory that holds the same stream gives back the array and touches nothing else. -/
theorem bits_round_trip (f : Nat → BitVec 8) (npts : Nat) (hf : ∀ k, k < npts → f k = 0 ∨ f k = 1)
    (mem : List W) (base : Nat) (room : 32 * base + 8 * ((npts + 6) / 7) + 32 ≤ 32 * mem.length) :
    ∃ mem' n, pack1bitRLE f npts mem base = some (mem', n) ∧ mem'.length = mem.length ∧
      28 * n < npts + 34 ∧ (∀ j : Nat, j < base → mem'[j]? = mem[j]?) ∧
      ∀ (u : W) (disk : List W) (g : Nat → BitVec 8),
        (disk.drop base).take (n + 1) = (mem'.drop base).take (n + 1) →
        ∃ g', unpack1bitRLE u disk base npts g = some g' ∧ ∀ k, g' k = if k < npts then f k else g k := by
  have hf' : ∀ k, k < npts → (f k).toNat ≤ 1 := by
    intro k hk
    rcases hf k hk with h | h <;> rw [h] <;> decide
  obtain ⟨mem', n, ts, e, hl, hseg, hok, hn, hkeep⟩ := pack1bitRLE_spec hf' room
  refine ⟨mem', n, e, hl, by omega, hkeep, fun u disk g hd => ?_⟩
  have hr := hseg.room
  have hlen : base + n < disk.length := by
    have := congrArg List.length hd
    simp only [List.length_take, List.length_drop] at this
    omega
  refine unpack1bitRLE_spec hf' (hseg.congr hlen fun j h1 h2 => ?_) hok
  have := congrArg (fun l => l[j - base]?) hd
  simp only [List.getElem?_take, List.getElem?_drop] at this
  rw [if_pos (by omega), if_pos (by omega), Nat.add_sub_cancel' h1] at this
  exact this

/-- Bits with a run of 400 ones between mixed parts: all three kinds of codes are used. -/
def exBits : Nat → BitVec 8 := fun k => if 10 ≤ k ∧ k < 410 ∨ k % 3 = 1 then 1 else 0

example : ∀ k, k < 430 → exBits k = 0 ∨ exBits k = 1 := by
  intro k _
  unfold exBits
  split <;> simp

example : ((pack1bitRLE exBits 430 (List.replicate 30 7#32) 1).map (·.2)) = some 3 := by decide +kernel

example : ((pack1bitRLE exBits 430 (List.replicate 30 7#32) 1).bind fun r =>
    (unpack1bitRLE 0 r.1 1 430 (fun _ => 9)).map fun g => (List.range 440).map g) =
    some ((List.range 440).map fun k => if k < 430 then exBits k else 9) := by decide +kernel

/-! ## Whole fields -/

/-- Every field of 16 by 16 points or more, whatever its bits (infinities, NaNs and signed zeros too), stored with 10
to 32 bits an element, is either refused or compressed; with `znbits + 6` bits for each element in memory nothing is
written outside.  A compressed stream of `words` words, read back from anywhere with anything behind it, gives each
element with its last `32 - znbits` bits cleared, the exact element at 32 bits, and leaves the rest of the destination
alone.

Missing: widths under 10 bits, for which the code shifts by 32 or more; the memory that `c_fstecr` really provides, which
has no spare bits for each element (the space test of line 550 covers neither the edges nor constant tiles); levels
after the first, which the code ignores. -/
theorem compress32_round_trip_partial (fld : Nat → W) (ni nj znbits : Nat) (hni : 16 ≤ ni) (hnj : 16 ≤ nj)
    (hbig : ni * nj < 2 ^ 30) (h1 : 10 ≤ znbits) (h2 : znbits ≤ 32) (mem : List W)
    (room : (znbits + 6) * (ni * nj) + 512 ≤ 32 * mem.length) :
    compress32 fld ni nj znbits mem = some .refused ∨
    ∃ mem' words, compress32 fld ni nj znbits mem = some (.ok mem' words) ∧ mem'.length = mem.length ∧
      words ≤ mem.length ∧
      ∀ (u : W) (j : Junk) (disk : List W) (out : Nat → W), disk.take words = mem'.take words →
        ∃ out', uncompress32 u j disk ni nj out = some out' ∧
          ∀ k, out' k = if k < ni * nj then (fld k >>> (32 - znbits)) <<< (32 - znbits) else out k := by
  have hpts : 256 ≤ ni * nj := Nat.mul_le_mul hni hnj
  have hz : (znbits + 6) * (ni * nj) = (znbits - 10) * (ni * nj) + 16 * (ni * nj) := by
    rw [← Nat.add_mul]; congr 1; omega
  unfold compress32
  rw [if_neg (by omega), if_neg (by omega)]
  obtain ⟨sg, es, hsg⟩ := signPart_spec (fld := fld) (mem := mem) hpts hbig (by omega)
  have sl := hsg.len
  have sp := hsg.pos
  rw [es]
  dsimp only
  rcases expPart_spec (fld := fld) (mem := sg.mem) (pos := sg.pos) (ni := ni) (nj := nj) (by omega) (by omega) hbig
      (by omega) with ee | ⟨m, p, c, ee, hE⟩
  · rw [ee]; exact Or.inl rfl
  rw [ee]
  dsimp only
  have el := hE.len
  have ep := hE.pos2
  have ep1 := hE.pos1
  have ok := man_ok (fld := fld) (ni := ni) (nj := nj) (znbits := znbits) (by omega) (by omega) h1 h2
  have hg := grid_count (ni := ni) (nj := nj) (by omega) (by omega)
  have hedge : 8 * (ni + (nj - 1)) ≤ ni * nj + 56 := by
    obtain ⟨a, rfl⟩ := Nat.exists_eq_add_of_le hni
    obtain ⟨b, rfl⟩ := Nat.exists_eq_add_of_le hnj
    rw [Nat.add_mul, Nat.mul_add a 16 b]
    omega
  have hw : (znbits - 9) * (8 * (ni + (nj - 1))) ≤ (znbits - 9) * (ni * nj + 56) := Nat.mul_le_mul_left _ hedge
  have hw1 : (znbits - 9) * (ni * nj + 56) = (znbits - 10) * (ni * nj) + ni * nj + (znbits - 9) * 56 := by
    rw [Nat.mul_add]
    congr 1
    have : znbits - 9 = (znbits - 10) + 1 := by omega
    rw [this, Nat.add_mul, Nat.one_mul]
  have hw2 : (znbits - 9) * (8 * (ni + (nj - 1))) = 8 * ((ni + (nj - 1)) * (znbits - 9)) := by
    rw [Nat.mul_comm, Nat.mul_assoc]
  have hz2 : ni * nj * znbits = (znbits - 10) * (ni * nj) + 10 * (ni * nj) := by
    rw [← Nat.add_mul, Nat.mul_comm]; congr 1; omega
  have hdiv := Nat.div_mul_le_self (ni * nj * znbits) 32
  have hp := packPar_check (mem := m) (base := p + 1) (rem := ((ni * nj * znbits / 32 : Nat) : Int) - (p + 1 : Nat))
    (limit := ni * nj * znbits) ok (by omega) (by omega) (by omega)
  unfold manPart
  rcases hp with hp | ⟨m1, n, hp, hroom⟩
  · rw [hp]; exact Or.inl rfl
  rw [hp]
  dsimp only
  right
  obtain ⟨l1, hseg, -, hkeep⟩ := packPar_ok ok hp (by omega)
  obtain ⟨m2, e2⟩ := store_ok (mem := m1) sg.lng (show p < m1.length by omega)
  obtain ⟨l2, -, k2⟩ := store_keep e2
  rw [e2]
  dsimp only
  obtain ⟨m3, e3⟩ := store_ok (mem := m2) (header32 (znbits - 9)) (show 0 < m2.length by omega)
  obtain ⟨l3, v3, k3⟩ := store_keep e3
  rw [e3]
  dsimp only
  obtain ⟨m4, e4⟩ := store_ok (mem := m3)
    (ieeeInfo (expMin fld (ni * nj)) (expBits fld (ni * nj)) (sg.code ||| c)) (show 1 < m3.length by omega)
  obtain ⟨l4, v4, k4⟩ := store_keep e4
  rw [e4, toWords_eq]
  refine ⟨m4, _, rfl, by omega, by omega, fun u j disk out hd => ?_⟩
  have hlen : p + 1 + (n + 1) ≤ disk.length := by
    have := congrArg List.length hd
    simp only [List.length_take] at this
    omega
  have hat : ∀ i : Nat, i < p + 1 + (n + 1) → disk[i]? = m4[i]? := by
    intro i hi
    have := congrArg (fun l => l[i]?) hd
    simp only [List.getElem?_take, if_pos hi] at this
    exact this
  have pos2 := hsg.pos2
  have hm1 : ∀ i : Nat, 2 ≤ i → i ≠ p → i < p + 1 + (n + 1) → disk[i]? = m1[i]? := by
    intro i a b c
    rw [hat i c, k4 i (by omega), k3 i (by omega), k2 i b]
  have d0 : disk[0]? = some (header32 (znbits - 9)) := by
    rw [hat 0 (by omega), k4 0 (by omega), v3]
  have d1 : disk[1]? = some (ieeeInfo (expMin fld (ni * nj)) (expBits fld (ni * nj)) (sg.code ||| c)) := by
    rw [hat 1 (by omega), v4]
  have hsm := expMin_lt fld (ni * nj)
  have hsb : expBits fld (ni * nj) < 256 := by have := expBits_le fld (ni * nj); omega
  have hc : (sg.code ||| c).toNat < 256 ∧ (sg.code ||| c) &&& 0x30#32 = sg.code ∧ (sg.code ||| c) &&& 0xC#32 = c ∧
      (sg.code ||| c) &&& 3#32 = 0 := by
    rcases hsg.code with h | h | h <;> rcases hE.code with h' | h' <;> rw [h, h'] <;> decide
  obtain ⟨c1, c2, c3, c4⟩ := hc
  obtain ⟨f1, f2⟩ := info_fields (c := sg.code ||| c) hsm hsb c1
  have a1 := info_and (c := sg.code ||| c) (m := 0x30#32) hsm hsb c1 (by decide)
  have a2 := info_and (c := sg.code ||| c) (m := 0xC#32) hsm hsb c1 (by decide)
  have a3 := info_and (c := sg.code ||| c) (m := 3#32) hsm hsb c1 (by decide)
  rw [c2] at a1
  rw [c3] at a2
  rw [c4] at a3
  have hh := header32_nbits (znbits - 9) (by omega)
  obtain ⟨gs, us, hgs⟩ := hsg.back u disk j.sign (by omega) (fun i x y => by
    rw [hm1 i x (by omega) (by omega), hkeep i (by omega), hE.keep i y])
  obtain ⟨ge, ue, hge⟩ := hE.back u disk j.exp j.tmpE (by omega) (fun i x y => by
    rw [hm1 i (by omega) (by omega) (by omega), hkeep i (by omega)])
  have hseg' : Seg disk (p + 1) n (parToks (fun k => manOf (znbits - 9) (fld k)) ni nj (znbits - 9) 5) := by
    refine hseg.congr (by omega) fun i x y => ?_
    rw [hm1 i (by omega) (by omega) (by omega)]
  obtain ⟨gm, um, hgm⟩ := unpackPar_spec (trunc := id) (u := u) (g := j.man) (d0 := j.tmpM) ok (fun _ _ => rfl) hseg'
  have dp : disk[p]? = some disk[p] := List.getElem?_eq_getElem (by omega)
  refine ⟨_, by
    unfold uncompress32
    rw [d0, d1]
    dsimp only
    rw [hh, a3, if_neg (by simp; omega), a1, us]
    dsimp only
    rw [f1, f2, a2, ue]
    dsimp only
    rw [dp]
    dsimp only
    rw [um]
    rfl, fun k => ?_⟩
  dsimp only
  by_cases hk : k < ni * nj
  · rw [if_pos hk, if_pos hk, joinParts, hgs k hk, hge k hk, hgm, if_pos hk, join_eq (by omega)]
    have : 23 - (znbits - 9) = 32 - znbits := by omega
    rw [this]
  · rw [if_neg hk, if_neg hk]

/-- Fields under 16 points in a direction are refused whatever they hold. -/
theorem compress32_small (fld : Nat → W) (ni nj znbits : Nat) (h : ni < 16 ∨ nj < 16) (mem : List W) :
    compress32 fld ni nj znbits mem = some .refused := by
  rw [compress32, if_pos h]

/-- A field of 16 by 16 points or more whose elements are all equal is never refused. -/
theorem compress32_constant (fld : Nat → W) (ni nj znbits : Nat) (hni : 16 ≤ ni) (hnj : 16 ≤ nj)
    (hbig : ni * nj < 2 ^ 30) (h1 : 10 ≤ znbits) (h2 : znbits ≤ 32) (mem : List W)
    (room : (znbits + 6) * (ni * nj) + 512 ≤ 32 * mem.length) (v : W) (hc : ∀ k, k < ni * nj → fld k = v) :
    compress32 fld ni nj znbits mem ≠ some .refused := by
  have hpts : 256 ≤ ni * nj := Nat.mul_le_mul hni hnj
  have hz : (znbits + 6) * (ni * nj) = (znbits - 10) * (ni * nj) + 16 * (ni * nj) := by
    rw [← Nat.add_mul]; congr 1; omega
  intro hr
  unfold compress32 at hr
  rw [if_neg (by omega), if_neg (by omega)] at hr
  obtain ⟨sg, es, hsg⟩ := signPart_spec (fld := fld) (mem := mem) hpts hbig (by omega)
  have he : expBits fld (ni * nj) = 0 := expBits_const hc (by omega)
  have ee : expPart fld ni nj sg.mem sg.pos = some (.ok sg.mem sg.pos 0) := by rw [expPart, if_pos he]
  rw [es] at hr
  dsimp only at hr
  rw [ee] at hr
  dsimp only at hr
  unfold manPart at hr
  split at hr
  · cases hr
  · rename_i hp
    obtain ⟨c, hct, hnz⟩ := packPar_none hp
    apply hnz
    have hzero : ∀ k ∈ c, pDiff (fun k => manOf (znbits - 9) (fld k)) ni k = 0 := by
      intro k hk
      obtain ⟨x, y, a1, a2, a3, a4, e⟩ := (mem_tiles (by omega)).1 (List.mem_flatten.2 ⟨c, hct, hk⟩)
      have hlt := ftn2c_lt (x := x) (y := y) (ni := ni) (nj := nj) (by omega) a2 (by omega) a4
      rw [pDiff, hc k (by omega), hc (k - ni) (by omega), hc (k - 1) (by omega), hc (k - 1 - ni) (by omega)]
      simp
    have := pMax_lt (d := pDiff (fun k => manOf (znbits - 9) (fld k)) ni) (cells := c) (B := 1) (by omega)
      (fun k hk => by rw [hzero k hk]; decide)
    have h0 : (pMax (pDiff (fun k => manOf (znbits - 9) (fld k)) ni) c).toNat = 0 := by omega
    rw [h0, bitLen, if_pos rfl]
  · split at hr
    · cases hr
    · split at hr
      · cases hr
      · rename_i m3 _
        revert hr
        cases store m3 1 (ieeeInfo (expMin fld (ni * nj)) (expBits fld (ni * nj)) (sg.code ||| 0)) with
        | none => intro h; cases h
        | some m => intro h; cases h

/-- Signs, exponents and mantissas that vary: 16 by 17 points. -/
def exFld (k : Nat) : W :=
  (if k < 100 ∨ k = 200 then 0xBF8ABCDE#32 + BitVec.ofNat 32 (k * 1000) else 0x3F9ABCDE#32 + BitVec.ofNat 32 (k * 7777)) +
    BitVec.ofNat 32 (k / 90) <<< 23

example : (24 + 6) * (16 * 17) + 512 ≤ 32 * (List.replicate 300 0#32).length := by rw [List.length_replicate]; decide

example : expBits exFld 272 = 2 ∧ (signPart exFld 272 (List.replicate 300 0#32)).map (·.code) = some 0x20#32 := by
  decide +kernel

/-- Length of the outcome in words, 0 for a refusal. -/
def zipWords : Zip32 → Nat
  | .refused => 0
  | .ok _ w => w

theorem exFld_words : (compress32 exFld 16 17 24 (List.replicate 300 0#32)).map zipWords = some 68 := by decide +kernel

/-- It is not refused, so it comes back with the last eight bits of each element cleared. -/
example : ∃ m, compress32 exFld 16 17 24 (List.replicate 300 0#32) = some (.ok m 68) ∧
    ∀ u j out, ∃ out', uncompress32 u j (m.take 68) 16 17 out = some out' ∧
      ∀ k, k < 272 → out' k = (exFld k >>> 8) <<< 8 := by
  have hw := exFld_words
  rcases compress32_round_trip_partial exFld 16 17 24 (by decide) (by decide) (by decide) (by decide) (by decide)
      (List.replicate 300 0#32) (by rw [List.length_replicate]; decide) with h | ⟨m, w, h, -, -, hb⟩
  · rw [h] at hw; simp [zipWords] at hw
  · rw [h] at hw
    simp only [Option.map_some, zipWords, Option.some.injEq] at hw
    subst hw
    refine ⟨m, h, fun u j out => ?_⟩
    obtain ⟨o, ho, hk⟩ := hb u j (m.take 68) out (by rw [List.take_take]; rfl)
    exact ⟨o, ho, fun k hlt => by rw [hk, if_pos (by omega)]⟩

/-- A field that is refused: random mantissas do not fit in ten bits an element. -/
example : compress32 (fun k => BitVec.ofNat 32 (k * k * 2654435761)) 16 16 10 (List.replicate 300 0#32) =
    some .refused := by decide +kernel

end Verif.Armn32
