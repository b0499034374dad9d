import Verif.BurpHdr
import Verif.FstKeysLemmas
import Verif.Props.XdfSearch
import Mathlib.Tactic.IntervalCases

/-! # C97, C98: headers of BURP reports -/

namespace Verif.BurpHdr

open Verif.FstKeys (W wordsMatch)

/-! ## What the header should be -/

/-- Characters of a station name: all but `` ` ``, braces, bar, tilde and those beyond ASCII. -/
def StnChar (c : C) : Prop := c.toNat < 96 ∨ (97 ≤ c.toNat ∧ c.toNat ≤ 122)

instance (c : C) : Decidable (StnChar c) := inferInstanceAs (Decidable (_ ∨ _))

/-- Capitals. -/
def capital (c : C) : C := if 97 ≤ c.toNat ∧ c.toNat ≤ 122 then BitVec.ofNat 8 (c.toNat - 32) else c

/-- The nine characters of a name, blanks at the end. -/
def nine (s : List C) : List C := List.ofFn fun i : Fin 9 => s.getD i 32#8

/-- A date that can be kept: AAMMJJ, or AAAAMMJJ of the years 1900 to 2699; the month is one. -/
def GoodDate (d : Int) : Prop :=
  1 ≤ d / 100 % 100 ∧ d / 100 % 100 ≤ 12 ∧ ((0 ≤ d ∧ d ≤ 999999) ∨ (1900 ≤ d / 10000 ∧ d / 10000 ≤ 2699))

/-- The date with its century. -/
def full (d : Int) : Int := if d ≤ 999999 then 19000000 + d else d

/-- The date as it comes back. -/
def shown (enforc8 : Bool) (d : Int) : Int :=
  if enforc8 = false ∧ full d < 20000000 then full d - 19000000 else full d

/-- Values that fit. -/
def fits (n : Nat) (x : Int) : Prop := 0 ≤ x ∧ x < 2 ^ n

def GoodTime (t : Int) : Prop := 0 ≤ t ∧ t / 100 < 64 ∧ t % 100 < 64

structure Good (a : Args) : Prop where
  temps : GoodTime a.temps
  flgs : fits 24 a.flgs
  stnid : ∀ c ∈ a.stnid, StnChar c
  idtyp : fits 8 a.idtyp
  lati : fits 16 a.lati
  long : fits 16 a.long
  dx : fits 12 a.dx
  dy : fits 12 a.dy
  elev : fits 13 a.elev
  drcv : fits 11 a.drcv
  date : GoodDate a.date
  oars : fits 16 a.oars
  run : fits 8 a.run

/-- Arguments of an update: -1, or a value that fits. -/
structure GoodUpd (a : Args) : Prop where
  temps : a.temps = -1 ∨ GoodTime a.temps
  flgs : a.flgs = -1 ∨ fits 24 a.flgs
  stnid : ∀ c ∈ a.stnid, StnChar c
  idtyp : a.idtyp = -1 ∨ fits 8 a.idtyp
  lati : a.lati = -1 ∨ fits 16 a.lati
  long : a.long = -1 ∨ fits 16 a.long
  dx : a.dx = -1 ∨ fits 12 a.dx
  dy : a.dy = -1 ∨ fits 12 a.dy
  elev : a.elev = -1 ∨ fits 13 a.elev
  drcv : a.drcv = -1 ∨ fits 11 a.drcv
  date : a.date = -1 ∨ GoodDate a.date
  oars : a.oars = -1 ∨ fits 16 a.oars
  run : a.run = -1 ∨ fits 8 a.run

/-- The new value, or the old one for -1. -/
def orOld (x old : Int) : Int := if x = -1 then old else x

/-! ## Lemmas -/

theorem lenTrim_tail (s : List C) (i : Nat) (h : lenTrim s ≤ i) : s.getD i 32#8 = 32#8 := by
  induction s generalizing i with
  | nil => simp
  | cons c s ih =>
    rw [lenTrim] at h
    split at h
    · rename_i hc
      rcases i with _ | i
      · simp [hc.2]
      · simpa using ih i (by omega)
    · rcases i with _ | i
      · omega
      · simpa using ih i (by omega)

theorem istnid_eq (s : List C) (i : Fin 9) : istnid s i = s.getD i 32#8 := by
  have hi := i.2
  rw [istnid]
  split
  · rfl
  · rename_i h
    rw [lenTrim_tail]
    have : Nat.min (lenTrim s) 9 = min (lenTrim s) 9 := rfl
    omega

theorem stn_getD {s : List C} (h : ∀ c ∈ s, StnChar c) (i : Nat) : StnChar (s.getD i 32#8) := by
  rw [List.getD_eq_getElem?_getD]
  rcases hi : s[i]? with _ | c
  · simp only [Option.getD_none]; decide
  · exact h c (List.mem_of_getElem? hi)

theorem upper8 : ∀ c : C, StnChar c → c &&& ~~~((c &&& 64#8) >>> 1) = capital c := by
  decide +kernel

theorem rah_ne (old : W) (c : C) (h : StnChar c) : char2rah old c ≠ BitVec.ofInt 32 (-1) := by
  intro he
  have h7 := congrArg (fun x : W => x.getLsbD 7) he
  have h8 : c.getLsbD 7 = false := by
    have : c.toNat < 128 := by rcases h with h | h <;> omega
    rw [BitVec.getLsbD, Nat.testBit_lt_two_pow (by omega)]
  have hs : (c.signExtend 32).getLsbD 7 = c.getLsbD 7 := by
    rw [BitVec.getLsbD_signExtend]; simp
  rw [char2rah] at h7
  simp only [BitVec.getLsbD_or, BitVec.getLsbD_shiftLeft] at h7
  rw [hs, h8, show (BitVec.ofInt 32 (-1)).getLsbD 7 = true from by decide] at h7
  simp at h7

theorem rah_upper (old : W) (c : C) : (upperCase (char2rah old c)).setWidth 8 = c &&& ~~~((c &&& 64#8) >>> 1) := by
  apply BitVec.eq_of_getLsbD_eq
  intro i hi
  have hk : ∀ k, k < 8 → (char2rah old c).getLsbD k = c.getLsbD k := by
    intro k hk
    rw [char2rah]
    simp only [BitVec.getLsbD_or, BitVec.getLsbD_shiftLeft, BitVec.getLsbD_signExtend]
    simp [hk]
    omega
  have e5 : (64#32).getLsbD (1 + i) = (64#8).getLsbD (1 + i) := by
    interval_cases i <;> decide
  rw [BitVec.getLsbD_setWidth, upperCase]
  simp only [BitVec.getLsbD_and, BitVec.getLsbD_not, BitVec.getLsbD_ushiftRight, hk i hi, e5]
  by_cases h7 : 1 + i < 8
  · rw [hk _ h7]
    simp [hi, show i < 32 by omega]
  · have : (64#8).getLsbD (1 + i) = false := BitVec.getLsbD_of_ge _ _ (by omega)
    simp [this, hi, show i < 32 by omega]

theorem setC_char (junk : W) (c old : C) (h : StnChar c) : setC (char2rah junk c) old = capital c := by
  rw [setC, if_neg (rah_ne _ _ h), rah_upper, upper8 c h]

theorem setF_fits {n : Nat} {x : Int} (old : BitVec n) (h : fits n x) : ((setF x old).toNat : Int) = x := by
  obtain ⟨h0, h1⟩ := h
  rw [setF, if_neg (by omega), BitVec.toNat_ofInt]
  have h1' : x < ((2 ^ n : Nat) : Int) := by exact_mod_cast h1
  rw [Int.emod_eq_of_lt h0 h1']
  omega

theorem setF_old {n : Nat} {x : Int} (old : BitVec n) (h : x = -1 ∨ fits n x) :
    ((setF x old).toNat : Int) = orOld x old.toNat := by
  rcases h with rfl | h
  · simp [setF, orOld]
  · rw [setF_fits old h, orOld, if_neg (by have := h.1; omega)]

theorem good_range {d : Int} (h : GoodDate d) : 100 ≤ d ∧ d < 27000000 := by
  obtain ⟨h1, h2, h3 | h3⟩ := h <;> omega

theorem code_eq {d : Int} (h : GoodDate d) : codeDate d =
    full d / 10000 % 100 * 10000 + ((full d / 10000 - 1900) / 100 * 12 + d / 100 % 100) * 100 + d % 100 := by
  obtain ⟨h1, h2⟩ := good_range h
  obtain ⟨-, -, h3⟩ := h
  rw [codeDate, full]
  by_cases hd : d > 999999
  · rw [if_pos hd, if_neg (by omega)]
    dsimp only
    rw [Int.tdiv_eq_ediv_of_nonneg (by omega), Int.tdiv_eq_ediv_of_nonneg (by omega),
      Int.tdiv_eq_ediv_of_nonneg (a := d) (by omega), Int.tmod_eq_emod_of_nonneg (by omega),
      Int.tmod_eq_emod_of_nonneg (by omega), Int.tmod_eq_emod_of_nonneg (by omega)]
  · rw [if_neg hd, if_pos (by omega)]
    omega

/-- The parts of a date: century after 1900, year, month and day. -/
theorem parts {d : Int} (h : GoodDate d) : ∃ c y m j : Int, 0 ≤ c ∧ c ≤ 7 ∧ 0 ≤ y ∧ y ≤ 99 ∧ 1 ≤ m ∧ m ≤ 12 ∧ 0 ≤ j ∧
    j ≤ 99 ∧ full d = (1900 + 100 * c + y) * 10000 + m * 100 + j ∧ codeDate d = y * 10000 + (c * 12 + m) * 100 + j := by
  have hc := code_eq h
  have hr := good_range h
  obtain ⟨h1, h2, h3⟩ := h
  have hfull : full d / 100 % 100 = d / 100 % 100 ∧ full d % 100 = d % 100 ∧ 19000000 ≤ full d ∧ full d < 27000000 := by
    rw [full]; split <;> omega
  refine ⟨(full d / 10000 - 1900) / 100, full d / 10000 % 100, d / 100 % 100, d % 100, ?_, ?_, ?_, ?_, h1, h2, ?_, ?_, ?_, hc⟩
    <;> omega

theorem code_fits {d : Int} (h : GoodDate d) : fits 20 (codeDate d) := by
  obtain ⟨c, y, m, j, h1, h2, h3, h4, h5, h6, h7, h8, -, h10⟩ := parts h
  rw [h10, fits]
  omega

theorem decode_code (e : Bool) {d : Int} (h : GoodDate d) : decodeDate e (codeDate d) = shown e d := by
  obtain ⟨c, y, m, j, h1, h2, h3, h4, h5, h6, h7, h8, h9, h10⟩ := parts h
  rw [h10, shown, h9]
  have hk : 1 ≤ c * 12 + m ∧ c * 12 + m ≤ 96 := by omega
  have e1 : (y * 10000 + (c * 12 + m) * 100 + j) / 10000 % 100 = y := by
    generalize c * 12 + m = k at hk
    omega
  have e2 : (y * 10000 + (c * 12 + m) * 100 + j) / 100 % 100 = c * 12 + m := by
    generalize c * 12 + m = k at hk
    omega
  have e3 : (y * 10000 + (c * 12 + m) * 100 + j) % 100 = j := by omega
  have e4 : (c * 12 + m - 1) / 12 = c := by omega
  have e5 : (c * 12 + m - 1) % 12 = m - 1 := by omega
  rw [decodeDate, Int.tdiv_eq_ediv_of_nonneg (by omega), Int.tdiv_eq_ediv_of_nonneg (by omega),
    Int.tmod_eq_emod_of_nonneg (by omega), Int.tmod_eq_emod_of_nonneg (by omega),
    Int.tmod_eq_emod_of_nonneg (by omega)]
  dsimp only
  rw [e1, e2, e3, Int.tdiv_eq_ediv_of_nonneg (by omega), Int.tmod_eq_emod_of_nonneg (by omega), e4, e5]
  cases e
  · simp only [Bool.false_eq_true, or_false, true_and]
    by_cases hy : c = 0
    · subst hy
      rw [if_neg (by omega), if_pos (by omega)]; omega
    · rw [if_pos (by omega), if_neg (by omega)]; omega
  · simp only [or_true, if_true, Bool.true_eq_false, false_and, if_false]
    omega

theorem code_inj {d d' : Int} (h : GoodDate d) (h' : GoodDate d') : codeDate d = codeDate d' ↔ full d = full d' := by
  constructor
  · intro he
    have := decode_code true h
    rw [he, decode_code true h'] at this
    simpa [shown] using this.symm
  · intro he
    have e1 : ∀ x : Int, 19000000 ≤ full x → full x / 100 % 100 = x / 100 % 100 ∧ full x % 100 = x % 100 := by
      intro x; rw [full]; split <;> omega
    have b : ∀ {x : Int}, GoodDate x → 19000000 ≤ full x := by
      intro x hx
      have := good_range hx
      obtain ⟨_, _, h3⟩ := hx
      rw [full]; split <;> omega
    have x1 := e1 d (b h)
    have x2 := e1 d' (b h')
    rw [code_eq h, code_eq h', he]
    rw [he] at x1
    rw [← x1.1, ← x1.2, ← x2.1, ← x2.2]

theorem time_split {t : Int} (h : GoodTime t) : t.tdiv 100 = t / 100 ∧ t.tmod 100 = t % 100 ∧ fits 6 (t / 100) ∧
    fits 6 (t % 100) := by
  obtain ⟨h0, h1, h2⟩ := h
  refine ⟨Int.tdiv_eq_ediv_of_nonneg h0, Int.tmod_eq_emod_of_nonneg h0, ⟨?_, ?_⟩, ⟨?_, ?_⟩⟩ <;> omega

/-! ## C97: the header comes back -/

theorem forall9 (p : Fin 9 → Prop) : (∀ i, p i) ↔ p 0 ∧ p 1 ∧ p 2 ∧ p 3 ∧ p 4 ∧ p 5 ∧ p 6 ∧ p 7 ∧ p 8 := by
  constructor
  · intro h; exact ⟨h 0, h 1, h 2, h 3, h 4, h 5, h 6, h 7, h 8⟩
  · rintro ⟨h0, h1, h2, h3, h4, h5, h6, h7, h8⟩ ⟨i, hi⟩
    interval_cases i <;> assumption

theorem ofWords_words (k : Prim) : ofWords k.words = k := by
  obtain ⟨sti, flgs, lati, lon, date, dx, idtp, dy, heur, min⟩ := k
  simp only [ofWords, Prim.words, List.getD_cons_zero, List.getD_cons_succ, Prim.mk.injEq]
  have t4 : ∀ {a b c d : Nat} (w : BitVec a) (x : BitVec b) (y : BitVec c) (z : BitVec d),
      (w ++ x ++ y ++ z).extractLsb' (b + c + d) a = w ∧ (w ++ x ++ y ++ z).extractLsb' (c + d) b = x ∧
      (w ++ x ++ y ++ z).extractLsb' d c = y ∧ (w ++ x ++ y ++ z).extractLsb' 0 d = z := by
    intro a b c d w x y z
    refine ⟨?_, ?_, ?_, ?_⟩ <;> apply BitVec.eq_of_getLsbD_eq <;> intro i hi <;>
      simp only [BitVec.getLsbD_extractLsb', BitVec.getLsbD_append] <;> grind
  refine ⟨?_, FstKeys.ext_lo _ _, FstKeys.ext_hi _ _, FstKeys.ext_lo _ _, FstKeys.ext_hi _ _, FstKeys.ext_lo _ _,
    (t4 idtp dy heur min).1, (t4 idtp dy heur min).2.1, (t4 idtp dy heur min).2.2.1, (t4 idtp dy heur min).2.2.2⟩
  have w0 := t4 (sti 0) (sti 1) (sti 2) (sti 3)
  have w1 := t4 (sti 4) (sti 5) (sti 6) (sti 7)
  funext i
  revert i
  rw [forall9]
  exact ⟨w0.1, w0.2.1, w0.2.2.1, w0.2.2.2, w1.1, w1.2.1, w1.2.2.1, w1.2.2.2, FstKeys.ext_hi _ _⟩

/-- **C97.** The header given to `mrbini` is the header that `mrbhdr` gives, with the name in capitals and padded to nine
characters, the date in the form `shown`, and no block. -/
theorem C97_header_partial (e : Bool) (junk : Fin 9 → W) (a : Args) (h : Good a) :
    mrbhdr e (mrbini junk a) =
      ({ a with stnid := (nine a.stnid).map capital, date := shown e a.date }, 0) := by
  obtain ⟨t1, t2, t3, t4⟩ := time_split h.temps
  have ht : a.temps ≠ -1 := by have := h.temps.1; omega
  obtain ⟨temps, flgs, stnid, idtyp, lati, long, dx, dy, elev, drcv, date, oars, run⟩ := a
  simp only [mrbhdr, mrbini, writePrim, writeInfo, keysOf, Prod.mk.injEq, Args.mk.injEq, and_true]
  dsimp only at ht t1 t2 t3 t4
  refine ⟨?_, setF_fits _ h.flgs, ?_, setF_fits _ h.idtyp, setF_fits _ h.lati, setF_fits _ h.long, setF_fits _ h.dx,
    setF_fits _ h.dy, setF_fits _ h.elev, setF_fits _ h.drcv, ?_, setF_fits _ h.oars, setF_fits _ h.run⟩
  · rw [if_neg ht, if_neg ht, t1, t2, setF_fits _ t3, setF_fits _ t4]
    omega
  · rw [nine, List.map_ofFn]
    congr 1
    funext i
    simp only [Bool.false_eq_true, false_and, if_false, Function.comp]
    rw [istnid_eq, setC_char _ _ _ (stn_getD h.stnid _)]
  · rw [setF_fits _ (code_fits h.date), decode_code e h.date]

/-- **C97.** After `mrbupd` the header has the values that were given, and its old ones where -1 was given or where the
name has a star. -/
theorem C97_update (e : Bool) (junk : Fin 9 → W) (a : Args) (r : Rec) (h : GoodUpd a) :
    mrbhdr e (mrbupd junk a r) =
      ({ temps := orOld a.temps (mrbhdr e r).1.temps
         flgs := orOld a.flgs (mrbhdr e r).1.flgs
         stnid := List.zipWith (fun c old => if c = 42#8 then old else capital c) (nine a.stnid) (mrbhdr e r).1.stnid
         idtyp := orOld a.idtyp (mrbhdr e r).1.idtyp
         lati := orOld a.lati (mrbhdr e r).1.lati
         long := orOld a.long (mrbhdr e r).1.long
         dx := orOld a.dx (mrbhdr e r).1.dx
         dy := orOld a.dy (mrbhdr e r).1.dy
         elev := orOld a.elev (mrbhdr e r).1.elev
         drcv := orOld a.drcv (mrbhdr e r).1.drcv
         date := if a.date = -1 then (mrbhdr e r).1.date else shown e a.date
         oars := orOld a.oars (mrbhdr e r).1.oars
         run := orOld a.run (mrbhdr e r).1.run }, (mrbhdr e r).2) := by
  obtain ⟨temps, flgs, stnid, idtyp, lati, long, dx, dy, elev, drcv, date, oars, run⟩ := a
  simp only [mrbhdr, mrbupd, writePrim, writeInfo, keysOf, Prod.mk.injEq, Args.mk.injEq, and_true]
  refine ⟨?_, setF_old _ h.flgs, ?_, setF_old _ h.idtyp, setF_old _ h.lati, setF_old _ h.long, setF_old _ h.dx,
    setF_old _ h.dy, setF_old _ h.elev, setF_old _ h.drcv, ?_, setF_old _ h.oars, setF_old _ h.run⟩
  · rcases h.temps with ht | ht <;> dsimp only at ht
    · subst ht; simp [setF, orOld]
    · obtain ⟨t1, t2, t3, t4⟩ := time_split ht
      have hn : temps ≠ -1 := by have := ht.1; omega
      rw [orOld, if_neg hn, if_neg hn, if_neg hn, t1, t2, setF_fits _ t3, setF_fits _ t4]
      omega
  · rw [nine]
    apply List.ext_getElem (by simp)
    intro i h1 h2
    simp only [List.getElem_ofFn, List.getElem_zipWith, true_and, istnid_eq]
    split
    · simp [setC]
    · rw [setC_char _ _ _ (stn_getD h.stnid _)]
  · rcases h.date with hd | hd <;> dsimp only at hd
    · subst hd
      simp [codeDate, setF]
    · rw [if_neg (by have := good_range hd; omega), setF_fits _ (code_fits hd), decode_code e hd]

/-- **C97.** A report written to a file and read back has the same header, if it has fewer than 65536 blocks. -/
theorem C97_file (e : Bool) (r : Rec) (h : r.nblk < 65536) : mrbhdr e (mrfget (mrfput r)) = mrbhdr e r := by
  simp only [mrfget, mrfput, mrbhdr, ofWords_words]
  rw [BitVec.toNat_ofNat, Nat.mod_eq_of_lt (by omega)]

theorem rah_id : ∀ c : C, rah2char (c.setWidth 32) = c := by decide +kernel

/-- **C97.** `mrfprm` gives for a report of a file what `mrbhdr` gives for the report in memory. -/
theorem C97_parameters (e : Bool) (r : Rec) :
    mrfprm e (mrfput r).1 = ⟨(mrbhdr e r).1.stnid, (mrbhdr e r).1.idtyp, (mrbhdr e r).1.lati, (mrbhdr e r).1.long,
      (mrbhdr e r).1.dx, (mrbhdr e r).1.dy, (mrbhdr e r).1.date, (mrbhdr e r).1.temps, (mrbhdr e r).1.flgs⟩ := by
  simp only [mrfput, mrfprm, mrbhdr, ofWords_words, rah_id]

/-- A report of station `cwAO`, 2026-11-16 at 12:30. -/
def sample : Args :=
  { temps := 1230, flgs := 2048, stnid := [99#8, 119#8, 65#8, 79#8], idtyp := 32, lati := 13500, long := 28750, dx := 0,
    dy := 5, elev := 500, drcv := 31, date := 20261116, oars := 7, run := 5 }

theorem sample_good : Good sample := by
  constructor <;> first | decide | (simp only [sample, fits, GoodTime, GoodDate]; omega)

example : mrbhdr false (mrbini (fun _ => 0xdeadbeef#32) sample) =
    ({ sample with stnid := [67#8, 87#8, 65#8, 79#8, 32#8, 32#8, 32#8, 32#8, 32#8] }, 0) := by decide +kernel

/-- The update of one character of the name and of the time only. -/
example : GoodUpd ⟨45, -1, [42#8, 42#8, 122#8, 42#8, 42#8, 42#8, 42#8, 42#8, 42#8], -1, -1, -1, -1, -1, -1, -1, -1, -1, -1⟩ ∧
    mrbhdr false (mrbupd (fun _ => 7#32)
      ⟨45, -1, [42#8, 42#8, 122#8, 42#8, 42#8, 42#8, 42#8, 42#8, 42#8], -1, -1, -1, -1, -1, -1, -1, -1, -1, -1⟩
      (mrbini (fun _ => 0#32) sample)) =
    ({ sample with temps := 45, stnid := [67#8, 87#8, 90#8, 79#8, 32#8, 32#8, 32#8, 32#8, 32#8] }, 0) := by
  refine ⟨?_, by decide +kernel⟩
  constructor <;> first | decide | exact Or.inl rfl | (right; simp only [GoodTime]; omega)

/-- Dates of the 1900s come back without their century unless the option asks for eight digits. -/
theorem C97_century_witness :
    (mrbhdr false (mrbini (fun _ => 0) { sample with date := 19991231 })).1.date = 991231 ∧
    (mrbhdr true (mrbini (fun _ => 0) { sample with date := 19991231 })).1.date = 19991231 := by decide +kernel

/-- A date before 1900 comes back a century later; from April 2700 on the month runs into the year. -/
theorem C97_dates_witness :
    (mrbhdr true (mrbini (fun _ => 0) { sample with date := 18991231 })).1.date = 19991231 ∧
    (mrbhdr true (mrbini (fun _ => 0) { sample with date := 27000401 })).1.date = 19010001 := by decide +kernel

/-- Values that are too large are cut without a word: an elevation of 8192, a number of blocks of 65536. -/
theorem C97_width_witness :
    (mrbhdr true (mrbini (fun _ => 0) { sample with elev := 8192 })).1.elev = 0 ∧
    (mrbhdr true (mrfget (mrfput { mrbini (fun _ => 0) sample with nblk := 65536 }))).2 = 0 := by decide +kernel

/-! ## C98: what a search finds -/

/-- What `mrfloc` is asked for: -1, or a value that fits. -/
structure GoodQ (q : Query) : Prop where
  stnid : ∀ c ∈ q.stnid, StnChar c
  idtyp : q.idtyp = -1 ∨ fits 8 q.idtyp
  lat : q.lat = -1 ∨ fits 16 q.lat
  lon : q.lon = -1 ∨ fits 16 q.lon
  date : q.date = -1 ∨ GoodDate q.date
  temps : q.temps = -1 ∨ GoodTime q.temps

/-- The report agrees with what was asked, by the name (with stars), type, place, day and hour. -/
structure Agrees (a : Args) (q : Query) : Prop where
  stnid : ∀ i < 9, (nine q.stnid)[i]? = some 42#8 ∨ ((nine q.stnid)[i]?).map capital = ((nine a.stnid)[i]?).map capital
  idtyp : q.idtyp = -1 ∨ a.idtyp = q.idtyp
  lat : q.lat = -1 ∨ a.lati = q.lat
  lon : q.lon = -1 ∨ a.long = q.lon
  date : q.date = -1 ∨ full a.date = full q.date
  hour : q.temps = -1 ∨ a.temps / 100 = q.temps / 100

theorem maskF_iff {n : Nat} (x y : BitVec n) (k : Int) : (x ^^^ y) &&& maskF n k = 0#n ↔ k = -1 ∨ x = y :=
  FstKeys.cond_mask _ _ _

theorem maskC_iff (x y : C) (k : W) : (x ^^^ y) &&& maskC k = 0#8 ↔ k = BitVec.ofInt 32 (-1) ∨ x = y :=
  FstKeys.cond_mask _ _ _

theorem match4 {a b c d : Nat} (w w' wm : BitVec a) (x x' xm : BitVec b) (y y' ym : BitVec c) (z z' zm : BitVec d) :
    ((w ++ x ++ y ++ z) ^^^ (w' ++ x' ++ y' ++ z')) &&& (wm ++ xm ++ ym ++ zm) = 0#(a + b + c + d) ↔
      (((w ^^^ w') &&& wm = 0#a ∧ (x ^^^ x') &&& xm = 0#b) ∧ (y ^^^ y') &&& ym = 0#c) ∧ (z ^^^ z') &&& zm = 0#d := by
  rw [FstKeys.match2, FstKeys.match2, FstKeys.match2]

/-- The comparison of words says what the fields say. -/
theorem fields_iff (k t : Prim) (p : PKeys) :
    wordsMatch k.words t.words (maskPrim p).words = true ↔
      (∀ i, p.sti i = BitVec.ofInt 32 (-1) ∨ k.sti i = t.sti i) ∧ (p.flgs = -1 ∨ k.flgs = t.flgs) ∧
      (p.lati = -1 ∨ k.lati = t.lati) ∧ (p.lon = -1 ∨ k.lon = t.lon) ∧ (p.date = -1 ∨ k.date = t.date) ∧
      (p.dx = -1 ∨ k.dx = t.dx) ∧ (p.idtp = -1 ∨ k.idtp = t.idtp) ∧ (p.dy = -1 ∨ k.dy = t.dy) ∧
      (p.heur = -1 ∨ k.heur = t.heur) ∧ (p.min = -1 ∨ k.min = t.min) := by
  rw [forall9]
  simp only [Prim.words, wordsMatch, Bool.and_eq_true, decide_eq_true_eq, maskPrim]
  rw [match4, match4, match4, FstKeys.match2, FstKeys.match2, FstKeys.match2]
  simp only [maskF_iff, maskC_iff, and_true, and_assoc]

theorem ofInt_inj {n : Nat} {x y : Int} (hx : fits n x) (hy : fits n y) (o o' : BitVec n) :
    setF x o = setF y o' ↔ x = y := by
  constructor
  · intro h
    rw [← setF_fits o hx, ← setF_fits o' hy, h]
  · rintro rfl
    have := hx.1
    rw [setF, setF, if_neg (by omega), if_neg (by omega)]

theorem key_iff {n : Nat} {x y : Int} (hx : fits n x) (hy : y = -1 ∨ fits n y) (o o' : BitVec n) :
    (y = -1 ∨ setF x o = setF y o') ↔ (y = -1 ∨ x = y) := by
  rcases hy with rfl | hy
  · simp
  · rw [ofInt_inj hx hy]

/-- **C98.** The words of a report agree with those searched for exactly if the report agrees with what is asked. -/
theorem C98_report_partial (junk junk' : Fin 9 → W) (old : Prim) (a : Args) (q : Query) (ha : Good a) (hq : GoodQ q) :
    wordsMatch (mrbini junk a).prim.words (locTarget junk' old q).1 (locTarget junk' old q).2 = true ↔ Agrees a q := by
  obtain ⟨t1, t2, t3, t4⟩ := time_split ha.temps
  have ht : a.temps ≠ -1 := by have := ha.temps.1; omega
  rw [locTarget, fields_iff]
  simp only [mrbini, writePrim, keysOf, locKeys, true_or, true_and, and_true]
  rw [key_iff ha.lati hq.lat, key_iff ha.long hq.lon, key_iff ha.idtyp hq.idtyp]
  rw [if_neg ht, t1]
  have hd : (codeDate q.date = -1 ∨ setF (codeDate a.date) Prim.zero.date = setF (codeDate q.date) old.date) ↔
      (q.date = -1 ∨ full a.date = full q.date) := by
    rcases hq.date with h | h
    · simp [h, codeDate]
    · have h1 := code_fits h
      have h2 := good_range h
      have n1 : codeDate q.date ≠ -1 := by have := h1.1; omega
      have n2 : q.date ≠ -1 := by omega
      simp only [n1, n2, false_or]
      rw [ofInt_inj (code_fits ha.date) h1, code_inj ha.date h]
  have hh : ((if q.temps = -1 then -1 else q.temps.tdiv 100) = -1 ∨ setF (a.temps / 100) Prim.zero.heur =
      setF (if q.temps = -1 then -1 else q.temps.tdiv 100) old.heur) ↔ (q.temps = -1 ∨ a.temps / 100 = q.temps / 100) := by
    rcases hq.temps with h | h
    · simp [h]
    · obtain ⟨u1, u2, u3, u4⟩ := time_split h
      have n1 : q.temps ≠ -1 := by have := h.1; omega
      have n2 : q.temps / 100 ≠ -1 := by have := u3.1; omega
      rw [if_neg n1, u1]
      simp only [n1, n2, false_or]
      rw [ofInt_inj t3 u3]
  rw [hd, hh]
  have hs : (∀ i : Fin 9, (if istnid q.stnid i = 42#8 then BitVec.ofInt 32 (-1) else char2rah (junk' i) (istnid q.stnid i)) =
      BitVec.ofInt 32 (-1) ∨
      setC (if false = true ∧ istnid a.stnid i = 42#8 then BitVec.ofInt 32 (-1) else char2rah (junk i) (istnid a.stnid i))
        (Prim.zero.sti i) =
      setC (if istnid q.stnid i = 42#8 then BitVec.ofInt 32 (-1) else char2rah (junk' i) (istnid q.stnid i)) (old.sti i)) ↔
      ∀ i < 9, (nine q.stnid)[i]? = some 42#8 ∨ ((nine q.stnid)[i]?).map capital = ((nine a.stnid)[i]?).map capital := by
    have hn : ∀ (s : List C) (i : Nat), i < 9 → (nine s)[i]? = some (s.getD i 32#8) := by
      intro s i hi
      rw [nine, List.getElem?_ofFn, dif_pos hi]
    have hp : ∀ i : Fin 9, ((if istnid q.stnid i = 42#8 then BitVec.ofInt 32 (-1) else
        char2rah (junk' i) (istnid q.stnid i)) = BitVec.ofInt 32 (-1) ∨
        setC (if false = true ∧ istnid a.stnid i = 42#8 then BitVec.ofInt 32 (-1) else char2rah (junk i) (istnid a.stnid i))
          (Prim.zero.sti i) =
        setC (if istnid q.stnid i = 42#8 then BitVec.ofInt 32 (-1) else char2rah (junk' i) (istnid q.stnid i)) (old.sti i)) ↔
        ((nine q.stnid)[i.1]? = some 42#8 ∨
          ((nine q.stnid)[i.1]?).map capital = ((nine a.stnid)[i.1]?).map capital) := by
      intro i
      rw [hn _ _ i.2, hn _ _ i.2, istnid_eq, istnid_eq]
      simp only [Bool.false_eq_true, false_and, if_false, Option.map_some, Option.some.injEq]
      by_cases h : q.stnid.getD i 32#8 = 42#8
      · simp only [h, if_true, true_or]
      · simp only [h, if_false, false_or]
        rw [setC_char _ _ _ (stn_getD ha.stnid _), setC_char _ _ _ (stn_getD hq.stnid _)]
        simp only [rah_ne _ _ (stn_getD hq.stnid _), false_or]
        exact eq_comm
    constructor
    · intro h i hi
      exact (hp ⟨i, hi⟩).1 (h ⟨i, hi⟩)
    · intro h i
      exact (hp i).2 (h i.1 i.2)
  rw [hs]
  constructor
  · rintro ⟨h1, h2, h3, h4, h5, h6⟩
    exact ⟨h1, h5, h2, h3, h4, h6⟩
  · rintro ⟨h1, h2, h3, h4, h5, h6⟩
    exact ⟨h1, h3, h4, h5, h2, h6⟩

/-- **C98.** Repeated calls of `mrfloc` on a file give the reports in the order of the file, each once, and a report with the
header `a` is among them exactly if it agrees with what is asked. -/
theorem C98_sweep_partial {lprm : Nat} {ops : List Xdf.Op} {m : Xdf.Mem} {d : Xdf.Disk} {cs : List Xdf.Code}
    (h : Xdf.History lprm ops m d cs) (junk : Fin 9 → W) (old : Prim) (t0 t1 : W) (q : Query) (hq : GoodQ q)
    {fuel n : Nat} (hf : m.pages.length ≤ fuel) (hn : 256 * m.pages.length < n) :
    ∃ R, Xdf.sweep (Xdf.alone m) 0
        ⟨t0 :: t1 :: (locTarget junk old q).1, 0#32 :: 0#32 :: (locTarget junk old q).2, fun _ _ => true⟩ fuel n =
        some (R, .notFound) ∧
      (R.Pairwise fun a b => a.1 < b.1 ∨ (a.1 = b.1 ∧ a.2 < b.2)) ∧
      (∀ x ∈ R, Xdf.HasSlot m x.1 x.2) ∧
      ∀ p r a junk' ty data, Xdf.HasSlot m p r → Good a →
        Xdf.look m d p r = some (ty, (mrfput (mrbini junk' a)).1, data) → ((p, r) ∈ R ↔ Agrees a q) := by
  obtain ⟨R, h1, h2, h3, -⟩ := Xdf.C19_sweep h t0 t1 (locTarget junk old q).1 (locTarget junk old q).2 (fun _ _ => true)
    hf hn
  refine ⟨R, h1, h2, fun x hx => ((h3 _ _).1 hx).1, ?_⟩
  intro p r a junk' ty data hs ha hl
  rw [h3, Xdf.Selected]
  constructor
  · rintro ⟨-, ⟨ty', keys', data', hl', hm⟩, -⟩
    rw [hl] at hl'
    obtain ⟨-, rfl, -⟩ := by simpa using hl'
    exact (C98_report_partial junk' junk old a q ha hq).1 hm
  · intro hg
    exact ⟨hs, ⟨ty, _, data, hl, (C98_report_partial junk' junk old a q ha hq).2 hg⟩, rfl⟩

/-- A search for stations `CW*****` or `cw…` of that day at that hour, and one for another hour. -/
def ask (t : Int) : Query :=
  { stnid := [99#8, 119#8, 42#8, 42#8, 42#8, 42#8, 42#8, 42#8, 42#8], idtyp := -1, lat := 13500, lon := -1, date := 20261116,
    temps := t }

theorem ask_good (t : Int) (ht : GoodTime t) : GoodQ (ask t) := by
  constructor
  · simp only [ask]; decide
  · exact Or.inl rfl
  · right; simp only [ask, fits]; omega
  · exact Or.inl rfl
  · right; simp only [ask, GoodDate]; omega
  · exact Or.inr ht

example (junk junk' : Fin 9 → W) (old : Prim) :
    wordsMatch (mrbini junk sample).prim.words (locTarget junk' old (ask 1200)).1 (locTarget junk' old (ask 1200)).2 = true ∧
    wordsMatch (mrbini junk sample).prim.words (locTarget junk' old (ask 1300)).1 (locTarget junk' old (ask 1300)).2 ≠
      true := by
  constructor
  · rw [C98_report_partial _ _ _ _ _ sample_good (ask_good _ (by simp only [GoodTime]; omega))]
    exact ⟨by decide +kernel, by decide, by decide, by decide, by decide, by decide⟩
  · rw [Ne, C98_report_partial _ _ _ _ _ sample_good (ask_good _ (by simp only [GoodTime]; omega))]
    intro h
    exact absurd h.hour (by decide)

/-- The minutes are not compared: a search for 12:00 finds the report of 12:30. -/
theorem C98_minutes_witness (junk junk' : Fin 9 → W) (old : Prim) :
    wordsMatch (mrbini junk sample).prim.words (locTarget junk' old (ask 1200)).1 (locTarget junk' old (ask 1200)).2 = true ∧
    (mrbhdr false (mrbini junk sample)).1.temps ≠ (ask 1200).temps := by
  constructor
  · rw [C98_report_partial _ _ _ _ _ sample_good (ask_good _ (by simp only [GoodTime]; omega))]
    exact ⟨by decide +kernel, by decide, by decide, by decide, by decide, by decide⟩
  · rw [C97_header_partial _ _ _ sample_good]
    decide

/-- A single star is not a wild name: the other eight characters are compared with blanks. -/
theorem C98_star_witness (junk junk' : Fin 9 → W) (old : Prim) :
    wordsMatch (mrbini junk sample).prim.words (locTarget junk' old ⟨[42#8], -1, -1, -1, -1, -1⟩).1
      (locTarget junk' old ⟨[42#8], -1, -1, -1, -1, -1⟩).2 ≠ true := by
  rw [Ne, C98_report_partial _ _ _ _ _ sample_good
    ⟨by decide, Or.inl rfl, Or.inl rfl, Or.inl rfl, Or.inl rfl, Or.inl rfl⟩]
  intro h
  exact absurd (h.stnid 1 (by omega)) (by decide +kernel)

/-- A file with the report of 12:30 and one of the day after. -/
def twoReports : Option (Xdf.Mem × Xdf.Disk × List Xdf.Code) :=
  let junk : List Xdf.Entry := List.replicate 256 ⟨0, 0, 0, List.replicate 6 0#32⟩
  let report (d : Int) : List W :=
    0x01000000#32 :: 0#32 :: ((mrfput (mrbini (fun _ => 0) { sample with date := d })).1 ++ [0#32, 0#32])
  (Xdf.create 0x42525030#32 18#16 4 5#32 [1#32, 2#32] 7#32 junk).bind fun x =>
    Xdf.run x.1 (Xdf.apply [] x.2.1) [.append (report 20261116) 7#32 junk, .append (report 20261117) 7#32 junk]

/-- The records of that file are those of the two reports, and the search finds the first one. -/
example : twoReports.any (fun x =>
    Xdf.look x.1 x.2.1 0 0 == some (1, (mrfput (mrbini (fun _ => 5) sample)).1,
      (mrfput (mrbini (fun _ => 5) sample)).1 ++ [0#32, 0#32]) &&
    Xdf.sweep (Xdf.alone x.1) 0 ⟨0#32 :: 0#32 :: (locTarget (fun _ => 3) Prim.zero (ask 1200)).1,
      0#32 :: 0#32 :: (locTarget (fun _ => 3) Prim.zero (ask 1200)).2, fun _ _ => true⟩ 1 257 ==
      some ([(0, 0)], .notFound)) = true := by decide +kernel

end Verif.BurpHdr
