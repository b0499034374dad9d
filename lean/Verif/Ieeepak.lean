import Verif.BitSlicer
import Verif.CompactIntegerLemmas

/-! # Model of `ieeepak` (`src/primitives/ieeepak.F90`), 32-bit build

The shift macros of `ftnmacros.hf` are the Fortran `ishft`: logical, and zero for a count of 32.
Reals are the 32-bit patterns held in the integer array.  Widths 33..64 (`MOVE6432` and the `stop`)
are outside the model (`none`). -/

namespace Verif.Ieeepak

/-- lines 57-63: number of bits per item. -/
def nbitsOf (npak : Int) : Int :=
  if npak > 1 then max 1 (32 / npak) else if npak < 0 then min 64 (-npak) else 32

/-- `RMASK(x)` -/
def rmask (x : Nat) : W := BitVec.allOnes 32 >>> (32 - x)

/-- Registers of the packing loop (lines 100-102). -/
structure Pk where
  mem : List W
  indx : Nat
  itemp : W
  left : Nat

/-- One pass of lines 103-114.  The array is indexed from 0 here: `indx` is the number of words stored. -/
def packStep (nbits : Nat) (x : W) (s : Pk) : Option Pk :=
  let item := (x >>> (32 - nbits)) &&& rmask nbits
  if nbits ≤ s.left then
    some { s with itemp := (s.itemp <<< nbits) ||| item, left := s.left - nbits }
  else do
    let m ← store s.mem s.indx ((s.itemp <<< s.left) ||| (item >>> (nbits - s.left)))
    some { mem := m, indx := s.indx + 1, itemp := item &&& rmask (nbits - s.left), left := s.left + 32 - nbits }

def packLoop (nbits : Nat) : List W → Pk → Option Pk
  | [], s => some s
  | x :: xs, s => (packStep nbits x s).bind (packLoop nbits xs)

/-- lines 85-120, packing (`mode == 1`) of the field `xs` (`NINJ` items) into `ipk`. -/
def pack (xs ipk : List W) (npak : Int) : Option (List W) :=
  let nbits := nbitsOf npak
  if nbits > 32 then none
  else if nbits = 32 then
    if xs.length ≤ ipk.length then some (xs ++ ipk.drop xs.length) else none
  else do
    let s ← packLoop nbits.toNat xs { mem := ipk, indx := 0, itemp := 0, left := 32 }
    if s.left < 32 then
      let w ← s.mem[s.indx]?
      store s.mem s.indx ((s.itemp <<< s.left) ||| (w &&& rmask s.left))
    else some s.mem

/-- Registers of the unpacking loop. -/
structure Un where
  fld : List W
  indx : Nat
  itemp : W
  inext : W
  left : Nat

/-- One pass of lines 147-163 for item `i`; `none` when the field is accessed out of bounds. -/
def unStep (nbits : Nat) (i : Nat) (s : Un) : Option Un := do
  let s ← (
    if nbits ≤ s.left then do
      let f ← store s.fld i ((s.itemp >>> (32 - nbits)) &&& rmask nbits)
      some { s with fld := f, itemp := s.itemp <<< nbits, left := s.left - nbits }
    else do
      let rleft := rmask (nbits - s.left)
      let f ← store s.fld i ((((s.itemp >>> (32 - nbits)) &&& rmask nbits) &&& ~~~rleft)
        ||| ((s.inext >>> (32 - (nbits - s.left))) &&& rleft))
      let nx ← f[s.indx + 1]?
      some { fld := f, indx := s.indx + 1, itemp := s.inext <<< (nbits - s.left), inext := nx,
             left := s.left + 32 - nbits } : Option Un)
  let v ← s.fld[i]?
  let f ← store s.fld i (v <<< (32 - nbits))
  some { s with fld := f }

def unLoop (nbits : Nat) : Nat → Nat → Un → Option Un
  | 0, _, s => some s
  | n+1, i, s => (unStep nbits i s).bind (unLoop nbits n (i + 1))

/-- lines 139-141: `DO I = NWR, 2, -1; IFLD(I-NWR+NINJ-1) = IPK(I)`; here `I = k+1` with `k` words left to move. -/
def moveUp (ipk : List W) (nwr ninj : Nat) : Nat → List W → Option (List W)
  | 0, f => some f
  | k+1, f => do
    let w ← ipk[k + 1]?
    let f ← store f (k + 1 + ninj - nwr) w
    moveUp ipk nwr ninj k f

/-- lines 122-164, unpacking (`mode == 2`) of `ninj >= 1` items. -/
def unpack (fld ipk : List W) (ninj : Nat) (npak : Int) : Option (List W) :=
  let nbits := nbitsOf npak
  if nbits > 32 ∨ ninj = 0 then none
  else if nbits = 32 then
    if ninj ≤ ipk.length ∧ ninj ≤ fld.length then some (ipk.take ninj ++ fld.drop ninj) else none
  else do
    let nwr := (ninj * nbits.toNat + 31) / 32
    let isave ← ipk[0]?
    let f ← moveUp ipk nwr ninj (nwr - 1) fld
    let indx := ninj - nwr + 1
    let inext ← f[indx]?
    let s ← unLoop nbits.toNat ninj 0 { fld := f, indx := indx, itemp := isave, inext := inext, left := 32 }
    some s.fld

/-! ## Lemmas -/

theorem rmask_bit {x : Nat} (hx : x ≤ 32) (i : Nat) : (rmask x).getLsbD i = decide (i < x) := by
  rw [rmask, BitVec.getLsbD_ushiftRight, BitVec.getLsbD_allOnes]
  by_cases h : i < x
  · simp [h]; omega
  · simp [h]; omega

/-- The leading `nb` bits of a word, right-justified. -/
def topBits (nb : Nat) (x : W) : W := x >>> (32 - nb)

theorem item_eq (x : W) {nb : Nat} (h : nb ≤ 32) : (x >>> (32 - nb)) &&& rmask nb = x >>> (32 - nb) := by
  apply BitVec.eq_of_getLsbD_eq
  intro i hi
  rw [BitVec.getLsbD_and, rmask_bit h, BitVec.getLsbD_ushiftRight]
  by_cases c : i < nb
  · simp [c]
  · rw [BitVec.getLsbD_of_ge _ _ (by omega)]; simp

theorem item_lt (x : W) {nb : Nat} (h : nb ≤ 32) : (x >>> (32 - nb)).toNat < 2 ^ nb := by
  rw [BitVec.toNat_ushiftRight]; exact BitSlicer.shiftRight_lt x h

/-- The packing registers seen as a token writer. -/
def Pk.w (s : Pk) : Writer := { mem := s.mem, ptr := s.indx, last := s.itemp, space := s.left }

theorem packStep_spec {nb : Nat} {x : W} {s : Pk} (wf : s.w.WF) (h1 : 1 ≤ nb) (h31 : nb ≤ 31)
    (room : s.left < nb → s.indx < s.mem.length) :
    ∃ s', packStep nb x s = some s' ∧ s'.w.WF ∧ s'.w.bits = s.w.bits ++ toBits nb (x >>> (32 - nb)).toNat ∧
      s'.w.pos = s.w.pos + nb ∧ s'.mem.length = s.mem.length ∧ ∀ j, s'.indx ≤ j → s'.mem[j]? = s.mem[j]? := by
  obtain ⟨w, e, wf', hb, hp, hl, ht, -, -⟩ := stuff_spec (tok := x >>> (32 - nb)) (bits := nb) wf (by omega)
    (item_lt x (by omega)) (by omega) room
  unfold packStep
  simp only [item_eq x (show nb ≤ 32 by omega)]
  unfold stuff at e
  by_cases c : nb ≤ s.left
  · have c' : nb ≤ s.w.space := c
    rw [if_pos c', if_pos (by omega)] at e
    have e := Option.some.inj e
    rw [if_pos c]
    refine ⟨_, rfl, ?_⟩
    subst e
    exact ⟨wf', hb, hp, hl, ht⟩
  · have c' : ¬ nb ≤ s.w.space := c
    have hsl : s.w.space = s.left := rfl
    rw [if_neg c'] at e
    simp only at e
    rw [if_pos (by omega)] at e
    rw [if_neg c]
    have hpl : s.indx < s.mem.length := room (by omega)
    have hstore : ∀ v, store s.mem s.indx v = some (s.mem.set s.indx v) := by intro v; simp [store, hpl]
    have hstore' : ∀ v, store s.w.mem s.w.ptr v = some (s.mem.set s.indx v) := hstore
    rw [hstore'] at e
    have e := Option.some.inj e
    simp only [Option.bind_eq_bind, hstore, Option.bind_some]
    refine ⟨_, rfl, ?_⟩
    subst e
    refine ⟨⟨?_, wf'.2⟩, ?_, ?_, hl, ht⟩
    · simp only [Pk.w]; omega
    · rw [← hb]
      simp only [Writer.bits, Pk.w]
      congr 1
      rw [show 32 - (s.left + 32 - nb) = nb - s.left by omega, show 32 - (32 - (nb - s.left)) = nb - s.left by omega]
      apply toBits_ext
      intro i hi
      rw [BitVec.testBit_toNat, BitVec.testBit_toNat, BitVec.getLsbD_and, BitVec.getLsbD_and, rmask_bit (by omega)]
      have : (-1#32 : W) = BitVec.allOnes 32 := by decide
      rw [this, BitVec.getLsbD_allOnes]
      simp [hi]; omega
    · rw [← hp]
      simp only [Writer.pos, Pk.w]
      omega

theorem packLoop_spec {nb : Nat} (h1 : 1 ≤ nb) (h31 : nb ≤ 31) (xs : List W) (s : Pk) (wf : s.w.WF)
    (room : s.w.pos + xs.length * nb ≤ 32 * s.mem.length) :
    ∃ s', packLoop nb xs s = some s' ∧ s'.w.WF ∧ s'.w.bits = s.w.bits ++ tokBits nb (xs.map (topBits nb)) ∧
      s'.w.pos = s.w.pos + xs.length * nb ∧ s'.mem.length = s.mem.length ∧ s.indx ≤ s'.indx ∧
      ∀ j, s'.indx ≤ j → s'.mem[j]? = s.mem[j]? := by
  induction xs generalizing s with
  | nil => exact ⟨s, rfl, wf, by simp, by simp, rfl, Nat.le_refl _, fun _ _ => rfl⟩
  | cons x xs ih =>
    simp only [List.length_cons, Nat.add_mul, Nat.one_mul] at room
    obtain ⟨s1, e1, wf1, b1, p1, l1, t1⟩ := packStep_spec (x := x) wf h1 h31 (by
      intro h
      have := wf.1
      simp only [Writer.pos, Pk.w] at room this
      omega)
    have q1 : s.indx ≤ s1.indx := by
      have hp := p1
      have w1 := wf.1
      have w2 := wf1.1
      simp only [Writer.pos, Pk.w] at hp w1 w2
      omega
    obtain ⟨s2, e2, wf2, b2, p2, l2, q2, t2⟩ := ih s1 wf1 (by rw [p1, l1]; omega)
    refine ⟨s2, ?_, wf2, ?_, ?_, by rw [l2, l1], by omega, ?_⟩
    · simp [packLoop, e1, e2]
    · rw [b2, b1]; simp [topBits]
    · rw [p2, p1]; simp only [List.length_cons, Nat.add_mul, Nat.one_mul]; omega
    · intro j hj; rw [t2 j hj]; exact t1 j (by omega)

/-- The unread bits. -/
def Un.bits (s : Un) : List Bool :=
  toBits s.left (s.itemp.toNat >>> (32 - s.left)) ++ (toBits 32 s.inext.toNat ++ memBits (s.fld.drop (s.indx + 1)))

theorem unStep_spec {nb i : Nat} {s : Un} (h1 : 1 ≤ nb) (h31 : nb ≤ 31) (hl : s.left ≤ 32) (hi : i < s.fld.length)
    (hx : i ≤ s.indx) (room : s.left < nb → s.indx + 1 < s.fld.length) :
    ∃ (s' : Un) (t : W), unStep nb i s = some s' ∧ s'.left ≤ 32 ∧ t.toNat < 2 ^ nb ∧ s.bits = toBits nb t.toNat ++ s'.bits ∧
      s'.fld = s.fld.set i (t <<< (32 - nb)) := by
  have hst : ∀ (f : List W) (v : W), f.length = s.fld.length → store f i v = some (f.set i v) := by
    intro f v hf; simp [store, hf, hi]
  unfold unStep
  by_cases c : nb ≤ s.left
  · rw [if_pos c]
    simp only [Option.bind_eq_bind, hst s.fld _ rfl, Option.bind_some, List.getElem?_set_self hi, List.length_set]
    rw [hst _ _ (by simp)]
    simp only [Option.bind_some, item_eq s.itemp (show nb ≤ 32 by omega), List.set_set]
    refine ⟨_, s.itemp >>> (32 - nb), rfl, by simp; omega, item_lt _ (by omega), ?_, rfl⟩
    simp only [Un.bits]
    rw [BitSlicer.getBits_take s.itemp hl c, List.append_assoc, BitVec.toNat_ushiftRight,
      List.drop_set_of_lt (by omega)]
  · rw [if_neg c]
    have hr : s.indx + 1 < s.fld.length := room (by omega)
    have hne : (s.fld.set i ((((s.itemp >>> (32 - nb)) &&& rmask nb) &&& ~~~(rmask (nb - s.left)))
        ||| ((s.inext >>> (32 - (nb - s.left))) &&& rmask (nb - s.left))))[s.indx + 1]? = s.fld[s.indx + 1]? := by
      rw [List.getElem?_set_ne (by omega)]
    simp only [Option.bind_eq_bind, hst s.fld _ rfl, Option.bind_some, hne,
      List.getElem?_eq_getElem hr, List.getElem?_set_self hi]
    rw [hst _ _ (by simp)]
    simp only [Option.bind_some, item_eq s.itemp (show nb ≤ 32 by omega),
      item_eq s.inext (show nb - s.left ≤ 32 by omega), List.set_set]
    generalize ht : (s.itemp >>> (32 - nb)) &&& ~~~(rmask (nb - s.left)) ||| s.inext >>> (32 - (nb - s.left)) = t
    have htb : ∀ i, t.getLsbD i = if i < nb - s.left then s.inext.getLsbD (32 - (nb - s.left) + i)
        else s.itemp.getLsbD (32 - nb + i) := by
      intro i
      rw [← ht, BitVec.getLsbD_or, BitVec.getLsbD_and, BitVec.getLsbD_not, rmask_bit (by omega),
        BitVec.getLsbD_ushiftRight, BitVec.getLsbD_ushiftRight]
      by_cases ci : i < nb - s.left
      · simp [ci]
      · rw [BitVec.getLsbD_of_ge s.inext _ (by omega)]
        by_cases ci2 : i < 32
        · simp [ci, ci2]
        · rw [BitVec.getLsbD_of_ge s.itemp _ (by omega)]; simp [ci]
    refine ⟨_, t, rfl, by simp; omega, ?_, ?_, rfl⟩
    · apply Nat.lt_pow_two_of_testBit
      intro i hi
      rw [BitVec.testBit_toNat, htb, if_neg (by omega), BitVec.getLsbD_of_ge _ _ (by omega)]
    · simp only [Un.bits]
      have h32 : toBits 32 s.inext.toNat = toBits 32 (s.inext.toNat >>> (32 - 32)) := by simp
      rw [h32, BitSlicer.getBits_take s.inext (l := 32) (c := nb - s.left) (by omega) (by omega)]
      rw [drop_eq_cons (List.getElem?_eq_getElem hr), memBits_cons, List.drop_set_of_lt (by omega)]
      rw [show s.left + 32 - nb = 32 - (nb - s.left) by omega]
      rw [show s.indx + 1 + 1 = s.indx + 2 by omega]
      simp only [← List.append_assoc]
      congr 3
      conv => rhs; rw [show nb = s.left + (nb - s.left) by omega, toBits_append]
      congr 1
      · apply toBits_ext
        intro j hj
        rw [Nat.testBit_shiftRight, Nat.testBit_shiftRight, BitVec.testBit_toNat, BitVec.testBit_toNat, htb,
          if_neg (by omega)]
        congr 1; omega
      · apply toBits_ext
        intro j hj
        rw [Nat.testBit_shiftRight, BitVec.testBit_toNat, BitVec.testBit_toNat, htb, if_pos hj]

theorem unLoop_spec {nb N : Nat} (h1 : 1 ≤ nb) (h31 : nb ≤ 31) : ∀ (ts : List W) (i : Nat) (s : Un) (rest : List Bool) (pad : Nat),
    s.left ≤ 32 → i + ts.length = N → N < s.fld.length → (∀ t ∈ ts, t.toNat < 2 ^ nb) →
    s.bits = tokBits nb ts ++ rest → rest.length = 32 * (s.fld.length - N) + pad → pad ≤ 31 → s.indx < s.fld.length →
    ∃ s', unLoop nb ts.length i s = some s' ∧ s'.fld.length = s.fld.length ∧
      (∀ j (h : j < ts.length), s'.fld[i + j]? = some (ts[j] <<< (32 - nb))) ∧
      ∀ p, p < i ∨ N ≤ p → s'.fld[p]? = s.fld[p]? := by
  intro ts
  induction ts with
  | nil => intro i s rest pad _ _ _ _ _ _ _ _; exact ⟨s, rfl, rfl, by simp, fun _ _ => rfl⟩
  | cons t ts ih =>
    intro i s rest pad hl hN hlen hts hb hrest hpad hix
    simp only [List.length_cons] at hN
    have hbl := congrArg List.length hb
    simp only [Un.bits, List.length_append, toBits_length, memBits_length, List.length_drop, tokBits_length,
      List.length_cons, hrest, Nat.add_mul, Nat.one_mul] at hbl
    have hmul : ts.length * nb ≤ ts.length * 31 := Nat.mul_le_mul_left _ h31
    obtain ⟨s', t', e, hl', ht', hb', hf'⟩ := unStep_spec (nb := nb) (i := i) (s := s) h1 h31 hl (by omega) (by omega) (by omega)
    rw [hb, tokBits_cons, List.append_assoc] at hb'
    have hinj := List.append_inj hb' (by simp)
    have htt : t = t' := BitVec.eq_of_toNat_eq (toBits_inj (hts t (by simp)) ht' hinj.1)
    subst htt
    have hix' : s'.indx < s'.fld.length := by
      unfold unStep at e
      by_cases c : nb ≤ s.left
      · rw [if_pos c] at e
        simp only [Option.bind_eq_bind, Option.bind_eq_some_iff, Option.some.injEq] at e
        obtain ⟨_, ⟨_, hs1, rfl⟩, _, _, _, hs2, rfl⟩ := e
        rw [(store_eq hs2).2]; simp only [List.length_set]
        rw [(store_eq hs1).2]; simpa using hix
      · rw [if_neg c] at e
        simp only [Option.bind_eq_bind, Option.bind_eq_some_iff, Option.some.injEq] at e
        obtain ⟨_, ⟨_, hs1, _, hg, rfl⟩, _, _, _, hs2, rfl⟩ := e
        rw [(store_eq hs2).2]; simp only [List.length_set]
        obtain ⟨hh, -⟩ := List.getElem?_eq_some_iff.1 hg
        exact hh
    obtain ⟨s2, e2, l2, v2, o2⟩ := ih (i + 1) s' rest pad hl' (by omega) (by rw [hf']; simpa using hlen)
      (fun t ht => hts t (by simp [ht])) hinj.2.symm (by rw [hf']; simpa using hrest) hpad hix'
    refine ⟨s2, by simp [unLoop, e, e2], by rw [l2, hf']; simp, ?_, ?_⟩
    · intro j hj
      cases j with
      | zero =>
        rw [Nat.add_zero, o2 i (Or.inl (by omega)), hf', List.getElem?_set_self (by omega)]; rfl
      | succ j =>
        have := v2 j (by simpa using hj)
        rw [show i + 1 + j = i + (j + 1) by omega] at this
        simpa using this
    · intro p hp
      rw [o2 p (by omega), hf', List.getElem?_set_ne (by omega)]

theorem moveUp_spec {ipk : List W} {nwr ninj : Nat} : ∀ (k : Nat) (f : List W), k + 1 ≤ nwr → nwr ≤ ipk.length → nwr ≤ ninj →
    ninj ≤ f.length →
    ∃ f', moveUp ipk nwr ninj k f = some f' ∧ f'.length = f.length ∧
      (∀ j, j < k → f'[j + 1 + ninj - nwr]? = ipk[j + 1]?) ∧
      ∀ p, p ≥ k + 1 + ninj - nwr → f'[p]? = f[p]? := by
  intro k
  induction k with
  | zero => intro f _ _ _ _; exact ⟨f, rfl, rfl, by omega, fun _ _ => rfl⟩
  | succ k ih =>
    intro f h1 h2 h3 h4
    have hd : k + 1 + ninj - nwr < f.length := by omega
    obtain ⟨f', e, l, v, o⟩ := ih (f.set (k + 1 + ninj - nwr) ipk[k + 1]) (by omega) h2 h3 (by simpa using h4)
    refine ⟨f', ?_, by simpa using l, ?_, ?_⟩
    · simp [moveUp, List.getElem?_eq_getElem (show k + 1 < ipk.length by omega), store, hd, e]
    · intro j hj
      rcases Nat.lt_or_eq_of_le (Nat.le_of_lt_succ hj) with h | h
      · exact v j h
      · subst h
        rw [o _ (by omega), List.getElem?_set_self hd, List.getElem?_eq_getElem (by omega)]
    · intro p hp
      rw [o p (by omega), List.getElem?_set_ne (by omega)]

end Verif.Ieeepak
