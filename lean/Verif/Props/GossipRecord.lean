import Verif.Gossip
import Mathlib.Tactic.IntervalCases

/-!
# C80, C81: the exchange of a record between two processes

The theorems quantify over every interleaving of the two processes and, since the model moves
one byte at a time, over every way the kernel cuts the streams.
-/

namespace Verif.Gossip

/-! ## Interleavings do not matter -/

/-- Two different steps from the same configuration commute. -/
theorem step_diamond {α β : Type} {c d e : Cfg α β} (h1 : Step c d) (h2 : Step c e) :
    d = e ∨ ∃ f, Step d f ∧ Step e f := by
  cases h1 <;> cases h2 <;> first
    | exact Or.inl rfl
    | exact Or.inr ⟨_, Step.bPut .., Step.aPut ..⟩
    | exact Or.inr ⟨_, Step.bGet .., Step.aPut ..⟩
    | exact Or.inr ⟨_, Step.bPut .., Step.aGet ..⟩
    | exact Or.inr ⟨_, Step.bGet .., Step.aGet ..⟩
    | exact Or.inr ⟨_, Step.aPut .., Step.bPut ..⟩
    | exact Or.inr ⟨_, Step.aGet .., Step.bPut ..⟩
    | exact Or.inr ⟨_, Step.aPut .., Step.bGet ..⟩
    | exact Or.inr ⟨_, Step.aGet .., Step.bGet ..⟩

theorem steps_strip {α β : Type} {n : Nat} {c t e : Cfg α β} (h : Steps n c t)
    (ht : ∀ x, ¬ Step t x) (he : Step c e) : ∃ k, n = k + 1 ∧ Steps k e t := by
  induction h generalizing e with
  | refl c => exact absurd he (ht e)
  | @step n c d t hd hs ih =>
    rcases step_diamond hd he with rfl | ⟨f, h1, h2⟩
    · exact ⟨n, rfl, hs⟩
    · obtain ⟨k, rfl, hk⟩ := ih ht h1
      exact ⟨k + 1, rfl, Steps.step h2 hk⟩

/-- C80 (interleavings).  If one execution of two processes comes to a halt after `n` steps,
every execution, however the processes are interleaved and however the bytes are grouped, can
be continued to the same final configuration, and has at most `n` steps. -/
theorem C80_interleaving {α β : Type} {n m : Nat} {c t x : Cfg α β} (h : Steps n c t)
    (ht : ∀ y, ¬ Step t y) (hx : Steps m c x) : m ≤ n ∧ Steps (n - m) x t := by
  induction hx generalizing n with
  | refl c => exact ⟨Nat.zero_le _, by simpa using h⟩
  | @step m c d x hd hs ih =>
    obtain ⟨k, rfl, hk⟩ := steps_strip h ht hd
    obtain ⟨h1, h2⟩ := ih hk
    exact ⟨by omega, by rw [show k + 1 - (m + 1) = k - m by omega]; exact h2⟩

theorem Steps.trans {α β : Type} {n m : Nat} {c d e : Cfg α β} (h : Steps n c d)
    (h' : Steps m d e) : Steps (n + m) c e := by
  induction h with
  | refl c => simpa using h'
  | @step n c d e' hd hs ih =>
    rw [show n + 1 + m = n + m + 1 by omega]
    exact Steps.step hd (ih h')

theorem reach_trans {α β : Type} {c d e : Cfg α β} (h : ∃ n, Steps n c d)
    (h' : ∃ n, Steps n d e) : ∃ n, Steps n c e := by
  obtain ⟨n, h⟩ := h
  obtain ⟨m, h'⟩ := h'
  exact ⟨n + m, h.trans h'⟩

theorem steps_putA {α β : Type} (bs : List Byte) (k : Bool → Proc α) (b : Proc β)
    (ab ba : List Byte) : Steps bs.length ⟨putBytes bs k, b, ab, ba⟩ ⟨k true, b, ab ++ bs, ba⟩ := by
  induction bs generalizing ab with
  | nil => simpa [putBytes] using Steps.refl _
  | cons x bs ih =>
    refine Steps.step (Step.aPut ..) ?_
    simpa using ih (ab ++ [x])

theorem steps_putB {α β : Type} (bs : List Byte) (k : Bool → Proc β) (a : Proc α)
    (ab ba : List Byte) : Steps bs.length ⟨a, putBytes bs k, ab, ba⟩ ⟨a, k true, ab, ba ++ bs⟩ := by
  induction bs generalizing ba with
  | nil => simpa [putBytes] using Steps.refl _
  | cons x bs ih =>
    refine Steps.step (Step.bPut ..) ?_
    simpa using ih (ba ++ [x])

theorem steps_getA {α β : Type} (bs : List Byte) (n : Nat) (hn : bs.length = n)
    (k : List Byte → Bool → Proc α) (b : Proc β) (ab ba : List Byte) :
    Steps n ⟨getBytes n k, b, ab, bs ++ ba⟩ ⟨k bs true, b, ab, ba⟩ := by
  subst hn
  induction bs generalizing k with
  | nil => exact Steps.refl _
  | cons x bs ih => exact Steps.step (Step.aGet ..) (ih _)

theorem steps_getB {α β : Type} (bs : List Byte) (n : Nat) (hn : bs.length = n)
    (k : List Byte → Bool → Proc β) (a : Proc α) (ab ba : List Byte) :
    Steps n ⟨a, getBytes n k, bs ++ ab, ba⟩ ⟨a, k bs true, ab, ba⟩ := by
  subst hn
  induction bs generalizing k with
  | nil => exact Steps.refl _
  | cons x bs ih => exact Steps.step (Step.bGet ..) (ih _)

/-! ## Byte order -/

/-- The bytes in memory of an element of `n` bytes, on a little- or big-endian machine. -/
def elemBytes (le : Bool) (n : Nat) (v : Nat) : List Byte :=
  if le then (List.range n).map fun i => BitVec.ofNat 8 (v / 256 ^ i)
  else ((List.range n).map fun i => BitVec.ofNat 8 (v / 256 ^ i)).reverse

/-- The bytes in memory of an array. -/
def arrayBytes (le : Bool) (n : Nat) (elems : List Nat) : List Byte :=
  elems.flatMap (elemBytes le n)

theorem store2_swap (a b : Byte) : store 2 (swap2 (load2 a b)) = [b, a] := by
  simp only [store, swap2, load2, List.range, List.range.loop, List.map]
  refine List.cons_eq_cons.2 ⟨?_, List.cons_eq_cons.2 ⟨?_, rfl⟩⟩ <;>
  · ext i hi
    have : i = 0 ∨ i = 1 ∨ i = 2 ∨ i = 3 ∨ i = 4 ∨ i = 5 ∨ i = 6 ∨ i = 7 := by omega
    rcases this with rfl | rfl | rfl | rfl | rfl | rfl | rfl | rfl <;> simp

theorem store4_swap (a b c d : Byte) : store 4 (swap4 (load4 a b c d)) = [d, c, b, a] := by
  simp only [store, swap4, load4, List.range, List.range.loop, List.map]
  refine List.cons_eq_cons.2 ⟨?_, List.cons_eq_cons.2 ⟨?_, List.cons_eq_cons.2 ⟨?_,
    List.cons_eq_cons.2 ⟨?_, rfl⟩⟩⟩⟩ <;>
  · ext i hi
    have : i = 0 ∨ i = 1 ∨ i = 2 ∨ i = 3 ∨ i = 4 ∨ i = 5 ∨ i = 6 ∨ i = 7 := by omega
    rcases this with rfl | rfl | rfl | rfl | rfl | rfl | rfl | rfl <;> simp

private theorem ff64 (i : Nat) (h : i < 64) :
    (0xFF00#64).getLsbD i = (decide (8 ≤ i) && decide (i < 16)) := by
  have : ∀ i : Fin 64, (0xFF00#64).getLsbD i = (decide (8 ≤ i.1) && decide (i.1 < 16)) := by
    decide
  exact this ⟨i, h⟩

private theorem ff32 (i : Nat) (h : i < 32) :
    (0xFF00#32).getLsbD i = (decide (8 ≤ i) && decide (i < 16)) := by
  have : ∀ i : Fin 32, (0xFF00#32).getLsbD i = (decide (8 ≤ i.1) && decide (i.1 < 16)) := by
    decide
  exact this ⟨i, h⟩

theorem swap8_eq (lo hi : BitVec 32) : swap8 (lo.setWidth 64 ||| hi.setWidth 64 <<< 32) =
    (swap4 hi).setWidth 64 ||| (swap4 lo).setWidth 64 <<< 32 := by
  apply BitVec.eq_of_getLsbD_eq
  intro i hi
  simp only [swap8, swap4, BitVec.getLsbD_or, BitVec.getLsbD_shiftLeft, BitVec.getLsbD_setWidth,
    BitVec.getLsbD_ushiftRight, BitVec.getLsbD_and]
  interval_cases i <;>
    simp only [ff64, ff32, BitVec.getLsbD_of_ge, Nat.reduceAdd, Nat.reduceSub, Nat.reduceLT,
      Nat.reduceLeDiff, decide_true, decide_false, Bool.true_and, Bool.false_and, Bool.not_true,
      Bool.not_false, Bool.and_true, Bool.and_false, Bool.or_false, Bool.false_or]

theorem store8_append (x y : BitVec 32) :
    store 8 (x.setWidth 64 ||| y.setWidth 64 <<< 32) = store 4 x ++ store 4 y := by
  simp only [store, List.range, List.range.loop, List.map, List.cons_append, List.nil_append]
  refine List.cons_eq_cons.2 ⟨?_, List.cons_eq_cons.2 ⟨?_, List.cons_eq_cons.2 ⟨?_,
    List.cons_eq_cons.2 ⟨?_, List.cons_eq_cons.2 ⟨?_, List.cons_eq_cons.2 ⟨?_,
    List.cons_eq_cons.2 ⟨?_, List.cons_eq_cons.2 ⟨?_, rfl⟩⟩⟩⟩⟩⟩⟩⟩ <;>
  · apply BitVec.eq_of_getLsbD_eq
    intro i hi
    simp only [BitVec.getLsbD_extractLsb', BitVec.getLsbD_or, BitVec.getLsbD_shiftLeft,
      BitVec.getLsbD_setWidth]
    interval_cases i <;>
      simp only [BitVec.getLsbD_of_ge, Nat.reduceAdd, Nat.reduceMul, Nat.reduceSub, Nat.reduceLT,
        Nat.reduceLeDiff, decide_true, decide_false, Bool.true_and, Bool.false_and,
        Bool.not_true, Bool.not_false, Bool.or_false, Bool.false_or]

theorem store8_swap (a b c d e f g h : Byte) :
    store 8 (swap8 (load8 a b c d e f g h)) = [h, g, f, e, d, c, b, a] := by
  rw [load8, swap8_eq, store8_append, store4_swap, store4_swap]
  rfl

theorem elemBytes_two (b : Bool) (v : Nat) : ∃ x y : Byte,
    elemBytes b 2 v = [x, y] ∧ elemBytes (!b) 2 v = [y, x] := by
  cases b <;> exact ⟨_, _, rfl, rfl⟩

theorem elemBytes_four (b : Bool) (v : Nat) : ∃ x y z w : Byte,
    elemBytes b 4 v = [x, y, z, w] ∧ elemBytes (!b) 4 v = [w, z, y, x] := by
  cases b <;> exact ⟨_, _, _, _, rfl, rfl⟩

theorem elemBytes_eight (b : Bool) (v : Nat) : ∃ x1 x2 x3 x4 x5 x6 x7 x8 : Byte,
    elemBytes b 8 v = [x1, x2, x3, x4, x5, x6, x7, x8] ∧
    elemBytes (!b) 8 v = [x8, x7, x6, x5, x4, x3, x2, x1] := by
  cases b <;> exact ⟨_, _, _, _, _, _, _, _, rfl, rfl⟩

theorem swapAll2_array (b : Bool) (elems : List Nat) (rest : List Byte) :
    swapAll2 elems.length (arrayBytes b 2 elems ++ rest) = arrayBytes (!b) 2 elems ++ rest := by
  induction elems with
  | nil => cases rest with
    | nil => rfl
    | cons r rest => cases rest <;> rfl
  | cons v elems ih =>
    obtain ⟨x, y, h1, h2⟩ := elemBytes_two b v
    simp only [arrayBytes, List.flatMap_cons, h1, h2, List.length_cons] at ih ⊢
    simp only [List.cons_append, List.nil_append, swapAll2, store2_swap, ih]

theorem swapAll4_array (b : Bool) (elems : List Nat) (rest : List Byte) :
    swapAll4 elems.length (arrayBytes b 4 elems ++ rest) = arrayBytes (!b) 4 elems ++ rest := by
  induction elems with
  | nil => simp [arrayBytes, swapAll4]
  | cons v elems ih =>
    obtain ⟨x, y, z, w, h1, h2⟩ := elemBytes_four b v
    simp only [arrayBytes, List.flatMap_cons, h1, h2, List.length_cons] at ih ⊢
    simp only [List.cons_append, List.nil_append, swapAll4, store4_swap, ih]

theorem swapAll8_array (b : Bool) (elems : List Nat) (rest : List Byte) :
    swapAll8 elems.length (arrayBytes b 8 elems ++ rest) = arrayBytes (!b) 8 elems ++ rest := by
  induction elems with
  | nil => simp [arrayBytes, swapAll8]
  | cons v elems ih =>
    obtain ⟨x1, x2, x3, x4, x5, x6, x7, x8, h1, h2⟩ := elemBytes_eight b v
    simp only [arrayBytes, List.flatMap_cons, h1, h2, List.length_cons] at ih ⊢
    simp only [List.cons_append, List.nil_append, swapAll8, store8_swap, ih]

/-- The widths of elements that the protocol knows. -/
def Width (tok : Nat) : Prop := tok = 1 ∨ tok = 2 ∨ tok = 4 ∨ tok = 8

theorem elemBytes_one (b c : Bool) (v : Nat) : elemBytes b 1 v = elemBytes c 1 v := by
  cases b <;> cases c <;> rfl

theorem arrayBytes_one (b c : Bool) (elems : List Nat) :
    arrayBytes b 1 elems = arrayBytes c 1 elems := by
  simp only [arrayBytes, show elemBytes b 1 = elemBytes c 1 from funext (elemBytes_one b c)]

theorem arrayBytes_length (b : Bool) (tok : Nat) (elems : List Nat) :
    (arrayBytes b tok elems).length = elems.length * tok := by
  induction elems with
  | nil => simp [arrayBytes]
  | cons v elems ih =>
    have : (elemBytes b tok v).length = tok := by cases b <;> simp [elemBytes]
    simp only [arrayBytes, List.flatMap_cons, List.length_append, List.length_cons] at ih ⊢
    rw [ih, this, Nat.succ_mul]; omega

/-- On a little-endian machine `check_swap_records` turns the elements into the other byte
order and leaves the rest of the buffer alone; on a big-endian one it does nothing. -/
theorem checkSwap_array (le : Bool) (tok : Nat) (h : Width tok) (b : Bool) (elems : List Nat)
    (rest : List Byte) : checkSwap le (arrayBytes b tok elems ++ rest) elems.length tok =
      arrayBytes (if le then !b else b) tok elems ++ rest := by
  cases le with
  | false => simp [checkSwap]
  | true =>
    rcases h with rfl | rfl | rfl | rfl
    · simp [checkSwap, arrayBytes_one b (!b)]
    · simpa [checkSwap] using swapAll2_array b elems rest
    · simpa [checkSwap] using swapAll4_array b elems rest
    · simpa [checkSwap] using swapAll8_array b elems rest

theorem checkSwap_array' (le : Bool) (tok : Nat) (h : Width tok) (b : Bool) (elems : List Nat) :
    checkSwap le (arrayBytes b tok elems) elems.length tok =
      arrayBytes (if le then !b else b) tok elems := by
  simpa using checkSwap_array le tok h b elems []

theorem store4_load4 (a b c d : Byte) : store 4 (load4 a b c d) = [a, b, c, d] := by
  simp only [store, load4, List.range, List.range.loop, List.map]
  refine List.cons_eq_cons.2 ⟨?_, List.cons_eq_cons.2 ⟨?_, List.cons_eq_cons.2 ⟨?_,
    List.cons_eq_cons.2 ⟨?_, rfl⟩⟩⟩⟩ <;>
  · ext i hi
    have : i = 0 ∨ i = 1 ∨ i = 2 ∨ i = 3 ∨ i = 4 ∨ i = 5 ∨ i = 6 ∨ i = 7 := by omega
    rcases this with rfl | rfl | rfl | rfl | rfl | rfl | rfl | rfl <;> simp

theorem load4_extract (v : BitVec 32) : load4 (v.extractLsb' 0 8) (v.extractLsb' 8 8)
    (v.extractLsb' 16 8) (v.extractLsb' 24 8) = v := by
  apply BitVec.eq_of_getLsbD_eq
  intro i hi
  simp only [load4, BitVec.getLsbD_extractLsb', BitVec.getLsbD_or, BitVec.getLsbD_shiftLeft,
    BitVec.getLsbD_setWidth]
  interval_cases i <;> simp

theorem swap4_load4 (a b c d : Byte) : swap4 (load4 a b c d) = load4 d c b a := by
  have h := store4_swap a b c d
  simp only [store, List.range, List.range.loop, List.map] at h
  obtain ⟨h0, h⟩ := List.cons_eq_cons.1 h
  obtain ⟨h1, h⟩ := List.cons_eq_cons.1 h
  obtain ⟨h2, h⟩ := List.cons_eq_cons.1 h
  obtain ⟨h3, h⟩ := List.cons_eq_cons.1 h
  rw [← load4_extract (swap4 (load4 a b c d))]
  simp only [Nat.reduceMul] at h0 h1 h2 h3
  rw [h0, h1, h2, h3]

/-- The tag has the same four bytes on both kinds of machines, most significant first. -/
theorem tagBytes_eq (le : Bool) (v : BitVec 32) : tagBytes le v =
    [v.extractLsb' 24 8, v.extractLsb' 16 8, v.extractLsb' 8 8, v.extractLsb' 0 8] := by
  cases le with
  | false => simp [tagBytes, store, List.range, List.range.loop]
  | true =>
    simp only [tagBytes, if_true]
    conv => lhs; rw [← load4_extract v]
    rw [store4_swap]

theorem tagBytes_length (le : Bool) (v : BitVec 32) : (tagBytes le v).length = 4 := by
  rw [tagBytes_eq]; rfl

theorem tagValue_tagBytes (lw lr : Bool) (v junk : BitVec 32) :
    tagValue lr junk (tagBytes lw v) = v := by
  rw [tagBytes_eq]
  cases lr with
  | false => simp only [tagValue]; exact load4_extract v
  | true => simp only [tagValue, if_true, swap4_load4]; exact load4_extract v

theorem toInt_ofNat_small (n : Nat) (h : n < 2 ^ 31) : (BitVec.ofNat 32 n).toInt = (n : Int) := by
  rw [BitVec.toInt_eq_toNat_of_lt] <;> simp [BitVec.toNat_ofNat] <;> omega

/-! ## The exchange -/

/-- The writer after it has sent the record. -/
def writerEnd (record : List Byte) : Proc WriteOut :=
  getAckNack fun _ => .ret ⟨0, record, false⟩

/-- Everything the writer sends: the length in bytes, the elements most significant byte first,
the length again. -/
def wire (tok : Nat) (elems : List Nat) : List Byte :=
  tagBytes false (BitVec.ofNat 32 (elems.length * tok)) ++ arrayBytes false tok elems ++
    tagBytes false (BitVec.ofNat 32 (elems.length * tok))

theorem tagBytes_order (le : Bool) (v : BitVec 32) : tagBytes le v = tagBytes false v := by
  rw [tagBytes_eq, tagBytes_eq]

/-- The writer, once it has got a request of four bytes, sends the record and waits. -/
theorem steps_write {β : Type} (lw : Bool) (tok : Nat) (htok : Width tok) (elems : List Nat)
    (tw : Bool) (req : List Byte) (hreq : req.length = 4) (b : Proc β) (ab ba : List Byte) :
    ∃ n, Steps n ⟨writeRecord lw (arrayBytes lw tok elems) elems.length tok tw, b, ab, req ++ ba⟩
      ⟨writerEnd (arrayBytes lw tok elems), b, ab ++ wire tok elems, ba⟩ := by
  have hsw : checkSwap lw (arrayBytes lw tok elems) elems.length tok =
      arrayBytes false tok elems := by
    rw [checkSwap_array' lw tok htok]; cases lw <;> rfl
  have hback : checkSwap lw (arrayBytes false tok elems) elems.length tok =
      arrayBytes lw tok elems := by
    rw [checkSwap_array' lw tok htok]; cases lw <;> rfl
  have htake : (arrayBytes false tok elems).take (elems.length * tok) =
      arrayBytes false tok elems := by
    rw [List.take_of_length_le]; rw [arrayBytes_length]
  refine reach_trans ⟨_, steps_getA req 4 hreq _ b ab ba⟩ ?_
  simp only [Bool.not_true, Bool.false_eq_true, if_false]
  refine reach_trans ⟨_, steps_putA _ _ b ab ba⟩ ?_
  simp only [hsw, htake, hback]
  refine reach_trans ⟨_, steps_putA _ _ b _ ba⟩ ?_
  simp only [Bool.not_true, Bool.false_eq_true, if_false]
  have h := steps_putA (tagBytes lw (BitVec.ofNat 32 (elems.length * tok)))
    (fun _ => writerEnd (arrayBytes lw tok elems)) b
    (ab ++ tagBytes lw (BitVec.ofNat 32 (elems.length * tok)) ++ arrayBytes false tok elems) ba
  rw [show ab ++ tagBytes lw (BitVec.ofNat 32 (elems.length * tok)) ++
      arrayBytes false tok elems ++ tagBytes lw (BitVec.ofNat 32 (elems.length * tok)) =
      ab ++ wire tok elems by
    rw [wire, tagBytes_order lw]; simp only [List.append_assoc]] at h
  exact ⟨_, h⟩

/-- The reader after the first tag, of value `length1`. -/
def readerRest (lr : Bool) (buf : Option (List Byte)) (length maxlength : Int) (tok : Nat)
    (j3 : BitVec 32) (length1 : Int) : Proc ReadOut :=
  if length1 = 0 then
    swallow length1 (sendAckNack true (.ret ⟨.null, length, true, false⟩))
  else if maxlength * tok < length1 ∧ 0 < maxlength then
    swallow length1 (sendAckNack true (.ret ⟨.null, length, false, false⟩))
  else
    getBytes length1.toNat fun bs ok =>
      let old := buf.getD []
      if buf.isSome ∧ old.length < bs.length then .ret ⟨.overflow, length, false, false⟩
      else if !ok then
        swallow length1 (sendAckNack true (.ret ⟨.null, length, true, false⟩))
      else
        getBytes 4 fun t3 _ =>
          readEnd lr buf length tok length1 (bs.length : Int)
            (tagValue lr j3 t3).toInt (bs ++ old.drop bs.length)

/-- The reader sends its request, then takes the tag that comes first on the channel. -/
theorem steps_tag {α : Type} (lr : Bool) (buf : Option (List Byte)) (length maxlength : Int)
    (tok : Nat) (htok : Width tok) (j1 j3 v : BitVec 32) (lw : Bool) (w w' : Proc α)
    (ab ab' : List Byte)
    (hw : ∃ n, Steps n
      ⟨w, getBytes 4 fun t1 _ =>
        readerRest lr buf length maxlength tok j3 (tagValue lr j1 t1).toInt, ab,
        [0x53#8, 0x45#8, 0x4E#8, 0x44#8]⟩
      ⟨w', getBytes 4 fun t1 _ =>
        readerRest lr buf length maxlength tok j3 (tagValue lr j1 t1).toInt,
        tagBytes lw v ++ ab', []⟩) :
    ∃ n, Steps n ⟨w, readRecord lr buf length maxlength tok j1 j3, ab, []⟩
      ⟨w', readerRest lr buf length maxlength tok j3 v.toInt, ab', []⟩ := by
  have htk : (if 1 < tok then tok else 1) = tok := by
    rcases htok with rfl | rfl | rfl | rfl <;> rfl
  obtain ⟨n, hn⟩ := hw
  have hp := steps_putB (α := α) [0x53#8, 0x45#8, 0x4E#8, 0x44#8]
    (fun _ => getBytes 4 fun t1 _ =>
        readerRest lr buf length maxlength tok j3 (tagValue lr j1 t1).toInt) w ab []
  have hr : readRecord lr buf length maxlength tok j1 j3 =
      putBytes [0x53#8, 0x45#8, 0x4E#8, 0x44#8] (fun _ => getBytes 4 fun t1 _ =>
        readerRest lr buf length maxlength tok j3 (tagValue lr j1 t1).toInt) := by
    simp only [readRecord, htk, readerRest]
  rw [hr]
  refine reach_trans ⟨_, hp.trans hn⟩ ?_
  · have hg := steps_getB (tagBytes lw v) 4 (tagBytes_length lw v) (fun t1 _ =>
        readerRest lr buf length maxlength tok j3 (tagValue lr j1 t1).toInt) w' ab' []
    rw [tagValue_tagBytes lw lr] at hg
    exact ⟨_, hg⟩

/-- The reply of the reader ends the writer. -/
theorem steps_reply {β : Type} (status : Bool) (record : List Byte) (o : β) (ab : List Byte) :
    ∃ n, Steps n ⟨writerEnd record, sendAckNack status (.ret o), ab, []⟩
      ⟨.ret ⟨0, record, false⟩, .ret o, ab, []⟩ := by
  have hw : writerEnd record =
      getBytes 5 fun _ _ => (.ret ⟨0, record, false⟩ : Proc WriteOut) := by
    simp only [writerEnd, getAckNack, ite_self]
  rw [hw]
  cases status with
  | true =>
    have h := steps_getA [0x4E#8, 0x41#8, 0x43#8, 0x4B#8, 0#8] 5 rfl
      (fun _ _ => (.ret ⟨0, record, false⟩ : Proc WriteOut)) (.ret o : Proc β) ab []
    exact reach_trans ⟨_, steps_putB _ _ _ ab []⟩ ⟨_, h⟩
  | false =>
    have h := steps_getA [0x41#8, 0x43#8, 0x4B#8, 0#8, 0#8] 5 rfl
      (fun _ _ => (.ret ⟨0, record, false⟩ : Proc WriteOut)) (.ret o : Proc β) ab []
    exact reach_trans ⟨_, steps_putB _ _ _ ab []⟩ ⟨_, h⟩

theorem ret_halts {α β : Type} (a : α) (b : β) (ab ba : List Byte) :
    ∀ y, ¬ Step (⟨.ret a, .ret b, ab, ba⟩ : Cfg α β) y := by
  intro y h
  cases h

/-- The common part of all exchanges on a clean channel: the reader has taken the first tag, the
elements and the second tag are on their way. -/
theorem steps_start (lw lr : Bool) (tok : Nat) (htok : Width tok) (elems : List Nat) (tw : Bool)
    (buf : Option (List Byte)) (length maxlength : Int) (j1 j3 : BitVec 32) (pre : List Byte)
    (v : BitVec 32) (rest : List Byte) (hpre : pre ++ wire tok elems = tagBytes false v ++ rest) :
    ∃ n, Steps n
      ⟨writeRecord lw (arrayBytes lw tok elems) elems.length tok tw,
        readRecord lr buf length maxlength tok j1 j3, pre, []⟩
      ⟨writerEnd (arrayBytes lw tok elems), readerRest lr buf length maxlength tok j3 v.toInt,
        rest, []⟩ := by
  apply steps_tag lr buf length maxlength tok htok j1 j3 v false
  obtain ⟨n, hn⟩ := steps_write (β := ReadOut) lw tok htok elems tw
    [0x53#8, 0x45#8, 0x4E#8, 0x44#8] rfl (getBytes 4 fun t1 _ =>
        readerRest lr buf length maxlength tok j3 (tagValue lr j1 t1).toInt) pre []
  refine ⟨n, ?_⟩
  rw [hpre] at hn
  simpa using hn

/-- C80 (round trip).  A record of elements of 1, 2, 4 or 8 bytes, sent by a machine of either
byte order to a machine of either byte order whose request admits it: whatever the interleaving,
every execution is finite and ends with the writer's array as it was, the reader holding the same
element values in its own byte order (and the rest of its buffer untouched), the right count,
and nothing left on the channels. -/
theorem C80_exchange (lw lr : Bool) (tok : Nat) (htok : Width tok) (elems : List Nat)
    (hne : elems ≠ []) (hlen : elems.length * tok < 2 ^ 31) (tw : Bool)
    (buf : Option (List Byte)) (hbuf : ∀ b, buf = some b → elems.length * tok ≤ b.length)
    (length maxlength : Int) (hl : length = elems.length ∨ length ≤ 0)
    (hm : (elems.length : Int) ≤ maxlength ∨ maxlength ≤ 0) (j1 j3 : BitVec 32) :
    ∃ n, ∀ m c, Steps m
        ⟨writeRecord lw (arrayBytes lw tok elems) elems.length tok tw,
          readRecord lr buf length maxlength tok j1 j3, [], []⟩ c →
      m ≤ n ∧ Steps (n - m) c
        ⟨.ret ⟨0, arrayBytes lw tok elems, false⟩,
          .ret ⟨.data (arrayBytes lr tok elems ++ (buf.getD []).drop (elems.length * tok)),
            elems.length, false, false⟩, [], []⟩ := by
  have hpos : 0 < elems.length := List.length_pos_iff.2 hne
  have htp : 0 < tok := by rcases htok with rfl | rfl | rfl | rfl <;> decide
  have hmul : 0 < elems.length * tok := Nat.mul_pos hpos htp
  obtain ⟨n1, h1⟩ := steps_start lw lr tok htok elems tw buf length maxlength j1 j3 []
    (BitVec.ofNat 32 (elems.length * tok)) (arrayBytes false tok elems ++
      tagBytes false (BitVec.ofNat 32 (elems.length * tok))) (by simp [wire])
  rw [toInt_ofNat_small _ hlen] at h1
  have hblen := arrayBytes_length false tok elems
  -- the reader takes the data
  have hrest : readerRest lr buf length maxlength tok j3 ((elems.length * tok : Nat) : Int) =
      getBytes (elems.length * tok) fun bs ok =>
        let old := buf.getD []
        if buf.isSome ∧ old.length < bs.length then .ret ⟨.overflow, length, false, false⟩
        else if !ok then
          swallow ((elems.length * tok : Nat) : Int)
            (sendAckNack true (.ret ⟨.null, length, true, false⟩))
        else
          getBytes 4 fun t3 _ =>
            readEnd lr buf length tok ((elems.length * tok : Nat) : Int) (bs.length : Int)
              (tagValue lr j3 t3).toInt (bs ++ old.drop bs.length) := by
    have hc1 : ¬ ((elems.length * tok : Nat) : Int) = 0 := by omega
    have hc2 : ¬ (maxlength * tok < ((elems.length * tok : Nat) : Int) ∧ 0 < maxlength) := by
      rintro ⟨ha, hb⟩
      rcases hm with hm | hm
      · have := Int.mul_le_mul_of_nonneg_right hm (Int.natCast_nonneg tok)
        rw [Int.natCast_mul] at ha
        omega
      · omega
    rw [readerRest, if_neg hc1, if_neg hc2, Int.toNat_natCast]
  rw [hrest] at h1
  have h2 := h1.trans (steps_getB (arrayBytes false tok elems) _ hblen _ _
    (tagBytes false (BitVec.ofNat 32 (elems.length * tok))) [])
  have hno : ¬ (buf.isSome = true ∧ (buf.getD []).length < elems.length * tok) := by
    rintro ⟨ha, hb⟩
    cases buf with
    | none => simp at ha
    | some b => exact absurd (hbuf b rfl) (by simpa using hb)
  simp only [hblen, if_neg hno, Bool.not_true, Bool.false_eq_true, if_false] at h2
  -- the second tag
  have h3 := h2.trans (by
    have := steps_getB (tagBytes false (BitVec.ofNat 32 (elems.length * tok))) 4
      (tagBytes_length false _) (fun t3 _ =>
        readEnd lr buf length tok ((elems.length * tok : Nat) : Int)
          ((elems.length * tok : Nat) : Int) (tagValue lr j3 t3).toInt
          (arrayBytes false tok elems ++ (buf.getD []).drop (elems.length * tok)))
      (writerEnd (arrayBytes lw tok elems)) [] []
    rw [List.append_nil] at this
    exact this)
  rw [tagValue_tagBytes, toInt_ofNat_small _ hlen] at h3
  have hend : readEnd lr buf length tok ((elems.length * tok : Nat) : Int)
      ((elems.length * tok : Nat) : Int) ((elems.length * tok : Nat) : Int)
      (arrayBytes false tok elems ++ (buf.getD []).drop (elems.length * tok)) =
      sendAckNack false (.ret ⟨.data (arrayBytes lr tok elems ++
        (buf.getD []).drop (elems.length * tok)), elems.length, false, false⟩) := by
    have hc : ¬ (0 < length ∧ length * tok ≠ ((elems.length * tok : Nat) : Int)) := by
      rintro ⟨ha, hb⟩
      rcases hl with hl | hl
      · apply hb; rw [hl, Int.natCast_mul]
      · omega
    simp only [readEnd, ne_eq, not_true, if_false]
    rw [if_neg hc, Int.toNat_natCast, Nat.mul_div_cancel _ htp, checkSwap_array lr tok htok]
    have hd : ((elems.length * tok : Nat) : Int) / (tok : Int) = elems.length := by
      rw [Int.natCast_mul, Int.mul_ediv_cancel _ (by omega)]
    rw [hd]
    cases lr <;> rfl
  rw [hend] at h3
  obtain ⟨n4, h4⟩ := steps_reply false (arrayBytes lw tok elems)
    (⟨.data (arrayBytes lr tok elems ++ (buf.getD []).drop (elems.length * tok)),
      elems.length, false, false⟩ : ReadOut) []
  exact ⟨_, fun m c hc => C80_interleaving (h3.trans h4) (ret_halts _ _ _ _) hc⟩

/-- The hypotheses of `C80_exchange` are met: a little-endian writer of two 4-byte elements, a
big-endian reader with a buffer of three. -/
example : ∃ n, ∀ m c, Steps m
    ⟨writeRecord true [1#8, 2#8, 3#8, 4#8, 0#8, 0#8, 0#8, 9#8] 2 4 false,
      readRecord false (some (List.replicate 12 7#8)) 2 3 4 0#32 0#32, [], []⟩ c →
    m ≤ n ∧ Steps (n - m) c
      ⟨.ret ⟨0, [1#8, 2#8, 3#8, 4#8, 0#8, 0#8, 0#8, 9#8], false⟩,
        .ret ⟨.data [4#8, 3#8, 2#8, 1#8, 9#8, 0#8, 0#8, 0#8, 7#8, 7#8, 7#8, 7#8], 2, false, false⟩,
        [], []⟩ :=
  C80_exchange true false 4 (by simp [Width]) [67305985, 150994944] (by simp) (by decide) false
    (some (List.replicate 12 7#8)) (by rintro b ⟨⟩; decide) 2 3 (Or.inl rfl) (Or.inl (by decide))
    0#32 0#32

end Verif.Gossip
