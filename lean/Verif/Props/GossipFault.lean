import Verif.Props.GossipRecord

/-!
# C81: records that do not fit, peers that misbehave, sockets that fail
-/

namespace Verif.Gossip

/-! ## Records of another size than requested -/

/-- C81 (shorter or longer than requested, within the maximum).  The reader refuses the record,
and nothing is left on the channels: the next exchange starts clean.  (The writer is told, but
`write_record` still returns 0.) -/
theorem C81_other_size (lw lr : Bool) (tok : Nat) (htok : Width tok) (elems : List Nat)
    (hne : elems ≠ []) (hlen : elems.length * tok < 2 ^ 31) (tw : Bool)
    (buf : Option (List Byte)) (hbuf : ∀ b, buf = some b → elems.length * tok ≤ b.length)
    (length maxlength : Int) (hl : 0 < length ∧ length ≠ elems.length)
    (hm : (elems.length : Int) ≤ maxlength ∨ maxlength ≤ 0) (j1 j3 : BitVec 32) :
    ∃ n, ∀ m c, Steps m
        ⟨writeRecord lw (arrayBytes lw tok elems) elems.length tok tw,
          readRecord lr buf length maxlength tok j1 j3, [], []⟩ c →
      m ≤ n ∧ Steps (n - m) c
        ⟨.ret ⟨0, arrayBytes lw tok elems, false⟩, .ret ⟨.null, length, true, false⟩, [], []⟩ := by
  have hpos : 0 < elems.length := List.length_pos_iff.2 hne
  have htp : 0 < tok := by rcases htok with rfl | rfl | rfl | rfl <;> decide
  have hmul : 0 < elems.length * tok := Nat.mul_pos hpos htp
  have hblen := arrayBytes_length false tok elems
  have h1 := steps_start lw lr tok htok elems tw buf length maxlength j1 j3 []
    (BitVec.ofNat 32 (elems.length * tok)) (arrayBytes false tok elems ++
      tagBytes false (BitVec.ofNat 32 (elems.length * tok))) (by simp [wire])
  rw [toInt_ofNat_small _ hlen] at h1
  have hc1 : ¬ ((elems.length * tok : Nat) : Int) = 0 := by omega
  have hc2 : ¬ (maxlength * tok < ((elems.length * tok : Nat) : Int) ∧ 0 < maxlength) := by
    rintro ⟨ha, hb⟩
    rcases hm with hm | hm
    · have := Int.mul_le_mul_of_nonneg_right hm (Int.natCast_nonneg tok)
      rw [Int.natCast_mul] at ha
      omega
    · omega
  rw [readerRest, if_neg hc1, if_neg hc2, Int.toNat_natCast] at h1
  have h2 := reach_trans h1 ⟨_, steps_getB (arrayBytes false tok elems) _ hblen _ _
    (tagBytes false (BitVec.ofNat 32 (elems.length * tok))) []⟩
  have hno : ¬ (buf.isSome = true ∧ (buf.getD []).length < elems.length * tok) := by
    rintro ⟨ha, hb⟩
    cases buf with
    | none => simp at ha
    | some b => exact absurd (hbuf b rfl) (by simpa using hb)
  simp only [hblen, if_neg hno, Bool.not_true, Bool.false_eq_true, if_false] at h2
  have h3 := reach_trans h2 (by
    have := steps_getB (tagBytes false (BitVec.ofNat 32 (elems.length * tok))) 4
      (tagBytes_length false _) (fun t3 _ =>
        readEnd lr buf length tok ((elems.length * tok : Nat) : Int)
          ((elems.length * tok : Nat) : Int) (tagValue lr j3 t3).toInt
          (arrayBytes false tok elems ++ (buf.getD []).drop (elems.length * tok)))
      (writerEnd (arrayBytes lw tok elems)) [] []
    rw [List.append_nil] at this
    exact ⟨_, this⟩)
  have hc : 0 < length ∧ length * tok ≠ ((elems.length * tok : Nat) : Int) := by
    refine ⟨hl.1, ?_⟩
    rw [Int.natCast_mul]
    intro h
    exact hl.2 (Int.eq_of_mul_eq_mul_right (by omega) h)
  rw [readEnd, if_neg (by simp), if_pos hc] at h3
  obtain ⟨n, h4⟩ := reach_trans h3 (steps_reply true (arrayBytes lw tok elems)
    (⟨.null, length, true, false⟩ : ReadOut) [])
  exact ⟨n, fun m c hx => C80_interleaving h4 (ret_halts _ _ _ _) hx⟩

/-- C81 (more than the maximum).  The reader refuses the record, but it has swallowed the
elements only: the four bytes of the second tag stay on the channel. -/
theorem C81_oversize (lw lr : Bool) (tok : Nat) (htok : Width tok) (elems : List Nat)
    (hlen : elems.length * tok < 2 ^ 31) (tw : Bool) (buf : Option (List Byte))
    (length maxlength : Int) (hm : 0 < maxlength ∧ maxlength < elems.length)
    (j1 j3 : BitVec 32) :
    ∃ n, ∀ m c, Steps m
        ⟨writeRecord lw (arrayBytes lw tok elems) elems.length tok tw,
          readRecord lr buf length maxlength tok j1 j3, [], []⟩ c →
      m ≤ n ∧ Steps (n - m) c
        ⟨.ret ⟨0, arrayBytes lw tok elems, false⟩, .ret ⟨.null, length, false, false⟩,
          tagBytes false (BitVec.ofNat 32 (elems.length * tok)), []⟩ := by
  have hpos : 0 < elems.length := by omega
  have htp : 0 < tok := by rcases htok with rfl | rfl | rfl | rfl <;> decide
  have hmul : 0 < elems.length * tok := Nat.mul_pos hpos htp
  have hblen := arrayBytes_length false tok elems
  have h1 := steps_start lw lr tok htok elems tw buf length maxlength j1 j3 []
    (BitVec.ofNat 32 (elems.length * tok)) (arrayBytes false tok elems ++
      tagBytes false (BitVec.ofNat 32 (elems.length * tok))) (by simp [wire])
  rw [toInt_ofNat_small _ hlen] at h1
  have hc1 : ¬ ((elems.length * tok : Nat) : Int) = 0 := by omega
  have hc2 : maxlength * tok < ((elems.length * tok : Nat) : Int) ∧ 0 < maxlength := by
    refine ⟨?_, hm.1⟩
    rw [Int.natCast_mul]
    exact Int.mul_lt_mul_of_pos_right hm.2 (by omega)
  rw [readerRest, if_neg hc1, if_pos hc2, swallow, Int.toNat_natCast] at h1
  have h2 := reach_trans h1 ⟨_, steps_getB (arrayBytes false tok elems) _ hblen _ _
    (tagBytes false (BitVec.ofNat 32 (elems.length * tok))) []⟩
  obtain ⟨n, h4⟩ := reach_trans h2 (steps_reply true (arrayBytes lw tok elems)
    (⟨.null, length, false, false⟩ : ReadOut)
    (tagBytes false (BitVec.ofNat 32 (elems.length * tok))))
  exact ⟨n, fun m c hx => C80_interleaving h4 (ret_halts _ _ _ _) hx⟩

/-- C81 (the record after).  With such a tag of value `t` left on the channel, the next record
is refused although it fits the request: the reader takes the stale tag for its length. -/
theorem C81_next_lost (lw lr : Bool) (tok : Nat) (htok : Width tok) (elems : List Nat)
    (tw : Bool) (buf : Option (List Byte)) (length maxlength : Int) (hm : 0 < maxlength)
    (t : Nat) (ht : t < 2 ^ 31) (ht1 : maxlength * tok < t) (ht2 : t ≤ elems.length * tok + 8)
    (j1 j3 : BitVec 32) :
    ∃ n, ∀ m c, Steps m
        ⟨writeRecord lw (arrayBytes lw tok elems) elems.length tok tw,
          readRecord lr buf length maxlength tok j1 j3, tagBytes false (BitVec.ofNat 32 t), []⟩ c →
      m ≤ n ∧ Steps (n - m) c
        ⟨.ret ⟨0, arrayBytes lw tok elems, false⟩, .ret ⟨.null, length, false, false⟩,
          (wire tok elems).drop t, []⟩ := by
  have h1 := steps_start lw lr tok htok elems tw buf length maxlength j1 j3
    (tagBytes false (BitVec.ofNat 32 t)) (BitVec.ofNat 32 t) (wire tok elems) rfl
  rw [toInt_ofNat_small _ ht] at h1
  have hnn : 0 ≤ maxlength * tok := Int.mul_nonneg (by omega) (by omega)
  have hc1 : ¬ ((t : Nat) : Int) = 0 := by omega
  rw [readerRest, if_neg hc1, if_pos ⟨ht1, hm⟩, swallow, Int.toNat_natCast] at h1
  have hwl : (wire tok elems).length = elems.length * tok + 8 := by
    simp only [wire, List.length_append, tagBytes_length, arrayBytes_length]; omega
  have h2 := reach_trans h1 (by
    have := steps_getB ((wire tok elems).take t) t (by rw [List.length_take]; omega)
      (fun _ _ => sendAckNack true (.ret (⟨.null, length, false, false⟩ : ReadOut)))
      (writerEnd (arrayBytes lw tok elems)) ((wire tok elems).drop t) []
    rw [List.take_append_drop] at this
    exact ⟨_, this⟩)
  obtain ⟨n, h4⟩ := reach_trans h2 (steps_reply true (arrayBytes lw tok elems)
    (⟨.null, length, false, false⟩ : ReadOut) ((wire tok elems).drop t))
  exact ⟨n, fun m c hx => C80_interleaving h4 (ret_halts _ _ _ _) hx⟩

/-- C81, a concrete case: the reader asks for one integer and gets two; the record that follows
holds the one integer asked for, and is lost. -/
theorem C81_desync_witness :
    (∃ n, ∀ m c, Steps m ⟨writeRecord true (arrayBytes true 4 [5, 6]) 2 4 false,
        readRecord true none 1 1 4 0#32 0#32, [], []⟩ c → m ≤ n ∧ Steps (n - m) c
      ⟨.ret ⟨0, arrayBytes true 4 [5, 6], false⟩, .ret ⟨.null, 1, false, false⟩,
        tagBytes false 8#32, []⟩) ∧
    (∃ n, ∀ m c, Steps m ⟨writeRecord true (arrayBytes true 4 [7]) 1 4 false,
        readRecord true none 1 1 4 0#32 0#32, tagBytes false 8#32, []⟩ c →
      m ≤ n ∧ Steps (n - m) c
      ⟨.ret ⟨0, arrayBytes true 4 [7], false⟩, .ret ⟨.null, 1, false, false⟩,
        tagBytes false 4#32, []⟩) := by
  refine ⟨C81_oversize true true 4 (by simp [Width]) [5, 6] (by decide) false none 1 1
    (by decide) 0#32 0#32, ?_⟩
  have := C81_next_lost true true 4 (by simp [Width]) [7] false none 1 1 (by decide) 8 (by decide)
    (by decide) (by decide) 0#32 0#32
  rw [show (wire 4 [7]).drop 8 = tagBytes false 4#32 by decide] at this
  exact this

example : ∃ n, ∀ m c, Steps m
    ⟨writeRecord true (arrayBytes true 2 [1, 2, 3]) 3 2 false,
      readRecord true none 4 5 2 0#32 0#32, [], []⟩ c →
    m ≤ n ∧ Steps (n - m) c
      ⟨.ret ⟨0, arrayBytes true 2 [1, 2, 3], false⟩, .ret ⟨.null, 4, true, false⟩, [], []⟩ :=
  C81_other_size true true 2 (by simp [Width]) [1, 2, 3] (by simp) (by decide) false none
    (by simp) 4 5 (by decide) (Or.inl (by decide)) 0#32 0#32

/-! ## Any peer, any failure -/

theorem outcome_put {α : Type} {bs : List Byte} {k : Bool → Proc α} {o : α}
    (h : Outcome (putBytes bs k) o) : ∃ ok, Outcome (k ok) o := by
  induction bs with
  | nil => exact ⟨true, h⟩
  | cons b bs ih =>
    cases h with
    | putOk h => exact ih h
    | putFail h => exact ⟨false, h⟩

theorem outcome_get {α : Type} {n : Nat} {k : List Byte → Bool → Proc α} {o : α}
    (h : Outcome (getBytes n k) o) :
    ∃ bs ok, bs.length ≤ n ∧ (ok = true → bs.length = n) ∧ Outcome (k bs ok) o := by
  induction n generalizing k with
  | zero => exact ⟨[], true, Nat.le_refl _, fun _ => rfl, h⟩
  | succ n ih =>
    cases h with
    | getOk b h =>
      obtain ⟨bs, ok, h1, h2, h3⟩ := ih h
      exact ⟨b :: bs, ok, by simp; omega, fun e => by simp [h2 e], h3⟩
    | getFail h => exact ⟨[], false, Nat.zero_le _, by simp, h⟩

theorem outcome_put_ok {α : Type} (bs : List Byte) {k : Bool → Proc α} {o : α}
    (h : Outcome (k true) o) : Outcome (putBytes bs k) o := by
  induction bs with
  | nil => exact h
  | cons b bs ih => exact .putOk ih

theorem outcome_put_fail {α : Type} (bs : List Byte) (hb : bs ≠ []) {k : Bool → Proc α} {o : α}
    (h : Outcome (k false) o) : Outcome (putBytes bs k) o := by
  cases bs with
  | nil => exact absurd rfl hb
  | cons b bs => exact .putFail h

theorem outcome_get_ok {α : Type} (bs : List Byte) {n : Nat} (hn : bs.length = n)
    {k : List Byte → Bool → Proc α} {o : α} (h : Outcome (k bs true) o) :
    Outcome (getBytes n k) o := by
  subst hn
  induction bs generalizing k with
  | nil => exact h
  | cons b bs ih => exact .getOk b (ih h)

theorem outcome_get_fail {α : Type} {n : Nat} (hn : 0 < n) {k : List Byte → Bool → Proc α} {o : α}
    (h : Outcome (k [] false) o) : Outcome (getBytes n k) o := by
  cases n with
  | zero => omega
  | succ n => exact .getFail h

theorem outcome_ack {α : Type} {s : Bool} {k : Proc α} {o : α}
    (h : Outcome (sendAckNack s k) o) : Outcome k o := by
  obtain ⟨_, h⟩ := outcome_put h
  exact h

theorem outcome_ret {α : Type} {a o : α} (h : Outcome (.ret a) o) : o = a := by
  cases h; rfl

private theorem swap_length (n : Nat) (l : List Byte) :
    (swapAll2 n l).length = l.length ∧ (swapAll4 n l).length = l.length ∧
    (swapAll8 n l).length = l.length := by
  refine ⟨?_, ?_, ?_⟩
  · fun_induction swapAll2 n l <;> simp_all [store]
    omega
  · fun_induction swapAll4 n l <;> simp_all [store]
    omega
  · fun_induction swapAll8 n l <;> simp_all [store]
    omega

theorem checkSwap_length (le : Bool) (record : List Byte) (size tok : Nat) :
    (checkSwap le record size tok).length = record.length := by
  have h := swap_length size
  simp only [checkSwap]
  split
  · rfl
  · split <;> split <;> (try split) <;> simp [h]

/-- C81 (bounds).  Whatever the peer sends, whatever fails, and whatever an uninitialised tag
happens to hold: with a positive maximum and a buffer of that many elements, `read_record` never
stores outside the caller's buffer; a record it returns fills the start of that buffer without
changing its size, and has the number of elements requested when a number was requested. -/
theorem C81_bounds (le : Bool) (buf : List Byte) (length maxlength : Int) (tok : Nat)
    (htok : 0 < tok) (hmax : 0 < maxlength) (hbuf : maxlength * tok ≤ buf.length)
    (j1 j3 : BitVec 32) (o : ReadOut)
    (h : Outcome (readRecord le (some buf) length maxlength tok j1 j3) o) :
    o.ptr ≠ .overflow ∧
    (∀ b, o.ptr = .data b → b.length = buf.length ∧ (0 < length → o.length = length) ∧
      0 ≤ o.length ∧ o.length ≤ maxlength) := by
  have htk : (if 1 < tok then tok else 1) = tok := by split <;> omega
  simp only [readRecord, htk] at h
  obtain ⟨_, h⟩ := outcome_put h
  obtain ⟨t1, ok1, _, _, h⟩ := outcome_get h
  generalize (tagValue le j1 t1).toInt = l1 at h
  split at h
  · rename_i h0
    obtain ⟨_, _, _, _, h⟩ := outcome_get h
    rw [outcome_ret (outcome_ack h)]
    exact ⟨by simp, by simp⟩
  · split at h
    · obtain ⟨_, _, _, _, h⟩ := outcome_get h
      rw [outcome_ret (outcome_ack h)]
      exact ⟨by simp, by simp⟩
    · rename_i h0 h1
      have hl1 : l1 ≤ maxlength * tok := by
        by_cases hx : maxlength * tok < l1
        · exact absurd ⟨hx, hmax⟩ h1
        · omega
      obtain ⟨bs, ok2, hb1, hb2, h⟩ := outcome_get h
      have hno : ¬ ((some buf).isSome = true ∧ ((some buf).getD []).length < bs.length) := by
        rintro ⟨_, hx⟩
        simp only [Option.getD_some] at hx
        omega
      simp only [if_neg hno] at h
      split at h
      · obtain ⟨_, _, _, _, h⟩ := outcome_get h
        rw [outcome_ret (outcome_ack h)]
        exact ⟨by simp, by simp⟩
      · obtain ⟨t3, _, _, _, h⟩ := outcome_get h
        generalize (tagValue le j3 t3).toInt = l3 at h
        simp only [readEnd] at h
        split at h
        · rw [outcome_ret (outcome_ack h)]
          exact ⟨by simp, by simp⟩
        · rename_i hne
          split at h
          · rw [outcome_ret (outcome_ack h)]
            exact ⟨by simp, by simp⟩
          · rename_i hreq
            split at h
            · rw [outcome_ret (outcome_ack h)]
              exact ⟨by simp, by simp⟩
            · rw [outcome_ret (outcome_ack h)]
              refine ⟨by simp, ?_⟩
              intro b hb
              simp only [Ptr.data.injEq] at hb
              subst hb
              refine ⟨?_, ?_, ?_, ?_⟩
              · rw [checkSwap_length]
                simp only [List.length_append, List.length_drop, Option.getD_some]
                omega
              · intro hlp
                have : length * tok = (bs.length : Int) := by
                  by_cases hx : length * tok = (bs.length : Int)
                  · exact hx
                  · exact absurd ⟨hlp, hx⟩ hreq
                rw [← this, Int.mul_ediv_cancel _ (by omega)]
              · exact Int.ediv_nonneg (by omega) (by omega)
              · have : (bs.length : Int) ≤ maxlength * tok := by omega
                calc (bs.length : Int) / tok ≤ (maxlength * tok) / tok :=
                      Int.ediv_le_ediv (by omega) this
                  _ = maxlength := Int.mul_ediv_cancel _ (by omega)

/-- C81 (no maximum).  Without a maximum nothing bounds the store: the peer announces eight
bytes, the buffer holds four. -/
theorem C81_overflow_witness :
    Outcome (readRecord true (some [0#8, 0#8, 0#8, 0#8]) 1 0 4 0#32 0#32)
      ⟨.overflow, 1, false, false⟩ :=
  outcome_put_ok _ (outcome_get_ok [0#8, 0#8, 0#8, 8#8] rfl
    (outcome_get_ok [1#8, 2#8, 3#8, 4#8, 5#8, 6#8, 7#8, 8#8] (by decide) (.ret _)))

/-- C81 (the caller's buffer).  When the two tags differ, `read_record` calls `free` on the
buffer of the caller (the condition of gossip_sock.c:2175 is the opposite of the one of the other
exits). -/
theorem C81_freed_witness :
    Outcome (readRecord true (some [0#8, 0#8, 0#8, 0#8]) 1 1 4 0#32 0#32)
      ⟨.null, 1, true, true⟩ := by
  refine outcome_put_ok _ (outcome_get_ok [0#8, 0#8, 0#8, 4#8] rfl ?_)
  refine outcome_get_ok [1#8, 2#8, 3#8, 4#8] (by decide) ?_
  dsimp only
  rw [if_neg (by decide), if_neg (by decide)]
  refine outcome_get_ok [0#8, 0#8, 0#8, 5#8] rfl ?_
  exact outcome_put_ok _ (.ret _)

/-- C81 (missing tag).  `get_int32_from_channel` does not report a failure; when the
uninitialised variable happens to hold the length, the record is accepted although its second
tag never came. -/
theorem C81_junk_witness :
    Outcome (readRecord true (some [0#8, 0#8, 0#8, 0#8]) 1 1 4 0#32 4#32)
      ⟨.data [4#8, 3#8, 2#8, 1#8], 1, false, false⟩ :=
  outcome_put_ok _ (outcome_get_ok [0#8, 0#8, 0#8, 4#8] rfl
    (outcome_get_ok [1#8, 2#8, 3#8, 4#8] (by decide)
      (outcome_get_fail (by decide) (outcome_put_ok _ (.ret _)))))

/-- C81 (the writer's array).  `write_record` returns 0 or -1; the array is as it was whenever
0 is returned, and always on a big-endian machine. -/
theorem C81_array_kept (le : Bool) (tok : Nat) (htok : Width tok) (elems : List Nat) (tw : Bool)
    (o : WriteOut)
    (h : Outcome (writeRecord le (arrayBytes le tok elems) elems.length tok tw) o) :
    (o.ret = 0 ∨ o.ret = -1) ∧
    (o.ret = 0 ∨ le = false → o.record = arrayBytes le tok elems) := by
  have hsw : checkSwap le (arrayBytes le tok elems) elems.length tok =
      arrayBytes false tok elems := by
    rw [checkSwap_array' le tok htok]; cases le <;> rfl
  have hback : checkSwap le (arrayBytes false tok elems) elems.length tok =
      arrayBytes le tok elems := by
    rw [checkSwap_array' le tok htok]; cases le <;> rfl
  simp only [writeRecord, hsw, hback] at h
  obtain ⟨_, _, _, _, h⟩ := outcome_get h
  split at h
  · rw [outcome_ret h]; simp
  · obtain ⟨_, h⟩ := outcome_put h
    obtain ⟨_, h⟩ := outcome_put h
    split at h
    · rw [outcome_ret (outcome_ack h)]
      cases le <;> simp
    · obtain ⟨_, h⟩ := outcome_put h
      obtain ⟨_, _, _, _, h⟩ := outcome_get h
      simp only [ite_self] at h
      rw [outcome_ret h]; simp

/-- C81 (the writer's array, failure).  On a little-endian machine, when the transfer of the
elements fails, the caller's array is left with its bytes reversed: the record is swapped in
place before the transfer (gossip_sock.c:1904) and swapped back only after it has succeeded
(gossip_sock.c:1955). -/
theorem C81_swapped_witness (tok : Nat) (htok : Width tok) (elems : List Nat) (hne : elems ≠ [])
    (tw : Bool) :
    Outcome (writeRecord true (arrayBytes true tok elems) elems.length tok tw)
      ⟨-1, arrayBytes false tok elems, true⟩ := by
  have hsw : checkSwap true (arrayBytes true tok elems) elems.length tok =
      arrayBytes false tok elems := by
    rw [checkSwap_array' true tok htok]; rfl
  have htp : 0 < tok := by rcases htok with rfl | rfl | rfl | rfl <;> decide
  have htake : (arrayBytes false tok elems).take (elems.length * tok) ≠ [] := by
    intro h
    have := congrArg List.length h
    rw [List.length_take, arrayBytes_length, Nat.min_self, List.length_nil] at this
    have := Nat.mul_pos (List.length_pos_iff.2 hne) htp
    omega
  simp only [writeRecord, hsw]
  exact outcome_get_ok [0#8, 0#8, 0#8, 0#8] rfl (outcome_put_ok _
    (outcome_put_fail _ htake (outcome_put_ok _ (.ret _))))

example : arrayBytes true 4 [1] = [1#8, 0#8, 0#8, 0#8] ∧
    arrayBytes false 4 [1] = [0#8, 0#8, 0#8, 1#8] := by decide

end Verif.Gossip
