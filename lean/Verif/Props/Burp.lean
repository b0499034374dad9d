import Verif.BurpLoc

/-! # C49, C56: blocks of BURP reports -/

namespace Verif.Burp

/-- A report without blocks (`c_mrbini`): ten words of keys, the rest unused. -/
structure Fresh (st : Buf) : Prop where
  idx : st.dataIndex = 10
  nbits : st.nbits = 320
  nblk : st.nblk = 0
  hdrBits : st.hdrBits = 0
  room : 11 ≤ st.data.length
  cap : st.data.length ≤ st.nwords

theorem Fresh.lay {st : Buf} (h : Fresh st) : Lay st (st.data.take 10) [] (st.data.drop 10) := by
  have hr := h.room
  refine ⟨by simp; omega, by simp, h.idx, by simp [h.nbits], h.nblk, h.hdrBits, ?_, by simp, by simp, by simp, ?_, h.cap⟩
  · intro pre b post he; simp at he
  · intro hz; have := congrArg List.length hz; simp at this; omega

/-- The blocks that a history leaves. -/
abbrev blocks (ops : List Op) : List Rec := ops.foldl specStep []

/-- After any history of additions, deletions and replacements within the conditions, every call has succeeded and
every block is extracted with its own list and values.
Missing: blocks of type 3 deleted or replaced (see `C49_delete_witness`), additions refused after the list is written
(`C49_refused_witness`), values that need more than 31 bits and a sign, reports filled to the last words. -/
theorem C49_history_partial (u : W) {st0 : Buf} (h0 : Fresh st0) {ops : List Op}
    (hleg : Legal st0.data.length [] ops) :
    ∃ st, run u st0 ops = some (ops.map (fun _ => 0), st) ∧ st.nblk = (blocks ops).length ∧
      ∀ i r, (blocks ops)[i]? = some r → ∀ lst0 vals0, r.lst.length ≤ lst0.length → r.vals.length ≤ vals0.length →
        ∃ l v, mrbxtr u st (i + 1) lst0 vals0 = some (0, l, v) ∧ l.take r.lst.length = r.lst ∧
          v.take r.vals.length = r.vals := by
  obtain ⟨st, rest, bs, e, hL, hF⟩ := run_lay u ops h0.lay (s := []) .nil hleg
  refine ⟨st, e, by rw [hL.nblk]; exact hF.length_eq.symm, fun i r hr => (reads_lay u hL hF hr).1⟩

/-- The parameters of every block are those given; the width may have grown and unsigned become signed. -/
theorem C49_params_partial (u : W) {st0 : Buf} (h0 : Fresh st0) {ops : List Op}
    (hleg : Legal st0.data.length [] ops) :
    ∃ st, run u st0 ops = some (ops.map (fun _ => 0), st) ∧
      ∀ i r, (blocks ops)[i]? = some r → ∃ p, mrbprm u st (i + 1) = some p ∧ p.nele = r.nele ∧ p.nval = r.nval ∧
        p.nt = r.nt ∧ p.bfam = r.fam ∧ p.btyp = r.btyp ∧
        ((r.datyp = 2 ∨ r.datyp = 4) ∧ (p.datyp = 2 ∨ p.datyp = 4) ∧ r.nbit ≤ p.nbit ∨
          (r.datyp = 3 ∨ r.datyp = 5) ∧ p.datyp = r.datyp ∧ p.nbit = 8 ∨
          (6 ≤ r.datyp ∧ r.datyp ≤ 9) ∧ p.datyp = r.datyp ∧ p.nbit = 32) := by
  obtain ⟨st, rest, bs, e, hL, hF⟩ := run_lay u ops h0.lay (s := []) .nil hleg
  exact ⟨st, e, fun i r hr => (reads_lay u hL hF hr).2⟩

/-- A missing value (all bits set) is extracted as missing and only where it was given. -/
theorem C49_missing_partial (u : W) {st0 : Buf} (h0 : Fresh st0) {ops : List Op}
    (hleg : Legal st0.data.length [] ops) :
    ∃ st, run u st0 ops = some (ops.map (fun _ => 0), st) ∧
      ∀ i r, (blocks ops)[i]? = some r → ∀ lst0 vals0, r.lst.length ≤ lst0.length → r.vals.length ≤ vals0.length →
        ∃ l v, mrbxtr u st (i + 1) lst0 vals0 = some (0, l, v) ∧
          ∀ (j : Nat) (x : W), r.vals[j]? = some x → (v[j]? = some (BitVec.allOnes 32) ↔ x = BitVec.allOnes 32) := by
  obtain ⟨st, e, _, h⟩ := C49_history_partial u h0 hleg
  refine ⟨st, e, fun i r hr lst0 vals0 h1 h2 => ?_⟩
  obtain ⟨l, v, ex, _, hv⟩ := h i r hr lst0 vals0 h1 h2
  refine ⟨l, v, ex, fun j x hx => ?_⟩
  have hj : j < r.vals.length := (List.getElem?_eq_some_iff.1 hx).1
  have : v[j]? = some x := by
    rw [← hx]
    conv_rhs => rw [← hv]
    rw [List.getElem?_take, if_pos hj]
  rw [this]; simp

/-- The family and type that a search accepts. -/
def Wanted (bfam bdesc btyp : W) (r : Rec) : Prop :=
  (bfam = -1 ∨ r.fam = (if bdesc = 0 ∨ bdesc = -1 then bfam.toNat else bfam.toNat % 64 + 64 * bdesc.toNat)) ∧
  (btyp = -1 ∨
    ((btyp.toNat.testBit 28 = true ∨ btyp.toNat % 16 = r.btyp % 16) ∧
     (btyp.toNat.testBit 29 = true ∨ btyp.toNat / 16 % 128 = r.btyp / 16 % 128) ∧
     (btyp.toNat.testBit 30 = true ∨ btyp.toNat / 2048 % 16 = r.btyp / 2048 % 16)))

/-- After such a history a search from block `blkno` gives the number of the first later block that is wanted, and −1
exactly when there is none. -/
theorem C56_search_partial (u : W) {st0 : Buf} (h0 : Fresh st0) {ops : List Op}
    (hleg : Legal st0.data.length [] ops) {bfam bdesc btyp : W} {blkno : Nat} (hb : blkno ≤ (blocks ops).length)
    (h1 : bfam = -1 → bdesc = 0 ∨ bdesc = -1)
    (h2 : bfam ≠ -1 → bfam.toNat < 4096 ∧ (bdesc = 0 ∨ bdesc = -1 ∨
      (bdesc.toNat < 64 ∧ (bfam.toNat / 64 = 0 ∨ bfam.toNat / 64 = bdesc.toNat)))) :
    ∃ st k, run u st0 ops = some (ops.map (fun _ => 0), st) ∧ mrbloc st bfam bdesc btyp blkno = some k ∧
      ((k = -1 ∧ ∀ j r, blkno ≤ j → (blocks ops)[j]? = some r → ¬ Wanted bfam bdesc btyp r) ∨
       ∃ j r, blkno ≤ j ∧ k = (j : Int) + 1 ∧ (blocks ops)[j]? = some r ∧ Wanted bfam bdesc btyp r ∧
        ∀ j' r', blkno ≤ j' → j' < j → (blocks ops)[j']? = some r' → ¬ Wanted bfam bdesc btyp r') := by
  obtain ⟨st, rest, bs, e, hL, hF⟩ := run_lay u ops h0.lay (s := []) .nil hleg
  obtain ⟨fd, efd, hfd⟩ := locFam_spec h1 h2
  have hlen : (blocks ops).length = bs.length := hF.length_eq
  have hblk : ∀ i h, (bs.map (·.hdr))[i]? = some h → blockAt st.data i = some h := by
    intro i h hh
    rw [List.getElem?_map] at hh
    cases hbi : bs[i]? with
    | none => rw [hbi] at hh; simp at hh
    | some b =>
      rw [hbi] at hh
      simp only [Option.map_some, Option.some.injEq] at hh
      obtain ⟨s1, s2, b1, b', b2, _, rfl, _, n2, _, _, _⟩ := Forall₂.split hF (i := i)
        (r := (blocks ops)[i]'(by have := (List.getElem?_eq_some_iff.1 hbi).1; omega)) (List.getElem?_eq_getElem _)
      rw [← n2, List.getElem?_append_right (Nat.le_refl _), Nat.sub_self] at hbi
      simp only [List.getElem?_cons_zero, Option.some.injEq] at hbi
      have := blockAt_lay hL
      rw [← n2, this, hbi, hh]
  obtain ⟨k, ek, hk⟩ := locLoop_spec (fd := fd) (mfd := if fd = -1 then 0 else -1) (btyp := btyp) (mbt := btypMask btyp) hblk
    (bs.length - blkno) blkno (by simp; omega)
  -- the match is the wanted relation
  have hm : ∀ (j : Nat) (r : Rec) (b : Blk), (blocks ops)[j]? = some r → bs[j]? = some b →
      (locMatch fd (if fd = -1 then 0 else -1) btyp (btypMask btyp) b.hdr = true ↔ Wanted bfam bdesc btyp r) := by
    intro j r b hr hb'
    obtain ⟨s1, s2, b1, b', b2, _, rfl, _, n2, _, hh, _⟩ := Forall₂.split hF hr
    rw [← n2, List.getElem?_append_right (Nat.le_refl _), Nat.sub_self] at hb'
    simp only [List.getElem?_cons_zero, Option.some.injEq] at hb'
    subst hb'
    have hwf := hL.wf b' (by simp)
    have hbt : (BitVec.ofNat 32 b'.hdr.btyp).toNat = r.btyp := by
      rw [BitVec.toNat_ofNat, hh.btyp.symm]; have := hwf.btyp; omega
    unfold locMatch Wanted
    simp only [Bool.and_eq_true, beq_iff_eq]
    have q1 := hfd b'.hdr.bfamdesc hwf.bfamdesc
    have q2 := btyp_match btyp (BitVec.ofNat 32 b'.hdr.btyp)
    rw [hbt] at q2
    rw [q1, q2, hh.fam]
  have hmap : ∀ {j : Nat} {b : Blk}, bs[j]? = some b → (bs.map (·.hdr))[j]? = some b.hdr := by
    intro j b hb'; rw [List.getElem?_map, hb']; rfl
  have hpair : ∀ {j : Nat} {r : Rec}, (blocks ops)[j]? = some r → ∃ b, bs[j]? = some b := by
    intro j r hr
    have := (List.getElem?_eq_some_iff.1 hr).1
    exact ⟨_, List.getElem?_eq_getElem (by omega)⟩
  refine ⟨st, k, e, ?_, ?_⟩
  · unfold mrbloc
    rw [efd]
    simp only
    rw [hL.nblk]
    exact ek
  · rcases hk with ⟨hk, hall⟩ | ⟨j, h, hj, hk, hh, hmt, hall⟩
    · refine Or.inl ⟨hk, fun j r hj hr hw => ?_⟩
      obtain ⟨b, hb'⟩ := hpair hr
      have := hall j b.hdr hj (hmap hb')
      rw [(hm j r b hr hb').2 hw] at this
      cases this
    · rw [List.getElem?_map] at hh
      cases hb' : bs[j]? with
      | none => rw [hb'] at hh; simp at hh
      | some b =>
        rw [hb'] at hh
        simp only [Option.map_some, Option.some.injEq] at hh
        subst hh
        have hjl := (List.getElem?_eq_some_iff.1 hb').1
        obtain ⟨r, hr⟩ : ∃ r, (blocks ops)[j]? = some r := ⟨_, List.getElem?_eq_getElem (by omega)⟩
        refine Or.inr ⟨j, r, hj, hk, hr, (hm j r b hr hb').1 hmt, fun j' r' hj' hlt hr' hw => ?_⟩
        obtain ⟨b2, hb2⟩ := hpair hr'
        have := hall j' b2.hdr hj' hlt (hmap hb2)
        rw [(hm j' r' b2 hr' hb2).2 hw] at this
        cases this

/-- An addition refused for its values (−41), its list (−44) or its descriptor (−43) leaves the report as it was, whatever
the report. -/
theorem C49_refused (u : W) (st st' : Buf) (a : AddArgs) (e : Int) (h : mrbadd u st a = some (e, st'))
    (he : e = -41 ∨ e = -43 ∨ e = -44) : st' = st := by
  have hput : ∀ v i n nb dt d r, putWords u v i n nb dt d = some r → r.1 = 0 ∨ r.1 = -16 := by
    intro v i n nb dt d r h
    unfold putWords at h
    split at h
    · obtain ⟨_, _, rfl⟩ := Option.map_eq_some_iff.1 h; simp
    · split at h
      · obtain ⟨_, _, rfl⟩ := Option.map_eq_some_iff.1 h; simp
      · split at h
        · obtain ⟨_, _, rfl⟩ := Option.map_eq_some_iff.1 h; simp
        · split at h
          · obtain ⟨_, _, rfl⟩ := Option.map_eq_some_iff.1 h; simp
          · cases h; simp
  have hins : ∀ st v b n nb dt r, xdfins u st v b n nb dt = some r → r.1 = 0 ∨ r.1 = -16 ∨ r.1 = -18 ∨ r.1 = -19 := by
    intro st v b n nb dt r h
    unfold xdfins at h
    simp only at h
    split at h
    · cases h; simp
    · split at h
      · cases h; simp
      · split at h
        · cases h; simp
        · split at h
          · cases h
          · split at h
            · cases h
            · cases h; simp
            · rename_i hp; cases h; have := hput _ _ _ _ _ _ _ hp; simp at this ⊢; omega
  have hadd : ∀ st v n nb dt r, xdfadd u st v n nb dt = some r → r.1 = 0 ∨ r.1 = -16 ∨ r.1 = -19 := by
    intro st v n nb dt r h
    unfold xdfadd at h
    split at h
    · cases h; simp
    · split at h
      · cases h; simp
      · split at h
        · cases h
        · cases h; simp
        · rename_i hp; cases h; have := hput _ _ _ _ _ _ _ hp; simp at this ⊢; omega
  unfold mrbadd at h
  split at h
  · cases h; rfl
  · split at h
    · cases h
    · split at h
      · cases h; rfl
      · split at h
        · cases h
        · split at h
          · cases h; rfl
          · split at h
            · cases h; rfl
            · exfalso
              unfold addParts at h
              simp only at h
              split at h
              · cases h
              · split at h
                · cases h
                · split at h
                  · cases h
                  · split at h
                    · cases h
                    · cases h; omega
                    · rename_i hp; cases h; have := hadd _ _ _ _ _ _ hp; simp at this; omega
                  · rename_i hp; cases h; have := hins _ _ _ _ _ _ _ hp; simp at this; omega

/-- Calls with a block number that does not exist are refused and change nothing. -/
theorem C49_number (u : W) (st : Buf) (i : Nat) (h : i < 1 ∨ st.nblk < i) (lst vals : List W) :
    mrbdel u st i = some (-33, st) ∧ mrbrep u st i vals = some (-33, st) ∧
      mrbxtr u st i lst vals = some (-33, lst, vals) := by
  refine ⟨?_, ?_, ?_⟩
  · unfold mrbdel; rw [if_pos h]
  · unfold mrbrep; rw [if_pos h]
  · unfold mrbxtr; rw [if_pos h]

/-! ## Concrete cases -/

/-- An empty report of `n` words. -/
def emptyReport (n : Nat) : Buf := { nwords := n + 9, nbits := 320, dataIndex := 10, nblk := 0, hdrBits := 0, data := List.replicate n 0 }

def args (nele nval nt bfam btyp nbit datyp : Nat) (lst vals : List W) : AddArgs :=
  { nele, nval, nt, bfam, bdesc := 0, btyp, nbit, datyp, lst, vals, past := fun _ => 0, junkNt := 0, junkNval := 0 }

def blkA : AddArgs := args 4 2 1 8 6 10 2 [12001#32, 12002#32, 12003#32, 12004#32] [1, 2, 3, -1, 5, 6, 7, 1022]
def blkB : AddArgs := args 1 3 1 65 7 4 4 [11011#32] [-5, -1, 7]
def blkC : AddArgs := args 2 2 1 3 9 8 5 [1#32, 2#32] [0x61626364#32, 0]
def blkD : AddArgs := args 1 4 1 3 9 8 3 [7#32] [0x61626364#32, 0]

theorem blkA_good : Good blkA := by
  refine ⟨by decide, rfl, by
      intro x hx; simp only [blkA, args, List.mem_cons, List.not_mem_nil, or_false] at hx
      rcases hx with rfl | rfl | rfl | rfl <;> decide, ⟨by decide, by decide, ?_⟩, by decide, by decide, by decide, ?_⟩
  · intro i e c _ h; simp [slotCode, blkA, args] at h
  · exact .ints (by decide) (by decide) (by decide) rfl (by decide) (Or.inr (Or.inl ⟨rfl, by
      intro x hx; simp only [blkA, args, List.mem_cons, List.not_mem_nil, or_false] at hx
      rcases hx with rfl | rfl | rfl | rfl | rfl | rfl | rfl | rfl <;> decide⟩))

theorem blkB_good : Good blkB := by
  refine ⟨by decide, rfl, by
      intro x hx; simp only [blkB, args, List.mem_cons, List.not_mem_nil, or_false] at hx
      subst hx; decide, ⟨by decide, by decide, ?_⟩, by decide, by decide, by decide, ?_⟩
  · intro i e c _ h; simp [slotCode, blkB, args] at h
  · exact .ints (by decide) (by decide) (by decide) rfl (by decide) (Or.inr (Or.inr (by
      intro x hx; simp only [blkB, args, List.mem_cons, List.not_mem_nil, or_false] at hx
      rcases hx with rfl | rfl | rfl <;> decide)))

theorem blkC_good : Good blkC := by
  refine ⟨by decide, rfl, by
      intro x hx; simp only [blkC, args, List.mem_cons, List.not_mem_nil, or_false] at hx
      rcases hx with rfl | rfl <;> decide, ⟨by decide, by decide, ?_⟩, by decide, by decide, by decide, ?_⟩
  · intro i e c _ h; simp [slotCode, blkC, args] at h
  · exact .chars (by decide) rfl rfl

def sampleOps : List Op :=
  [.add blkA, .add blkB, .add blkC, .rep 2 [100, -1, -3000], .del 1]

theorem sample_fresh : Fresh (emptyReport 100) := by
  refine ⟨rfl, rfl, rfl, rfl, ?_, ?_⟩ <;> simp [emptyReport]

theorem sample_legal : Legal (emptyReport 100).data.length [] sampleOps := by
  have hl : (emptyReport 100).data.length = 100 := by simp [emptyReport]
  rw [hl]
  refine ⟨blkA_good, by decide, by decide, blkB_good, by decide, by decide, blkC_good, by decide, by decide,
    ⟨by decide, blkB.toRec, rfl, by decide, by
      rw [if_pos (by decide)]
      refine ⟨rfl, fun x hx => ?_⟩
      simp only [List.mem_cons, List.not_mem_nil, or_false] at hx
      rcases hx with rfl | rfl | rfl <;> decide⟩, by decide, by decide,
    ⟨by decide, blkA.toRec, rfl, by decide⟩, by decide, by decide, trivial⟩

example : (blocks sampleOps).map (·.vals) = [[100, -1, -3000], [0x41424344#32, 0]] := by decide

example : ∃ st, run 0 (emptyReport 100) sampleOps = some ([0, 0, 0, 0, 0], st) ∧ st.nblk = 2 := by
  obtain ⟨st, e, h, _⟩ := C49_history_partial 0 sample_fresh sample_legal
  exact ⟨st, e, h⟩

/-- The search of the sample: family 65 is found at the first block. -/
example : ∃ st k, run 0 (emptyReport 100) sampleOps = some ([0, 0, 0, 0, 0], st) ∧ mrbloc st 65 0 (-1) 0 = some k ∧
    Wanted 65 0 (-1) blkB.toRec := by
  obtain ⟨st, k, e, h, _⟩ := C56_search_partial 0 sample_fresh sample_legal (bfam := 65) (bdesc := 0) (btyp := -1)
    (blkno := 0) (by decide) (by decide) (by decide)
  exact ⟨st, k, e, h, by decide, Or.inl rfl⟩

/-- A refused addition: negative values of more than 31 bits. -/
example : mrbadd 0 (emptyReport 100) { blkB with vals := [-5, -1, 1073741824] } = some (-41, emptyReport 100) := by
  decide +kernel

/-- Deleting a block of type 3 returns 0 but leaves its values: the block after it, stored with the values −5, missing,
7, is then extracted with other values. -/
theorem C49_delete_witness :
    ((run 0 (emptyReport 60) [.add blkD, .add blkB]).bind fun s1 => (mrbdel 0 s1.2 1).bind fun s2 =>
      (mrbxtr 0 s2.2 1 [0] [0, 0, 0, 0]).map fun x => (s2.1, x)) =
    some (0, (0, [11011#32], [-4, -11, 1, 0])) := by
  decide +kernel

/-- An addition of type 1 is refused after the list and the header are written: the block before it, stored with the
values −5, missing, 7, is then extracted with other values. -/
theorem C49_refused_witness :
    ((run 0 (emptyReport 60) [.add blkB]).bind fun s1 =>
      (mrbadd 0 s1.2 { blkB with datyp := 1, vals := [5, -1, 7] }).bind fun s2 =>
      (mrbxtr 0 s2.2 1 [0] [0, 0, 0, 0]).map fun x => (s2.1, x)) =
    some (-16, (0, [11011#32], [-16, 0, -8, 0])) := by
  decide +kernel

/-- A block of missing values only, added with width 0: the values are extracted as zeros. -/
theorem C49_zero_width_witness :
    ((run 0 (emptyReport 60) [.add { blkB with datyp := 2, nbit := 0, vals := [-1, -1, -1] }]).bind fun s1 =>
      (mrbxtr 0 s1.2 1 [0] [9, 9, 9, 9]).map fun x => (s1.1, x)) =
    some ([0], (0, [11011#32], [0, 0, 0, 9])) := by
  decide +kernel

end Verif.Burp
