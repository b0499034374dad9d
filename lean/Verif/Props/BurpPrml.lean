import Verif.BurpPrml
import Mathlib.Tactic
import Verif.Props.Burp
import Verif.BurpHist

namespace Verif.BurpPrml

open Verif Verif.Burp

/-! # C161: all blocks at once or one after the other -/

/-- A column of the table from the parameters of a block. -/
def ofParams (bkno : Nat) (p : Params) : List Nat :=
  [bkno, p.nele, p.nval, p.nt, p.bfam, p.bdesc, p.btyp, p.nbit, p.bit0, p.datyp]

theorem column_spec (k : Nat) (a b c d : W) : column k [a, b, c, d] =
    ofParams (k + 1)
      { nele := (Hdr.ofWords a b c d).dims.1, nval := (Hdr.ofWords a b c d).dims.2.1, nt := (Hdr.ofWords a b c d).dims.2.2,
        bfam := (Hdr.ofWords a b c d).bfamdesc % 64 * 64 + (Hdr.ofWords a b c d).bfamdesc / 64 % 64, bdesc := 0,
        btyp := (Hdr.ofWords a b c d).btyp, nbit := (Hdr.ofWords a b c d).nbit + 1, bit0 := (Hdr.ofWords a b c d).bit0,
        datyp := (Hdr.ofWords a b c d).datyp } := by
  have ha := a.isLt
  have hb := b.isLt
  have hc := c.isLt
  have hd := d.isLt
  have g11 : getbit [a, b, c, d] 11 12 = a.toNat / 2 ^ 20 := by simp [getbit]; omega
  have g26 : getbit [a, b, c, d] 26 15 = a.toNat / 2 ^ 5 % 2 ^ 15 := by simp [getbit]
  have g31 : getbit [a, b, c, d] 31 5 = a.toNat % 2 ^ 5 := by simp [getbit]
  have g39 : getbit [a, b, c, d] 39 8 = b.toNat / 2 ^ 24 := by simp [getbit]; omega
  have g43 : getbit [a, b, c, d] 43 4 = b.toNat / 2 ^ 20 % 2 ^ 4 := by simp [getbit]
  have g63 : getbit [a, b, c, d] 63 20 = b.toNat % 2 ^ 20 := by simp [getbit]
  have g71 : getbit [a, b, c, d] 71 8 = c.toNat / 2 ^ 24 := by simp [getbit]; omega
  have g79 : getbit [a, b, c, d] 79 8 = c.toNat / 2 ^ 16 % 2 ^ 8 := by simp [getbit]
  have g95 : getbit [a, b, c, d] 95 16 = c.toNat % 2 ^ 16 := by simp [getbit]
  have g111 : getbit [a, b, c, d] 111 16 = d.toNat / 2 ^ 16 := by simp [getbit]; omega
  have g127 : getbit [a, b, c, d] 127 16 = d.toNat % 2 ^ 16 := by simp [getbit]
  by_cases h : 128 ≤ c.toNat / 2 ^ 24
  · have h2 : c.toNat / 2 ^ 31 ≠ 0 := by omega
    have hdm : (Hdr.ofWords a b c d).dims = (c.toNat % 2 ^ 16, d.toNat / 2 ^ 16, d.toNat % 2 ^ 16) := if_pos h2
    rw [hdm]
    simp only [column, g11, g26, g31, g39, g43, g63, g71, g79, g95, g111, g127, ofParams, Hdr.ofWords, if_pos h]
  · have h2 : ¬ c.toNat / 2 ^ 31 ≠ 0 := by omega
    have h3 : c.toNat / 2 ^ 24 % 2 ^ 7 = c.toNat / 2 ^ 24 := by omega
    have hdm : (Hdr.ofWords a b c d).dims = (c.toNat / 2 ^ 24 % 2 ^ 7, c.toNat / 2 ^ 16 % 2 ^ 8, b.toNat / 2 ^ 24) := if_neg h2
    rw [hdm]
    simp only [column, g11, g26, g31, g39, g43, g63, g71, g79, g95, g111, g127, ofParams, Hdr.ofWords, if_neg h, h3]

/-- Four words copied do not depend on what was there. -/
theorem fill_four (src : List W) (p : Nat → Nat) (m m' : List W) (hm : m.length = 4) (hm' : m'.length = 4) :
    fill src p id 0 4 m = fill src p id 0 4 m' := by
  match m, hm with
  | [a, b, c, d], _ =>
    match m', hm' with
    | [a', b', c', d'], _ =>
      simp only [fill]
      rcases src[p 0]? with _ | v0 <;> rcases src[p 1]? with _ | v1 <;> rcases src[p 2]? with _ | v2 <;> rcases src[p 3]? with _ | v3 <;> simp [store]

theorem fill_four_length (src : List W) (p : Nat → Nat) (m r : List W) (hm : m.length = 4) (h : fill src p id 0 4 m = some r) : r.length = 4 := by
  match m, hm with
  | [a, b, c, d], _ =>
    simp only [fill] at h
    cases e0 : src[p 0]? <;> simp [e0, store] at h
    cases e1 : src[p 1]? <;> simp [e1] at h
    cases e2 : src[p 2]? <;> simp [e2] at h
    cases e3 : src[p 3]? <;> simp [e3] at h
    rw [← h]; rfl

/-- The extraction of a header. -/
theorem extract (u : W) (st : Buf) (k : Nat) (e : List W) (he : e.length = 4) (p : Params) (h : mrbprm u st (k + 1) = some p) :
    ∃ a b c d, xdfxtr u st e (k * 128) 4 32 0 = some (0, [a, b, c, d]) ∧ column k [a, b, c, d] = ofParams (k + 1) p := by
  unfold mrbprm readHdr at h
  have hx : xdfxtr u st e (k * 128) 4 32 0 = xdfxtr u st [0, 0, 0, 0] (128 * (k + 1 - 1)) 4 32 0 := by
    have e1 : k * 128 = 128 * (k + 1 - 1) := by omega
    have e2 : nbWords 4 32 = 4 := by decide
    rw [e1]
    unfold xdfxtr getWords
    have e3 : 128 * k % 64 = 0 := by omega
    rw [e2, fill_four _ _ e [0, 0, 0, 0] he rfl]
    simp [e3]
  cases hr : xdfxtr u st [0, 0, 0, 0] (128 * (k + 1 - 1)) 4 32 0 with
  | none => rw [hr] at h; simp at h
  | some r =>
    obtain ⟨c0, l⟩ := r
    rw [hr] at h hx
    match c0, l with
    | 0, [a, b, c, d] =>
      simp only [Option.some.injEq] at h
      exact ⟨a, b, c, d, hx, by rw [column_spec, ← h]⟩
    | 0, [] => simp at h
    | 0, [_] => simp at h
    | 0, [_, _] => simp at h
    | 0, [_, _, _] => simp at h
    | 0, _ :: _ :: _ :: _ :: _ :: _ => simp at h
    | Int.ofNat (n + 1), _ => cases h
    | Int.negSucc n, _ => cases h

theorem loop_spec (u : W) (st : Buf) (n k : Nat) (e : List W) (he : e.length = 4) (ps : Nat → Params)
    (h : ∀ i < n, mrbprm u st (k + i + 1) = some (ps i)) :
    loop u st n k e = some ((List.range n).map fun i => ofParams (k + i + 1) (ps i)) := by
  induction n generalizing k e ps with
  | zero => rfl
  | succ n ih =>
    obtain ⟨a, b, c, d, hx, hc⟩ := extract u st k e he (ps 0) (by simpa using h 0 (by omega))
    have := ih (k + 1) [a, b, c, d] rfl (fun i => ps (i + 1)) (fun i hi => by
      have := h (i + 1) (by omega)
      rwa [show k + (i + 1) + 1 = k + 1 + i + 1 by omega] at this)
    rw [loop, hx]
    simp only
    rw [this, List.range_succ_eq_map, List.map_cons, hc, List.map_map]
    simp only [Option.some.injEq, List.cons.injEq, true_and, Nat.add_zero]
    apply List.map_congr_left
    intro i _
    simp only [Function.comp, Nat.succ_eq_add_one]
    rw [show k + 1 + i + 1 = k + (i + 1) + 1 by omega]

/-- **C161**.  The table has for each block, from the one after block `k` on, what `mrbprm` gives for it alone. -/
theorem C161_table (u : W) (st : Buf) (k n : Nat) (e : List W) (he : e.length = 4) (hn : n ≤ st.nblk) (ps : Nat → Params)
    (h : ∀ i < n, mrbprm u st (k + i + 1) = some (ps i)) :
    mrbprml u st k 10 n e = some ((n : Int), (List.range n).map fun i => ofParams (k + i + 1) (ps i)) := by
  have h1 : min (n : Int) st.nblk = n := by omega
  have h2 : (max (k : Int) 0).toNat = k := by omega
  unfold mrbprml
  rw [if_neg (by simp)]
  simp only
  rw [h1, h2, Int.toNat_natCast, loop_spec u st n k e he ps h]

/-- **C161**.  After any history of additions, deletions and replacements within the conditions of C49 the table of all blocks has
number, dimensions, family and type of each block in order, whatever larger number of blocks is asked for. -/
theorem C161_history_partial (u : W) {st0 : Buf} (h0 : Fresh st0) {ops : List Op} (hleg : Legal st0.data.length [] ops) (e : List W)
    (he : e.length = 4) (want : Nat) (hw : (blocks ops).length ≤ want) :
    ∃ st, run u st0 ops = some (ops.map (fun _ => 0), st) ∧ ∃ t, mrbprml u st 0 10 want e = some (((blocks ops).length : Int), t) ∧
      t.length = (blocks ops).length ∧
      ∀ i r, (blocks ops)[i]? = some r → ∃ nbit bit0 datyp, t[i]? = some [i + 1, r.nele, r.nval, r.nt, r.fam, 0, r.btyp, nbit, bit0, datyp] := by
  obtain ⟨st, e1, hp⟩ := C49_params_partial u h0 hleg
  obtain ⟨st', e2, hn, -⟩ := C49_history_partial u h0 hleg
  have : st' = st := by
    have h := Option.some.inj (e2.symm.trans e1)
    exact (Prod.ext_iff.1 h).2
  subst this
  refine ⟨st', e1, ?_⟩
  have hex : ∀ i, ∃ p : Params, i < (blocks ops).length → mrbprm u st' (0 + i + 1) = some p := by
    intro i
    by_cases hi : i < (blocks ops).length
    · obtain ⟨p, h, -⟩ := hp i _ (List.getElem?_eq_getElem hi)
      exact ⟨p, fun _ => by rw [Nat.zero_add]; exact h⟩
    · exact ⟨⟨0, 0, 0, 0, 0, 0, 0, 0, 0⟩, fun h => absurd h hi⟩
  choose ps hps using hex
  have ht := C161_table u st' 0 (blocks ops).length e he (by omega) ps hps
  have hmin : mrbprml u st' 0 10 want e = mrbprml u st' ((0 : Nat) : Int) 10 ((blocks ops).length : Nat) e := by
    unfold mrbprml
    have h1 : min (want : Int) st'.nblk = st'.nblk := by omega
    have h2 : min (((blocks ops).length : Nat) : Int) st'.nblk = st'.nblk := by omega
    simp only [h1, h2, Nat.cast_zero]
  refine ⟨_, hmin.trans ht, by simp, ?_⟩
  intro i r hr
  have hi : i < (blocks ops).length := (List.getElem?_eq_some_iff.1 hr).1
  obtain ⟨p, h1, h2, h3, h4, h5, h6, -⟩ := hp i r hr
  have hpp := hps i hi
  rw [Nat.zero_add, h1] at hpp
  have hpp := Option.some.inj hpp
  have hb : p.bdesc = 0 := by
    unfold mrbprm at h1
    split at h1
    · exact absurd h1 (by simp)
    · rw [← Option.some.inj h1]
  refine ⟨p.nbit, p.bit0, p.datyp, ?_⟩
  rw [List.getElem?_map, List.getElem?_range hi]
  simp only [Option.map_some, Nat.zero_add, ← hpp, ofParams, h2, h3, h4, h5, h6, hb]

/-- C161.  The number of columns does not take the first block into account: from the last block on as many columns are stored as
there are blocks, all of them from words which are no headers, and the value is no error. -/
theorem C161_beyond_witness :
    let st : Buf := { nwords := 40, nbits := 512, dataIndex := 10, nblk := 1, hdrBits := 128, data := List.replicate 10 0 ++ [0x12345678, 1, 2, 3] ++ [5, 6, 7, 8, 9, 10] }
    mrbprml 0 st 1 10 3 [0, 0, 0, 0] = some (1, [[2, 0, 0, 0, 0, 0, 0, 6, 6, 0]]) := by decide +kernel

/-- C161.  A table of another first dimension is refused, with a value which says that there are 40 blocks. -/
theorem C161_refused (u : W) (st : Buf) (k nprm n : Int) (e : List W) (h : nprm ≠ 10) : mrbprml u st k nprm n e = some (40, []) := by
  rw [mrbprml, if_pos h]

/-- The report of the sample of C49, read from its first block. -/
example : ∃ st, run 0 (emptyReport 100) sampleOps = some ([0, 0, 0, 0, 0], st) ∧
    ∃ cols, mrbprml 0 st 0 10 5 ([0, 0, 0, 0]) = some (2, cols) ∧ cols.length = 2 := by
  obtain ⟨st, e1, cols, h, hl, _⟩ := C161_history_partial 0 sample_fresh sample_legal (want := 5) (e := [0, 0, 0, 0]) (by decide) (by decide)
  exact ⟨st, e1, cols, h, hl⟩

end Verif.BurpPrml
