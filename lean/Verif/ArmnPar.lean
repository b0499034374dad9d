import Verif.ArmnLemmas

/-! # Parallelogram method: helper lemmas -/

namespace Verif

theorem and_low_toNat (x : W) (w : Nat) (h : w ≤ 32) : (x &&& ~~~((-1#32) <<< w)).toNat = x.toNat % 2 ^ w := by
  apply Nat.eq_of_testBit_eq
  intro i
  rw [BitVec.testBit_toNat, Nat.testBit_mod_two_pow, BitVec.testBit_toNat]
  simp only [BitVec.getLsbD_and, BitVec.getLsbD_not, BitVec.getLsbD_shiftLeft, BitVec.neg_one_eq_allOnes, BitVec.getLsbD_allOnes]
  by_cases h1 : i < 32
  · by_cases h2 : i < w
    · simp [h1, h2]
    · have : i - w < 32 := by omega
      simp [h1, h2, this]
  · simp [h1, show ¬ i < w by omega]

theorem lowBits_toNat (w : Nat) (h : w ≤ 32) (d : Int) : ((lowBits w d).toNat : Int) = d % (2 ^ w : Nat) := by
  unfold lowBits
  rw [and_low_toNat _ _ h, BitVec.toNat_ofInt]
  have h0 : (0 : Int) ≤ d % ((2 ^ 32 : Nat) : Int) := Int.emod_nonneg _ (by decide)
  rw [Int.natCast_emod, Int.toNat_of_nonneg h0]
  exact Int.emod_emod_of_dvd _ (Int.natCast_dvd_natCast.2 (Nat.pow_dvd_pow 2 h))

theorem lowBits_lt (w : Nat) (h : w ≤ 32) (d : Int) : (lowBits w d).toNat < 2 ^ w := by
  have h1 := lowBits_toNat w h d
  have h2 := Int.emod_lt_of_pos d (b := ((2 ^ w : Nat) : Int)) (by exact_mod_cast Nat.two_pow_pos w)
  omega

/-- A difference of magnitude below `2^n` survives storage on `n + 1` bits. -/
theorem signExt_lowBits (n : Nat) (h : n ≤ 30) (d : Int) (hd : d.natAbs < 2 ^ n) :
    signExt (n + 1) (lowBits (n + 1) d) = d := by
  have h1 := lowBits_toNat (n + 1) (by omega) d
  have h2 := lowBits_lt (n + 1) (by omega) d
  generalize lowBits (n + 1) d = t at h1 h2
  have key : 2 ^ (32 - (n + 1)) * 2 ^ (n + 1) = 2 ^ 32 := by rw [← Nat.pow_add]; congr 1; omega
  have hp := Nat.two_pow_pos (32 - (n + 1))
  have hp2 : 2 ^ (n + 1) = 2 * 2 ^ n := by rw [Nat.pow_succ]; omega
  have ht : (t.toNat : Int) = if 0 ≤ d then d else d + 2 * (2 ^ n : Nat) := by
    rw [h1, hp2]
    split
    · exact Int.emod_eq_of_lt (by assumption) (by omega)
    · rw [← Int.add_emod_right, Int.natCast_mul]
      exact Int.emod_eq_of_lt (by omega) (by omega)
  have hsh : (t <<< (32 - (n + 1))).toNat = t.toNat * 2 ^ (32 - (n + 1)) := by
    rw [BitVec.toNat_shiftLeft, Nat.shiftLeft_eq]
    apply Nat.mod_eq_of_lt
    calc t.toNat * 2 ^ (32 - (n + 1)) < 2 ^ (n + 1) * 2 ^ (32 - (n + 1)) := Nat.mul_lt_mul_of_pos_right h2 hp
      _ = 2 ^ 32 := by rw [Nat.mul_comm]; exact key
  have hint : (t <<< (32 - (n + 1))).toInt = d * (2 ^ (32 - (n + 1)) : Nat) := by
    rw [BitVec.toInt_eq_toNat_cond, hsh]
    have e32 : (2 : Nat) ^ 32 = 2 ^ (32 - (n + 1)) * (2 * 2 ^ n) := by rw [← hp2, key]
    rw [e32]
    generalize hq : 2 ^ (32 - (n + 1)) = q at *
    generalize hm : 2 ^ n = m at *
    split at ht
    · rw [if_pos]
      · rw [Int.natCast_mul, ht]
      · have : 2 * t.toNat < 2 * m := by omega
        calc 2 * (t.toNat * q) = (2 * t.toNat) * q := by rw [Nat.mul_assoc]
          _ < (2 * m) * q := Nat.mul_lt_mul_of_pos_right this hp
          _ = q * (2 * m) := Nat.mul_comm ..
    · rw [if_neg]
      · rw [Int.natCast_mul, ht, Int.natCast_mul, Int.add_mul]
        push_cast
        rw [Int.mul_comm (q : Int)]
        omega
      · have : 2 * m ≤ 2 * t.toNat := by omega
        have : q * (2 * m) ≤ 2 * (t.toNat * q) := by
          calc q * (2 * m) = (2 * m) * q := Nat.mul_comm ..
            _ ≤ (2 * t.toNat) * q := Nat.mul_le_mul_right _ this
            _ = 2 * (t.toNat * q) := by rw [Nat.mul_assoc]
        omega
  unfold signExt
  rw [BitVec.toInt_sshiftRight, hint, Int.shiftRight_eq_div_pow]
  exact Int.mul_ediv_cancel _ (by exact_mod_cast Nat.pos_iff_ne_zero.1 hp)

theorem foldl_abs_spec (e : Nat → Int) (l : List Nat) (a : Int) :
    let m : Int := l.foldl (fun (m : Int) k => if m < (e k).natAbs then ((e k).natAbs : Int) else m) a
    a ≤ m ∧ (∀ k ∈ l, ((e k).natAbs : Int) ≤ m) ∧ (m = a ∨ ∃ k ∈ l, m = (e k).natAbs) := by
  induction l generalizing a with
  | nil => simp
  | cons c l ih =>
    simp only [List.foldl_cons]
    obtain ⟨h1, h2, h3⟩ := ih (if a < (e c).natAbs then ((e c).natAbs : Int) else a)
    have hle : a ≤ (if a < (e c).natAbs then ((e c).natAbs : Int) else a) := by grind
    have hlc : ((e c).natAbs : Int) ≤ (if a < (e c).natAbs then ((e c).natAbs : Int) else a) := by grind
    refine ⟨Int.le_trans hle h1, ?_, ?_⟩
    · intro k hk
      rcases List.mem_cons.1 hk with rfl | hk
      · exact Int.le_trans hlc h1
      · exact h2 k hk
    · rcases h3 with h3 | ⟨k, hk, h3⟩
      · by_cases c1 : a < ((e c).natAbs : Int)
        · rw [if_pos c1] at h3 ⊢; exact Or.inr ⟨c, by simp, h3⟩
        · rw [if_neg c1] at h3 ⊢; exact Or.inl h3
      · exact Or.inr ⟨k, by simp [hk], h3⟩

theorem tileAbsMax_cons (f : Nat → BitVec 16) (ni c : Nat) (cs : List Nat) : tileAbsMax f ni (c :: cs) =
    (c :: cs).foldl (fun (m : Int) k => if m < (parDiff f ni k).natAbs then ((parDiff f ni k).natAbs : Int) else m) (parDiff f ni c) := rfl

theorem le_tileAbsMax {f : Nat → BitVec 16} {ni : Nat} {cells : List Nat} {k : Nat} (h : k ∈ cells) :
    (parDiff f ni k).natAbs ≤ (tileAbsMax f ni cells).toNat := by
  cases cells with
  | nil => simp at h
  | cons c cs =>
    have := (foldl_abs_spec (parDiff f ni) (c :: cs) (parDiff f ni c)).2.1 k h
    rw [tileAbsMax_cons]
    omega

theorem tileAbsMax_le {f : Nat → BitVec 16} {ni : Nat} {cells : List Nat} {B : Nat}
    (h : ∀ k ∈ cells, (parDiff f ni k).natAbs ≤ B) : (tileAbsMax f ni cells).toNat ≤ B := by
  cases cells with
  | nil => simp [tileAbsMax]
  | cons c cs =>
    have hc := h c (by simp)
    rcases (foldl_abs_spec (parDiff f ni) (c :: cs) (parDiff f ni c)).2.2 with e | ⟨k, hk, e⟩
    · rw [tileAbsMax_cons, e]; omega
    · have := h k hk
      rw [tileAbsMax_cons, e]; omega

/-- The container width is 4 or 5 and 4 suffices unless some difference exceeds 65535. -/
theorem container_spec {f : Nat → BitVec 16} {ni nj nbits : Nat} (hn : nbits ≤ 16)
    (hf : ∀ k, k < ni * nj → (f k).toNat < 2 ^ nbits) :
    (container f ni nj nbits = 4 ∧ ∀ k ∈ interior ni nj, (parDiff f ni k).natAbs ≤ 65535) ∨
    (container f ni nj nbits = 5 ∧ ∀ k ∈ interior ni nj, (parDiff f ni k).natAbs ≤ 131070) := by
  have hb : ∀ k ∈ interior ni nj, (parDiff f ni k).natAbs ≤ 2 * (2 ^ nbits - 1) := by
    intro k hk
    simp only [interior, List.mem_flatMap, List.mem_map, mem_steps_one] at hk
    obtain ⟨j, hj, i, hi, rfl⟩ := hk
    have hlt := ftn2c_lt (x := i) (y := j) (ni := ni) (nj := nj) (by omega) (by omega) (by omega) (by omega)
    have a0 := hf _ hlt
    have a1 := hf (ftn2c i j ni - ni) (by omega)
    have a2 := hf (ftn2c i j ni - 1) (by omega)
    have a3 := hf (ftn2c i j ni - 1 - ni) (by omega)
    unfold parDiff
    omega
  have hp : 2 ^ nbits ≤ 2 ^ 16 := Nat.pow_le_pow_right (by decide) hn
  unfold container
  by_cases h15 : 15 ≤ nbits
  · by_cases hany : (interior ni nj).any (fun k => decide (65535 < (parDiff f ni k).natAbs)) = true
    · right
      rw [if_pos ⟨h15, hany⟩]
      exact ⟨rfl, fun k hk => by have := hb k hk; omega⟩
    · left
      rw [if_neg (by intro h; exact hany h.2)]
      refine ⟨rfl, fun k hk => ?_⟩
      simp only [List.any_eq_true, decide_eq_true_eq, not_exists, not_and] at hany
      have := hany k hk
      omega
  · left
    rw [if_neg (by intro h; exact h15 h.1)]
    refine ⟨rfl, fun k hk => ?_⟩
    have := hb k hk
    have : 2 ^ nbits ≤ 2 ^ 14 := Nat.pow_le_pow_right (by decide) (by omega)
    omega

/-- What the container guarantees for a tile. -/
theorem tile_need {f : Nat → BitVec 16} {ni cont : Nat} {cells : List Nat}
    (hc : (cont = 4 ∧ ∀ k ∈ cells, (parDiff f ni k).natAbs ≤ 65535) ∨
          (cont = 5 ∧ ∀ k ∈ cells, (parDiff f ni k).natAbs ≤ 131070)) :
    need (tileAbsMax f ni cells).toNat < 2 ^ cont ∧ need (tileAbsMax f ni cells).toNat ≤ 17 := by
  rcases hc with ⟨rfl, h⟩ | ⟨rfl, h⟩
  · have := need_le (v := (tileAbsMax f ni cells).toNat) (by have := tileAbsMax_le h; omega)
    omega
  · have := need_le_17 (v := (tileAbsMax f ni cells).toNat) (by have := tileAbsMax_le h; omega)
    omega

theorem parTile_ok {f : Nat → BitVec 16} {ni cont : Nat} {cells : List Nat}
    (hc : (cont = 4 ∧ ∀ k ∈ cells, (parDiff f ni k).natAbs ≤ 65535) ∨
          (cont = 5 ∧ ∀ k ∈ cells, (parDiff f ni k).natAbs ≤ 131070)) : ∀ t ∈ parTile f ni cont cells, TokOK t := by
  obtain ⟨hn1, hn2⟩ := tile_need hc
  have hcont : cont ≤ 5 := by omega
  intro t ht
  simp only [parTile, List.mem_cons] at ht
  generalize need (tileAbsMax f ni cells).toNat = nd at *
  rcases ht with rfl | ht
  · refine ⟨by simp; omega, ?_⟩
    have : nd < 2 ^ 32 := by omega
    simpa [Nat.mod_eq_of_lt this] using hn1
  · split at ht
    · simp at ht
    · split at ht
      · obtain ⟨k, -, rfl⟩ := List.mem_map.1 ht
        exact ⟨by simp, lowBits_lt _ (by omega) _⟩
      · obtain ⟨k, -, rfl⟩ := List.mem_map.1 ht
        exact ⟨by simp; omega, lowBits_lt _ (by omega) _⟩

theorem unParTile_spec {u : W} {mem : List W} {f : Nat → BitVec 16} {ni cont : Nat} {cells : List Nat} {s : Reader}
    {d : Nat → Int} {rest : List Bool}
    (hc : (cont = 4 ∧ ∀ k ∈ cells, (parDiff f ni k).natAbs ≤ 65535) ∨
          (cont = 5 ∧ ∀ k ∈ cells, (parDiff f ni k).natAbs ≤ 131070)) (wf : s.WF) (hr : rest ≠ [])
    (hs : s.bits mem = toksBits (parTile f ni cont cells) ++ rest) :
    ∃ s' d', unParTile u mem cont cells s d = some (s', d') ∧ s'.WF ∧ s'.bits mem = rest ∧
      ∀ k, d' k = if k ∈ cells then parDiff f ni k else d k := by
  have ok := parTile_ok hc
  obtain ⟨hn1, hn2⟩ := tile_need hc
  have hcont : 4 ≤ cont ∧ cont ≤ 5 := by omega
  obtain ⟨n1, n2, n3⟩ := need_spec (tileAbsMax f ni cells).toNat
  have n16 := need_ne_16 (tileAbsMax f ni cells).toNat
  simp only [parTile] at hs ok
  generalize need (tileAbsMax f ni cells).toNat = nd at *
  simp only [toksBits_cons, List.append_assoc] at hs
  obtain ⟨s1, e1, wf1, b1⟩ := extract_tok (u := u) wf (by omega) (by omega) (ok _ (List.mem_cons_self ..)).2
    (by simp [hr]) hs
  simp only [unParTile, e1]
  by_cases c0 : nd = 0
  · subst c0
    simp only [if_true, toksBits_nil, List.nil_append] at b1
    refine ⟨s1, fillCells 0 cells d, by simp, wf1, b1, fun k => ?_⟩
    rw [fillCells_spec]
    split
    · rename_i hk
      have := le_tileAbsMax (f := f) (ni := ni) hk
      have := n3 rfl
      omega
    · rfl
  · have c0' : ¬ BitVec.ofNat 32 nd = 0 := by
      intro h; have := congrArg BitVec.toNat h; simp at this; omega
    rw [if_neg c0']
    simp only [if_neg c0] at b1
    by_cases c15 : nd = 15
    · subst c15
      simp only [if_true] at b1
      rw [if_pos (by decide)]
      refine readCells_spec (fun k => lowBits 17 (parDiff f ni k)) (parDiff f ni) (by omega) (by omega) cells s1 d rest wf1
        (fun k _ => lowBits_lt _ (by omega) _) (fun k hk => ?_) hr b1
      have h1 := le_tileAbsMax (f := f) (ni := ni) hk
      have h2 := n1 rfl
      exact signExt_lowBits 16 (by omega) _ (by omega)
    · have c15' : ¬ (BitVec.ofNat 32 nd = 15 ∨ BitVec.ofNat 32 nd = 16) := by
        rintro (h | h) <;> have := congrArg BitVec.toNat h <;> simp at this <;> omega
      rw [if_neg c15']
      simp only [if_neg c15] at b1
      have hnat : (BitVec.ofNat 32 nd).toNat = nd := by simp; omega
      rw [hnat]
      refine readCells_spec (fun k => lowBits (nd + 1) (parDiff f ni k)) (parDiff f ni) (by omega) (by omega) cells s1 d rest wf1
        (fun k _ => lowBits_lt _ (by omega) _) (fun k hk => ?_) hr b1
      have h1 := le_tileAbsMax (f := f) (ni := ni) hk
      have h2 := n2 c15
      exact signExt_lowBits nd (by omega) _ (by omega)

theorem unParTiles_spec {u : W} {mem : List W} {f : Nat → BitVec 16} {ni cont : Nat}
    (ts : List (List Nat)) (d : Nat → Int) (s : Reader) (rest : List Bool)
    (hc : (cont = 4 ∧ ∀ k ∈ ts.flatten, (parDiff f ni k).natAbs ≤ 65535) ∨
          (cont = 5 ∧ ∀ k ∈ ts.flatten, (parDiff f ni k).natAbs ≤ 131070)) (wf : s.WF) (hr : rest ≠ [])
    (hs : s.bits mem = toksBits (ts.flatMap (parTile f ni cont)) ++ rest) :
    ∃ s' d', unParTiles u mem cont ts s d = some (s', d') ∧ s'.WF ∧ s'.bits mem = rest ∧
      ∀ k, d' k = if k ∈ ts.flatten then parDiff f ni k else d k := by
  induction ts generalizing s d with
  | nil => exact ⟨s, d, rfl, wf, by simpa using hs, by simp⟩
  | cons c cs ih =>
    simp only [List.flatMap_cons, toksBits_append, List.append_assoc] at hs
    obtain ⟨s1, d1, e1, wf1, b1, hd1⟩ := unParTile_spec (u := u) (d := d)
      (hc.imp (fun h => ⟨h.1, fun k hk => h.2 k (by simp [hk])⟩) (fun h => ⟨h.1, fun k hk => h.2 k (by simp [hk])⟩)) wf
      (by simp [hr]) hs
    obtain ⟨s2, d2, e2, wf2, b2, hd2⟩ := ih d1 s1
      (hc.imp (fun h => ⟨h.1, fun k hk => h.2 k (by rw [List.flatten_cons]; exact List.mem_append_right _ hk)⟩)
        (fun h => ⟨h.1, fun k hk => h.2 k (by rw [List.flatten_cons]; exact List.mem_append_right _ hk)⟩)) wf1 b1
    refine ⟨s2, d2, by simp [unParTiles, e1, e2], wf2, b2, fun k => ?_⟩
    rw [hd2, hd1, List.flatten_cons]
    by_cases h : k ∈ cs.flatten
    · simp only [h, if_true, List.mem_append, or_true]
    · simp only [h, if_false, List.mem_append, or_false]

/-! ## Rebuilding the field -/

/-- one step of the reconstruction gives back the value when the three neighbours are right -/
theorem rebuild_step {f g : Nat → BitVec 16} {ni k : Nat} (h1 : g (k - ni) = f (k - ni)) (h2 : g (k - 1) = f (k - 1))
    (h3 : g (k - 1 - ni) = f (k - 1 - ni)) :
    BitVec.ofInt 16 (parDiff f ni k + ((g (k - ni)).toNat + (g (k - 1)).toNat - (g (k - 1 - ni)).toNat)) = f k := by
  rw [h1, h2, h3]
  unfold parDiff
  rw [Int.sub_add_cancel]
  simp

/-- Rebuilding along a list in which the neighbours of every cell are right or come earlier. -/
theorem rebuild_spec {f : Nat → BitVec 16} {d : Nat → Int} {ni : Nat} (l : List Nat) (done : Nat → Prop)
    (g : Nat → BitVec 16) (hd : ∀ k ∈ l, d k = parDiff f ni k) (hg : ∀ k, done k → g k = f k)
    (hord : ∀ p k q, l = p ++ k :: q → ∀ n ∈ [k - ni, k - 1, k - 1 - ni], done n ∨ n ∈ p) :
    ∀ k, (done k ∨ k ∈ l → rebuild d ni l g k = f k) ∧ (k ∉ l → rebuild d ni l g k = g k) := by
  induction l generalizing done g with
  | nil => intro k; simp [rebuild]; exact hg k
  | cons c cs ih =>
    have hn : ∀ n ∈ [c - ni, c - 1, c - 1 - ni], done n := by
      intro n hn
      have := hord [] c cs rfl n hn
      simpa using this
    have hstep := rebuild_step (f := f) (g := g) (ni := ni) (k := c) (hg _ (hn _ (by simp))) (hg _ (hn _ (by simp))) (hg _ (hn _ (by simp)))
    rw [← hd c (by simp)] at hstep
    have := ih (fun k => done k ∨ k = c) (upd g c (f c)) (fun k hk => hd k (by simp [hk]))
      (by
        intro k hk
        by_cases e : k = c
        · subst e; simp [upd]
        · rcases hk with hk | hk
          · simp [upd, e, hg k hk]
          · exact absurd hk e)
      (by
        intro p k q hl n hn
        have := hord (c :: p) k q (by simp [hl]) n hn
        rcases this with h | h
        · exact Or.inl (Or.inl h)
        · rcases List.mem_cons.1 h with h | h
          · exact Or.inl (Or.inr h)
          · exact Or.inr h)
    intro k
    simp only [rebuild, hstep]
    refine ⟨fun hk => (this k).1 ?_, fun hk => ?_⟩
    · simp only [List.mem_cons] at hk
      rcases hk with h | h | h
      · exact Or.inl (Or.inl h)
      · exact Or.inl (Or.inr h)
      · exact Or.inr h
    · rw [(this k).2 (by intro h; exact hk (by simp [h]))]
      have : k ≠ c := by intro h; exact hk (by simp [h])
      simp [upd, this]

end Verif
