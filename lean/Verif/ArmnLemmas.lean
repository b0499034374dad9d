import Verif.TokenStream

/-! # Tiles of the field compressor and decoding of its tokens: helper lemmas -/

namespace Verif

/-! ## Geometry -/

theorem steps_flat (a stop st : Nat) (h : 1 ≤ st) :
    (steps a stop st).flatMap (fun i => (List.range (lclCount i stop st + 1)).map (i + ·)) =
      List.range' a (stop + 1 - a) := by
  fun_induction steps a stop st with
  | case1 a hc =>
    have : stop + 1 - a = 0 := by omega
    simp [this]
  | case2 a hc ih =>
    simp only [List.flatMap_cons, ih]
    rw [← List.range'_eq_map_range]
    unfold lclCount
    split
    · rw [show stop + 1 - (a + st) = 0 by omega]
      simp only [List.range'_zero, List.append_nil]
      congr 1; omega
    · rw [show a + st = a + 1 * (st - 1 + 1) by omega, List.range'_append]
      congr 1
      omega

theorem mem_steps {a stop st i : Nat} (h : i ∈ steps a stop st) : a ≤ i ∧ i ≤ stop := by
  fun_induction steps a stop st with
  | case1 => simp at h
  | case2 a hc ih =>
    rcases List.mem_cons.1 h with h | h
    · omega
    · have := ih h; omega

theorem steps_one (a stop : Nat) : steps a stop 1 = List.range' a (stop + 1 - a) := by
  fun_induction steps a stop 1 with
  | case1 a hc =>
    have : stop + 1 - a = 0 := by omega
    simp [this]
  | case2 a hc ih =>
    rw [ih, show stop + 1 - a = (stop + 1 - (a + 1)) + 1 by omega, List.range'_succ]

theorem mem_steps_one {a stop i : Nat} : i ∈ steps a stop 1 ↔ a ≤ i ∧ i ≤ stop := by
  rw [steps_one, List.mem_range'_1]; omega

theorem steps_cover {a stop st x : Nat} (h : 1 ≤ st) :
    (∃ i ∈ steps a stop st, ∃ m < lclCount i stop st + 1, x = i + m) ↔ a ≤ x ∧ x ≤ stop := by
  have := congrArg (fun l => x ∈ l) (steps_flat a stop st h)
  simp only [List.mem_flatMap, List.mem_map, List.mem_range, List.mem_range'_1, eq_iff_iff] at this
  constructor
  · rintro ⟨i, hi, m, hm, rfl⟩
    have := this.1 ⟨i, hi, m, hm, rfl⟩
    omega
  · intro hx
    obtain ⟨i, hi, m, hm, e⟩ := this.2 (by omega)
    exact ⟨i, hi, m, hm, e.symm⟩

/-- The tiles cover exactly the cells `(x, y)` with `a0 ≤ x ≤ ni`, `a0 ≤ y ≤ nj`. -/
theorem mem_tiles {ni nj st a0 k : Nat} (h : 1 ≤ st) :
    k ∈ (tiles ni nj st a0).flatten ↔ ∃ x y, a0 ≤ x ∧ x ≤ ni ∧ a0 ≤ y ∧ y ≤ nj ∧ k = ftn2c x y ni := by
  simp only [tiles, tileCells, List.mem_flatten, List.mem_flatMap, List.mem_map]
  constructor
  · rintro ⟨l, ⟨j, hj, i, hi, rfl⟩, hk⟩
    simp only [List.mem_flatMap, List.mem_map, List.mem_range] at hk
    obtain ⟨n, hn, m, hm, rfl⟩ := hk
    have h1 := (steps_cover h (x := i + m)).1 ⟨i, hi, m, hm, rfl⟩
    have h2 := (steps_cover h (x := j + n)).1 ⟨j, hj, n, hn, rfl⟩
    exact ⟨_, _, h1.1, h1.2, h2.1, h2.2, rfl⟩
  · rintro ⟨x, y, h1, h2, h3, h4, rfl⟩
    obtain ⟨i, hi, m, hm, rfl⟩ := (steps_cover h).2 ⟨h1, h2⟩
    obtain ⟨j, hj, n, hn, rfl⟩ := (steps_cover h).2 ⟨h3, h4⟩
    refine ⟨_, ⟨j, hj, i, hi, rfl⟩, ?_⟩
    simp only [List.mem_flatMap, List.mem_map, List.mem_range]
    exact ⟨n, hn, m, hm, rfl⟩

theorem ftn2c_lt {x y ni nj : Nat} (h1 : 1 ≤ x) (h2 : x ≤ ni) (h3 : 1 ≤ y) (h4 : y ≤ nj) :
    ftn2c x y ni < ni * nj := by
  unfold ftn2c
  have : ni * (y - 1) + ni ≤ ni * nj := by
    calc ni * (y - 1) + ni = ni * (y - 1 + 1) := by rw [Nat.mul_add, Nat.mul_one]
      _ ≤ ni * nj := Nat.mul_le_mul_left _ (by omega)
  omega

theorem ftn2c_surj {ni nj k : Nat} (h : k < ni * nj) :
    ∃ x y, 1 ≤ x ∧ x ≤ ni ∧ 1 ≤ y ∧ y ≤ nj ∧ k = ftn2c x y ni := by
  have hni : 0 < ni := by
    rcases Nat.eq_zero_or_pos ni with h0 | h0
    · subst h0; simp at h
    · exact h0
  have h1 := Nat.mod_lt k hni
  have h2 : k / ni < nj := Nat.div_lt_of_lt_mul h
  refine ⟨k % ni + 1, k / ni + 1, by omega, by omega, Nat.le_add_left .., h2, ?_⟩
  unfold ftn2c
  have := Nat.div_add_mod k ni
  simp only [Nat.add_sub_cancel]
  omega

/-- With `a0 = 1` the tiles cover the field exactly. -/
theorem mem_tiles_one {ni nj st k : Nat} (h : 1 ≤ st) :
    k ∈ (tiles ni nj st 1).flatten ↔ k < ni * nj := by
  rw [mem_tiles h]
  constructor
  · rintro ⟨x, y, h1, h2, h3, h4, rfl⟩
    exact ftn2c_lt h1 h2 h3 h4
  · intro hk
    obtain ⟨x, y, h1, h2, h3, h4, e⟩ := ftn2c_surj hk
    exact ⟨x, y, h1, h2, h3, h4, e⟩

theorem sum_map_const {α : Type} (l : List α) (c : Nat) : (l.map fun _ => c).sum = l.length * c := by
  induction l with
  | nil => simp
  | cons a l ih => simp only [List.map_cons, List.sum_cons, ih, List.length_cons, Nat.add_mul]; omega

theorem tileCells_length (ni nj st i j : Nat) :
    (tileCells ni nj st i j).length = (lclCount j nj st + 1) * (lclCount i ni st + 1) := by
  simp only [tileCells, List.length_flatMap, List.length_map, List.length_range, sum_map_const]

theorem tileCells_ne_nil (ni nj st i j : Nat) : tileCells ni nj st i j ≠ [] := by
  intro h
  have := congrArg List.length h
  rw [tileCells_length] at this
  simp at this

theorem tiles_ne_nil {ni nj st a0 : Nat} {c : List Nat} (h : c ∈ tiles ni nj st a0) : c ≠ [] := by
  simp only [tiles, List.mem_flatMap, List.mem_map] at h
  obtain ⟨j, -, i, -, rfl⟩ := h
  exact tileCells_ne_nil _ _ _ _ _

theorem sum_map_mul_const (l : List Nat) (g : Nat → Nat) (c : Nat) :
    (l.map fun x => g x * c).sum = (l.map g).sum * c := by
  induction l with
  | nil => simp
  | cons a l ih => simp [ih, Nat.add_mul]

theorem sum_map_const_mul (l : List Nat) (g : Nat → Nat) (c : Nat) :
    (l.map fun x => c * g x).sum = c * (l.map g).sum := by
  induction l with
  | nil => simp
  | cons a l ih => simp [ih, Nat.mul_add]

theorem steps_sum (a stop st : Nat) (h : 1 ≤ st) :
    ((steps a stop st).map fun i => lclCount i stop st + 1).sum = stop + 1 - a := by
  have := congrArg List.length (steps_flat a stop st h)
  simpa [List.length_flatMap] using this

theorem tiles_length {ni nj st a0 : Nat} (h : 1 ≤ st) :
    ((tiles ni nj st a0).map List.length).sum = (nj + 1 - a0) * (ni + 1 - a0) := by
  unfold tiles
  generalize hS : steps a0 ni st = S
  have hsum : (S.map fun i => lclCount i ni st + 1).sum = ni + 1 - a0 := by rw [← hS]; exact steps_sum _ _ _ h
  have key : ∀ l : List Nat, ((l.flatMap fun j => S.map fun i => tileCells ni nj st i j).map List.length).sum =
      (l.map fun j => lclCount j nj st + 1).sum * (ni + 1 - a0) := by
    intro l
    induction l with
    | nil => simp
    | cons j l ih =>
      simp only [List.flatMap_cons, List.map_append, List.sum_append, ih, List.map_map, List.map_cons, List.sum_cons, Nat.add_mul (lclCount j nj st + 1)]
      congr 1
      rw [← hsum, ← sum_map_const_mul]
      congr 1
      apply List.map_congr_left
      intro i _
      simp [tileCells_length]
  rw [key, steps_sum _ _ _ h]

/-! ## Reading tokens into cells -/

theorem upd_self {α : Type} (g : Nat → α) (k : Nat) (v : α) : upd g k v k = v := by simp [upd]

theorem fillCells_spec {α : Type} (v : α) (cells : List Nat) (g : Nat → α) (k : Nat) :
    fillCells v cells g k = if k ∈ cells then v else g k := by
  induction cells generalizing g with
  | nil => simp [fillCells]
  | cons c cs ih =>
    rw [fillCells, ih]
    by_cases h : k ∈ cs
    · simp [h]
    · by_cases e : k = c <;> simp [h, e, upd]

theorem readCells_spec {α : Type} {u : W} {mem : List W} {w : Nat} {val : W → α} (tok : Nat → W) (v : Nat → α)
    (h1 : 1 ≤ w) (h2 : w ≤ 32) (cells : List Nat) (s : Reader) (g : Nat → α) (rest : List Bool) (wf : s.WF)
    (ht : ∀ k ∈ cells, (tok k).toNat < 2 ^ w) (hv : ∀ k ∈ cells, val (tok k) = v k) (hr : rest ≠ [])
    (hs : s.bits mem = toksBits (cells.map fun k => (w, tok k)) ++ rest) :
    ∃ s' g', readCells u mem w val cells s g = some (s', g') ∧ s'.WF ∧ s'.bits mem = rest ∧
      ∀ k, g' k = if k ∈ cells then v k else g k := by
  induction cells generalizing s g with
  | nil => exact ⟨s, g, rfl, wf, by simpa using hs, by simp⟩
  | cons c cs ih =>
    simp only [List.map_cons, toksBits_cons, List.append_assoc] at hs
    obtain ⟨s1, e1, wf1, b1⟩ := extract_tok (u := u) wf h1 h2 (ht c (by simp)) (by simp [hr]) hs
    obtain ⟨s2, g2, e2, wf2, b2, hg⟩ := ih s1 (upd g c (val (tok c))) wf1 (fun k hk => ht k (by simp [hk]))
      (fun k hk => hv k (by simp [hk])) b1
    refine ⟨s2, g2, by simp [readCells, e1, e2], wf2, b2, fun k => ?_⟩
    rw [hg]
    by_cases h : k ∈ cs
    · simp [h]
    · by_cases e : k = c
      · subst e; simp [h, upd, hv]
      · simp [h, e, upd]

/-! ## Minimum method -/

theorem foldl_min_spec (f : Nat → BitVec 16) (l : List Nat) (a : Nat) :
    let m := l.foldl (fun m k => if m > (f k).toNat then (f k).toNat else m) a
    m ≤ a ∧ (∀ k ∈ l, m ≤ (f k).toNat) ∧ (m = a ∨ ∃ k ∈ l, m = (f k).toNat) := by
  induction l generalizing a with
  | nil => simp
  | cons c l ih =>
    simp only [List.foldl_cons]
    have hle : (if a > (f c).toNat then (f c).toNat else a) ≤ a := by grind
    have hlc : (if a > (f c).toNat then (f c).toNat else a) ≤ (f c).toNat := by grind
    obtain ⟨h1, h2, h3⟩ := ih (if a > (f c).toNat then (f c).toNat else a)
    refine ⟨Nat.le_trans h1 hle, ?_, ?_⟩
    · intro k hk
      rcases List.mem_cons.1 hk with rfl | hk
      · exact Nat.le_trans h1 hlc
      · exact h2 k hk
    · rcases h3 with h3 | ⟨k, hk, h3⟩
      · by_cases c1 : a > (f c).toNat
        · rw [if_pos c1] at h3 ⊢; exact Or.inr ⟨c, by simp, h3⟩
        · rw [if_neg c1] at h3 ⊢; exact Or.inl h3
      · exact Or.inr ⟨k, by simp [hk], h3⟩

theorem foldl_max_spec (f : Nat → BitVec 16) (l : List Nat) (a : Nat) :
    let m := l.foldl (fun m k => if m < (f k).toNat then (f k).toNat else m) a
    a ≤ m ∧ (∀ k ∈ l, (f k).toNat ≤ m) ∧ (m = a ∨ ∃ k ∈ l, m = (f k).toNat) := by
  induction l generalizing a with
  | nil => simp
  | cons c l ih =>
    simp only [List.foldl_cons]
    have hle : a ≤ (if a < (f c).toNat then (f c).toNat else a) := by grind
    have hlc : (f c).toNat ≤ (if a < (f c).toNat then (f c).toNat else a) := by grind
    obtain ⟨h1, h2, h3⟩ := ih (if a < (f c).toNat then (f c).toNat else a)
    refine ⟨Nat.le_trans hle h1, ?_, ?_⟩
    · intro k hk
      rcases List.mem_cons.1 hk with rfl | hk
      · exact Nat.le_trans hlc h1
      · exact h2 k hk
    · rcases h3 with h3 | ⟨k, hk, h3⟩
      · by_cases c1 : a < (f c).toNat
        · rw [if_pos c1] at h3 ⊢; exact Or.inr ⟨c, by simp, h3⟩
        · rw [if_neg c1] at h3 ⊢; exact Or.inl h3
      · exact Or.inr ⟨k, by simp [hk], h3⟩

theorem tileMin_le {f : Nat → BitVec 16} {cells : List Nat} {k : Nat} (h : k ∈ cells) : tileMin f cells ≤ (f k).toNat := by
  cases cells with
  | nil => simp at h
  | cons c cs => exact (foldl_min_spec f (c :: cs) (f c).toNat).2.1 k h

theorem le_tileMax {f : Nat → BitVec 16} {cells : List Nat} {k : Nat} (h : k ∈ cells) : (f k).toNat ≤ tileMax f cells := by
  cases cells with
  | nil => simp at h
  | cons c cs => exact (foldl_max_spec f (c :: cs) (f c).toNat).2.1 k h

theorem tileMax_mem {f : Nat → BitVec 16} {cells : List Nat} (h : cells ≠ []) : ∃ k ∈ cells, tileMax f cells = (f k).toNat := by
  cases cells with
  | nil => simp at h
  | cons c cs =>
    rcases (foldl_max_spec f (c :: cs) (f c).toNat).2.2 with h | h
    · exact ⟨c, by simp, h⟩
    · exact h

theorem need_spec (v : Nat) : (need v = 15 → v < 2 ^ 16) ∧ (need v ≠ 15 → v < 2 ^ need v) ∧ (need v = 0 → v = 0) := by
  unfold need
  rw [needRaw_eq]
  have h := lt_two_pow_bitLen v
  refine ⟨?_, ?_, ?_⟩
  · intro h1
    have : bitLen v ≤ 16 := by split at h1 <;> omega
    exact Nat.lt_of_lt_of_le h (Nat.pow_le_pow_right (by decide) this)
  · intro h1
    split at h1
    · simp at h1
    · rename_i hc; rw [if_neg hc]; exact h
  · intro h1
    split at h1
    · omega
    · rw [h1] at h; simpa using h

theorem need_le {v : Nat} (h : v < 2 ^ 16) : need v ≤ 15 := by
  unfold need
  rw [needRaw_eq]
  have := bitLen_le h
  split <;> omega

theorem need_le_17 {v : Nat} (h : v < 2 ^ 17) : need v ≤ 17 := by
  unfold need
  rw [needRaw_eq]
  have := bitLen_le h
  split <;> omega

theorem need_ne_16 (v : Nat) : need v ≠ 16 := by
  unfold need; split <;> omega

theorem minTile_ok {f : Nat → BitVec 16} {nbits : Nat} {cells : List Nat} (hn : nbits ≤ 16)
    (hf : ∀ k ∈ cells, (f k).toNat < 2 ^ nbits) (hc : cells ≠ []) : ∀ t ∈ minTile f nbits cells, TokOK t := by
  obtain ⟨k0, hk0, e0⟩ := tileMax_mem (f := f) hc
  have hmn : tileMin f cells < 2 ^ nbits := Nat.lt_of_le_of_lt (tileMin_le hk0) (hf k0 hk0)
  have hv : tileMax f cells - tileMin f cells < 2 ^ 16 := by
    have := (f k0).isLt; omega
  have hnd := need_le hv
  have hmn32 : tileMin f cells < 2 ^ 32 := Nat.lt_of_lt_of_le hmn (Nat.pow_le_pow_right (by decide) (by omega))
  obtain ⟨n1, n2, n3⟩ := need_spec (tileMax f cells - tileMin f cells)
  intro t ht
  simp only [minTile, List.mem_cons] at ht
  generalize hd : need (tileMax f cells - tileMin f cells) = nd at *
  rcases ht with rfl | ht
  · refine ⟨by simp, ?_⟩
    simp; omega
  · split at ht
    · simp at ht; subst ht
      refine ⟨by simp; omega, ?_⟩
      simp [Nat.mod_eq_of_lt hmn32, hmn]
    · split at ht
      · simp only [List.mem_map] at ht
        obtain ⟨k, hk, rfl⟩ := ht
        refine ⟨by simp, ?_⟩
        have := (f k).isLt
        simp; omega
      · rename_i c0 c15
        simp only [List.mem_cons, List.mem_map] at ht
        rcases ht with rfl | ⟨k, hk, rfl⟩
        · refine ⟨by simp; omega, ?_⟩
          simp [Nat.mod_eq_of_lt hmn32, hmn]
        · refine ⟨by simp; omega, ?_⟩
          have h1 := le_tileMax (f := f) hk
          have h2 := n2 c15
          simp only [BitVec.toNat_ofNat]
          exact Nat.lt_of_le_of_lt (Nat.mod_le _ _) (by omega)

theorem unMinTile_spec {u : W} {mem : List W} {f g : Nat → BitVec 16} {nbits : Nat} {cells : List Nat} {s : Reader}
    {rest : List Bool} (h1 : 1 ≤ nbits) (hn : nbits ≤ 16)
    (hf : ∀ k ∈ cells, (f k).toNat < 2 ^ nbits) (hc : cells ≠ []) (wf : s.WF) (hr : rest ≠ [])
    (hs : s.bits mem = toksBits (minTile f nbits cells) ++ rest) :
    ∃ s' g', unMinTile u mem nbits cells s g = some (s', g') ∧ s'.WF ∧ s'.bits mem = rest ∧
      ∀ k, g' k = if k ∈ cells then f k else g k := by
  have ok := minTile_ok hn hf hc
  obtain ⟨k0, hk0, e0⟩ := tileMax_mem (f := f) hc
  have hmn : tileMin f cells < 2 ^ nbits := Nat.lt_of_le_of_lt (tileMin_le hk0) (hf k0 hk0)
  have hmn16 : tileMin f cells < 2 ^ 16 := Nat.lt_of_lt_of_le hmn (Nat.pow_le_pow_right (by decide) hn)
  have hv : tileMax f cells - tileMin f cells < 2 ^ 16 := by
    have := (f k0).isLt; omega
  have hnd := need_le hv
  obtain ⟨n1, n2, n3⟩ := need_spec (tileMax f cells - tileMin f cells)
  simp only [minTile] at hs ok
  generalize hd : need (tileMax f cells - tileMin f cells) = nd at *
  simp only [toksBits_cons, List.append_assoc] at hs
  obtain ⟨s1, e1, wf1, b1⟩ := extract_tok (u := u) wf (by omega) (by omega) (ok _ (List.mem_cons_self ..)).2
    (by simp [hr]) hs
  simp only [unMinTile, e1]
  by_cases c0 : nd = 0
  · subst c0
    simp only [if_true, toksBits_cons, toksBits_nil, List.append_nil] at b1
    obtain ⟨s2, e2, wf2, b2⟩ := extract_tok (u := u) wf1 h1 (by omega) (ok (nbits, BitVec.ofNat 32 (tileMin f cells)) (by simp)).2
      hr b1
    refine ⟨s2, fillCells ((BitVec.ofNat 32 (tileMin f cells)).setWidth 16) cells g, by simp [e2], wf2, b2, fun k => ?_⟩
    rw [fillCells_spec]
    split
    · rename_i hk
      have a1 := tileMin_le (f := f) hk
      have a2 := le_tileMax (f := f) hk
      have := n3 rfl
      apply BitVec.eq_of_toNat_eq
      simp; omega
    · rfl
  · have c0' : ¬ BitVec.ofNat 32 nd = 0 := by
      intro h; have := congrArg BitVec.toNat h; simp at this; omega
    rw [if_neg c0']
    simp only [if_neg c0] at b1
    by_cases c15 : nd = 15
    · subst c15
      simp only [if_true] at b1
      rw [if_pos (by decide)]
      exact readCells_spec (fun k => (f k).setWidth 32) f (by omega) (by omega) cells s1 g rest wf1
        (by intro k hk; have := (f k).isLt; simp; omega) (by intro k hk; simp) hr b1
    · have c15' : ¬ (BitVec.ofNat 32 nd = 15 ∨ BitVec.ofNat 32 nd = 16) := by
        rintro (h | h) <;> have := congrArg BitVec.toNat h <;> simp at this <;> omega
      rw [if_neg c15']
      simp only [if_neg c15, toksBits_cons, List.append_assoc] at b1
      obtain ⟨s2, e2, wf2, b2⟩ := extract_tok (u := u) wf1 h1 (by omega)
        (ok (nbits, BitVec.ofNat 32 (tileMin f cells)) (by simp [c0, c15])).2 (by simp [hr]) b1
      simp only [e2]
      have hnat : (BitVec.ofNat 32 nd).toNat = nd := by simp; omega
      rw [hnat]
      refine readCells_spec (fun k => BitVec.ofNat 32 ((f k).toNat - tileMin f cells)) f (by omega) (by omega) cells s2 g rest wf2
        ?_ ?_ hr b2
      · intro k hk
        have h1 := le_tileMax (f := f) hk
        have h2 := n2 c15
        simp only [BitVec.toNat_ofNat]
        exact Nat.lt_of_le_of_lt (Nat.mod_le _ _) (by omega)
      · intro k hk
        have a1 := tileMin_le (f := f) hk
        have a2 := (f k).isLt
        apply BitVec.eq_of_toNat_eq
        simp; omega

theorem unMinTiles_spec {u : W} {mem : List W} {f : Nat → BitVec 16} {nbits : Nat} (h1 : 1 ≤ nbits) (hn : nbits ≤ 16)
    (ts : List (List Nat)) (g : Nat → BitVec 16) (s : Reader) (rest : List Bool)
    (hf : ∀ k ∈ ts.flatten, (f k).toNat < 2 ^ nbits) (hc : ∀ c ∈ ts, c ≠ []) (wf : s.WF) (hr : rest ≠ [])
    (hs : s.bits mem = toksBits (ts.flatMap (minTile f nbits)) ++ rest) :
    ∃ s' g', unMinTiles u mem nbits ts s g = some (s', g') ∧ s'.WF ∧ s'.bits mem = rest ∧
      ∀ k, g' k = if k ∈ ts.flatten then f k else g k := by
  induction ts generalizing s g with
  | nil => exact ⟨s, g, rfl, wf, by simpa using hs, by simp⟩
  | cons c cs ih =>
    simp only [List.flatMap_cons, toksBits_append, List.append_assoc] at hs
    obtain ⟨s1, g1, e1, wf1, b1, hg1⟩ := unMinTile_spec (u := u) (g := g) h1 hn (fun k hk => hf k (by simp [hk])) (hc c (by simp)) wf
      (by simp [hr]) hs
    obtain ⟨s2, g2, e2, wf2, b2, hg2⟩ := ih g1 s1 (fun k hk => hf k (by rw [List.flatten_cons]; exact List.mem_append_right _ hk))
      (fun c' h' => hc c' (by simp [h'])) wf1 b1
    refine ⟨s2, g2, by simp [unMinTiles, e1, e2], wf2, b2, fun k => ?_⟩
    rw [hg2, hg1, List.flatten_cons]
    by_cases h : k ∈ cs.flatten
    · simp only [h, if_true, List.mem_append, or_true]
    · simp only [h, if_false, List.mem_append, or_false]

/-! ## Sizes -/

theorem toksLen_map (cells : List Nat) (w : Nat) (g : Nat → W) : toksLen (cells.map fun k => (w, g k)) = cells.length * w := by
  induction cells with
  | nil => simp
  | cons c cs ih => simp [ih, Nat.add_mul]; omega

theorem minTile_len {f : Nat → BitVec 16} {nbits : Nat} {cells : List Nat} (hn : nbits ≤ 16) (hc : cells ≠ []) :
    toksLen (minTile f nbits cells) + 12 ≤ 32 * cells.length ∧
      (4 ≤ cells.length → toksLen (minTile f nbits cells) + 52 ≤ 32 * cells.length) := by
  obtain ⟨k0, hk0, e0⟩ := tileMax_mem (f := f) hc
  have hv : tileMax f cells - tileMin f cells < 2 ^ 16 := by
    have := (f k0).isLt; omega
  have hnd := need_le hv
  have hlen := List.length_pos_iff.2 hc
  have one : cells.length = 1 → need (tileMax f cells - tileMin f cells) = 0 := by
    intro h1
    obtain ⟨a, rfl⟩ := List.length_eq_one_iff.1 h1
    simp [tileMax, tileMin, need, needRaw]
  have e : toksLen (minTile f nbits cells) = 4 +
      (if need (tileMax f cells - tileMin f cells) = 0 then nbits
       else if need (tileMax f cells - tileMin f cells) = 15 then cells.length * 16
       else nbits + cells.length * need (tileMax f cells - tileMin f cells)) := by
    simp only [minTile, toksLen_cons]
    split
    · simp
    · split
      · rw [toksLen_map]
      · rw [toksLen_cons, toksLen_map]
  rw [e]
  generalize need (tileMax f cells - tileMin f cells) = nd at *
  split
  · omega
  · split
    · omega
    · have : cells.length * nd ≤ cells.length * 14 := Nat.mul_le_mul_left _ (by omega)
      have : cells.length ≠ 1 := by intro h; exact absurd (one h) (by omega)
      omega

end Verif
