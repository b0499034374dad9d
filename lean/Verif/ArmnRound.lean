import Verif.ArmnPar

/-! # Round trip of `armn_compress`: helper lemmas -/

namespace Verif

/-! ## Interior of the field -/

theorem interior_pairwise (ni nj : Nat) : (interior ni nj).Pairwise (· < ·) := by
  unfold interior
  rw [List.pairwise_flatMap]
  constructor
  · intro j hj
    rw [List.pairwise_map, steps_one]
    refine List.Pairwise.imp_of_mem ?_ List.pairwise_lt_range'
    intro a b ha hb hab
    rw [List.mem_range'_1] at ha hb
    unfold ftn2c
    omega
  · rw [steps_one 2 nj]
    refine List.Pairwise.imp_of_mem ?_ List.pairwise_lt_range'
    intro a b ha hb hab x hx y hy
    rw [List.mem_range'_1] at ha hb
    simp only [List.mem_map, mem_steps_one] at hx hy
    obtain ⟨i, hi, rfl⟩ := hx
    obtain ⟨i', hi', rfl⟩ := hy
    unfold ftn2c
    have : ni * (a - 1) + ni ≤ ni * (b - 1) := by
      calc ni * (a - 1) + ni = ni * (a - 1 + 1) := by rw [Nat.mul_add, Nat.mul_one]
        _ ≤ ni * (b - 1) := Nat.mul_le_mul_left _ (by omega)
    omega

theorem mem_interior {ni nj k : Nat} :
    k ∈ interior ni nj ↔ ∃ x y, 2 ≤ x ∧ x ≤ ni ∧ 2 ≤ y ∧ y ≤ nj ∧ k = ftn2c x y ni := by
  simp only [interior, List.mem_flatMap, List.mem_map, mem_steps_one]
  constructor
  · rintro ⟨j, hj, i, hi, rfl⟩; exact ⟨i, j, hi.1, hi.2, hj.1, hj.2, rfl⟩
  · rintro ⟨x, y, h1, h2, h3, h4, rfl⟩; exact ⟨y, ⟨h3, h4⟩, x, ⟨h1, h2⟩, rfl⟩

/-- first row or first column -/
def edge (ni nj k : Nat) : Prop := ∃ x y, 1 ≤ x ∧ x ≤ ni ∧ 1 ≤ y ∧ y ≤ nj ∧ (x = 1 ∨ y = 1) ∧ k = ftn2c x y ni

theorem edge_or_interior {ni nj x y : Nat} (h1 : 1 ≤ x) (h2 : x ≤ ni) (h3 : 1 ≤ y) (h4 : y ≤ nj) :
    edge ni nj (ftn2c x y ni) ∨ ftn2c x y ni ∈ interior ni nj := by
  by_cases h : x = 1 ∨ y = 1
  · exact Or.inl ⟨x, y, h1, h2, h3, h4, h, rfl⟩
  · exact Or.inr (mem_interior.2 ⟨x, y, by omega, h2, by omega, h4, rfl⟩)

theorem interior_order {ni nj : Nat} (p : List Nat) (k : Nat) (q : List Nat) (h : interior ni nj = p ++ k :: q) :
    ∀ n ∈ [k - ni, k - 1, k - 1 - ni], edge ni nj n ∨ n ∈ p := by
  have hk : k ∈ interior ni nj := by rw [h]; simp
  obtain ⟨x, y, h1, h2, h3, h4, e⟩ := mem_interior.1 hk
  have hord := interior_pairwise ni nj
  have hbefore : ∀ n, n < k → n ∈ interior ni nj → n ∈ p := by
    intro n hn hm
    rw [h] at hm hord
    rcases List.mem_append.1 hm with hm | hm
    · exact hm
    · exfalso
      have := (List.pairwise_append.1 hord).2.1
      rcases List.mem_cons.1 hm with rfl | hm
      · omega
      · have := (List.pairwise_cons.1 this).1 n hm; omega
  have key : ∀ x' y', 1 ≤ x' → x' ≤ ni → 1 ≤ y' → y' ≤ nj → ftn2c x' y' ni < k →
      edge ni nj (ftn2c x' y' ni) ∨ ftn2c x' y' ni ∈ p := by
    intro x' y' a b c d lt
    rcases edge_or_interior a b c d with h | h
    · exact Or.inl h
    · exact Or.inr (hbefore _ lt h)
  have hrow : ni * (y - 1) = ni * (y - 1 - 1) + ni := by
    rw [← Nat.mul_succ]; congr 1; omega
  have e1 : k - ni = ftn2c x (y - 1) ni := by rw [e]; unfold ftn2c; omega
  have e2 : k - 1 = ftn2c (x - 1) y ni := by rw [e]; unfold ftn2c; omega
  have e3 : k - 1 - ni = ftn2c (x - 1) (y - 1) ni := by rw [e]; unfold ftn2c; omega
  have hk0 : ni + 1 ≤ k := by rw [e]; unfold ftn2c; omega
  intro n hn
  simp only [List.mem_cons, List.not_mem_nil, or_false] at hn
  rcases hn with rfl | rfl | rfl
  · rw [e1]; exact key _ _ (by omega) h2 (by omega) (by omega) (by omega)
  · rw [e2]; exact key _ _ (by omega) (by omega) (by omega) h4 (by omega)
  · rw [e3]; exact key _ _ (by omega) (by omega) (by omega) (by omega) (by omega)

/-! ## Encoders -/

theorem sum_le_of_forall (ts : List (List Nat)) (g : List Nat → Nat) (c : Nat) (h : ∀ t ∈ ts, g t ≤ c * t.length) :
    (ts.map g).sum ≤ c * (ts.map List.length).sum := by
  induction ts with
  | nil => simp
  | cons t ts ih =>
    have h1 := h t (by simp)
    have h2 := ih (fun t ht => h t (by simp [ht]))
    simp only [List.map_cons, List.sum_cons, Nat.mul_add]
    omega

theorem toksLen_flatMap {α : Type} (ts : List α) (g : α → List Tok) : toksLen (ts.flatMap g) = (ts.map fun t => toksLen (g t)).sum := by
  induction ts with
  | nil => simp
  | cons t ts ih => simp [ih]

theorem packMinimum_spec {hdr : W} {f : Nat → BitVec 16} {ni nj nbits : Nat} {z : List W} (hn : nbits ≤ 16)
    (hni : 2 ≤ ni) (hnj : 2 ≤ nj) (hf : ∀ k, k < ni * nj → (f k).toNat < 2 ^ nbits) (hz : ni * nj ≤ z.length) :
    ∃ z' n pad, packMinimum hdr f ni nj nbits 5 z = some (z', n) ∧ z'.length = z.length ∧ n ≤ z.length ∧ 1 ≤ n ∧
      z'.take n = hdr :: (z'.take n).drop 1 ∧
      memBits (z'.take n) = toBits 32 hdr.toNat ++ toksBits ((tiles ni nj 5 1).flatMap (minTile f nbits)) ++ pad := by
  have hN : 2 * 2 ≤ ni * nj := Nat.mul_le_mul hni hnj
  have hmem : ∀ c ∈ tiles ni nj 5 1, ∀ k ∈ c, (f k).toNat < 2 ^ nbits := by
    intro c hc k hk
    exact hf k ((mem_tiles_one (by omega)).1 (List.mem_flatten.2 ⟨c, hc, hk⟩))
  have hlen := tiles_length (ni := ni) (nj := nj) (st := 5) (a0 := 1) (by omega)
  -- the first tile has at least four cells
  obtain ⟨c0, ts, hts, h4⟩ : ∃ c0 ts, tiles ni nj 5 1 = c0 :: ts ∧ 4 ≤ c0.length := by
    have s1 : ∀ n, 2 ≤ n → ∃ r, steps 1 n 5 = 1 :: r := by
      intro n h; rw [steps, if_neg (by omega)]; exact ⟨_, rfl⟩
    obtain ⟨ri, ei⟩ := s1 ni hni
    obtain ⟨rj, ej⟩ := s1 nj hnj
    refine ⟨tileCells ni nj 5 1 1, _, by simp only [tiles, ei, ej, List.flatMap_cons, List.map_cons, List.cons_append]; rfl, ?_⟩
    rw [tileCells_length]
    have : ∀ n, 2 ≤ n → 2 ≤ lclCount 1 n 5 + 1 := by
      intro n h; unfold lclCount; split <;> omega
    exact Nat.mul_le_mul (this nj hnj) (this ni hni)
  have hroom : 32 + toksLen ((tiles ni nj 5 1).flatMap (minTile f nbits)) ≤ 32 * z.length := by
    have h0 := (minTile_len (f := f) hn (tiles_ne_nil (c := c0) (by rw [hts]; simp))).2 h4
    have h1 : (ts.map fun t => toksLen (minTile f nbits t)).sum ≤ 32 * (ts.map List.length).sum := by
      refine sum_le_of_forall ts _ 32 fun t ht => ?_
      have := (minTile_len (f := f) hn (tiles_ne_nil (c := t) (by rw [hts]; exact List.mem_cons_of_mem _ ht))).1
      omega
    rw [toksLen_flatMap, hts]
    rw [hts] at hlen
    simp only [List.map_cons, List.sum_cons, Nat.add_sub_cancel] at hlen ⊢
    rw [Nat.mul_comm nj] at hlen
    omega
  obtain ⟨z', n, pad, e, hl, h1, h2, -, -, h3, h4⟩ := packTokens_spec hdr _ z
    (by
      intro t ht
      simp only [List.mem_flatMap] at ht
      obtain ⟨c, hc, ht⟩ := ht
      exact minTile_ok hn (hmem c hc) (tiles_ne_nil hc) t ht) (by omega) hroom
  exact ⟨z', n, pad, e, hl, h1, h2, h3, h4⟩

theorem parHc {f : Nat → BitVec 16} {ni nj nbits : Nat} (hn : nbits ≤ 16)
    (hf : ∀ k, k < ni * nj → (f k).toNat < 2 ^ nbits) :
    (container f ni nj nbits = 4 ∧ ∀ k ∈ (tiles ni nj 3 2).flatten, (parDiff f ni k).natAbs ≤ 65535) ∨
    (container f ni nj nbits = 5 ∧ ∀ k ∈ (tiles ni nj 3 2).flatten, (parDiff f ni k).natAbs ≤ 131070) := by
  have hsub : ∀ k ∈ (tiles ni nj 3 2).flatten, k ∈ interior ni nj := by
    intro k hk
    obtain ⟨x, y, h1, h2, h3, h4, e⟩ := (mem_tiles (by omega)).1 hk
    exact mem_interior.2 ⟨x, y, h1, h2, h3, h4, e⟩
  rcases container_spec hn hf with ⟨h1, h2⟩ | ⟨h1, h2⟩
  · exact Or.inl ⟨h1, fun k hk => h2 k (hsub k hk)⟩
  · exact Or.inr ⟨h1, fun k hk => h2 k (hsub k hk)⟩

theorem parTile_len {f : Nat → BitVec 16} {ni cont : Nat} {cells : List Nat}
    (hc : (cont = 4 ∧ ∀ k ∈ cells, (parDiff f ni k).natAbs ≤ 65535) ∨
          (cont = 5 ∧ ∀ k ∈ cells, (parDiff f ni k).natAbs ≤ 131070)) (hne : cells ≠ []) :
    toksLen (parTile f ni cont cells) ≤ 23 * cells.length := by
  obtain ⟨hn1, hn2⟩ := tile_need hc
  have hcont : cont ≤ 5 := by omega
  have hpos := List.length_pos_iff.2 hne
  simp only [parTile, toksLen_cons]
  generalize need (tileAbsMax f ni cells).toNat = nd at *
  split
  · simp; omega
  · split
    · rw [toksLen_map]; omega
    · rw [toksLen_map]
      have : cells.length * (nd + 1) ≤ cells.length * 18 := Nat.mul_le_mul_left _ (by omega)
      omega

theorem packParallelogram_spec {hdr : W} {f : Nat → BitVec 16} {ni nj nbits : Nat} {z : List W}
    (hn : nbits ≤ 16) (hni : 2 ≤ ni) (hnj : 2 ≤ nj) (hf : ∀ k, k < ni * nj → (f k).toNat < 2 ^ nbits)
    (hz : ni * nj ≤ z.length) :
    ∃ z' n pad, packParallelogram hdr f ni nj nbits 3 z = some (z', n) ∧ z'.length = z.length ∧ n ≤ z.length ∧ 1 ≤ n ∧
      z'.take n = hdr :: (z'.take n).drop 1 ∧
      memBits (z'.take n) = toBits 32 hdr.toNat ++ toksBits (parTokens f ni nj nbits 3) ++ pad := by
  have hN : 2 * 2 ≤ ni * nj := Nat.mul_le_mul hni hnj
  have hc := parHc hn hf
  have hp : 2 ^ nbits ≤ 2 ^ 16 := Nat.pow_le_pow_right (by decide) hn
  have htile : ∀ c ∈ tiles ni nj 3 2,
      (container f ni nj nbits = 4 ∧ ∀ k ∈ c, (parDiff f ni k).natAbs ≤ 65535) ∨
      (container f ni nj nbits = 5 ∧ ∀ k ∈ c, (parDiff f ni k).natAbs ≤ 131070) := by
    intro c hcm
    exact hc.imp (fun h => ⟨h.1, fun k hk => h.2 k (List.mem_flatten.2 ⟨c, hcm, hk⟩)⟩)
      (fun h => ⟨h.1, fun k hk => h.2 k (List.mem_flatten.2 ⟨c, hcm, hk⟩)⟩)
  have htok : ∀ k, k < ni * nj → TokOK (nbits, (f k).setWidth 32) := by
    intro k hk
    have := hf k hk
    have h16 := (f k).isLt
    exact ⟨by simp; omega, by simp only [BitVec.toNat_setWidth]; exact Nat.lt_of_le_of_lt (Nat.mod_le _ _) this⟩
  have hroom : 32 + toksLen (parTokens f ni nj nbits 3) ≤ 32 * z.length := by
    have hlen := tiles_length (ni := ni) (nj := nj) (st := 3) (a0 := 2) (by omega)
    have h1 : ((tiles ni nj 3 2).map fun t => toksLen (parTile f ni (container f ni nj nbits) t)).sum ≤
        23 * ((tiles ni nj 3 2).map List.length).sum :=
      sum_le_of_forall _ _ 23 fun t ht => parTile_len (htile t ht) (tiles_ne_nil ht)
    have l1 : toksLen ((steps 1 ni 1).map fun i => (nbits, (f (ftn2c i 1 ni)).setWidth 32)) = ni * nbits := by
      rw [toksLen_map (steps 1 ni 1) nbits (fun i => (f (ftn2c i 1 ni)).setWidth 32), steps_one]; simp
    have l2 : toksLen ((steps 2 nj 1).map fun j => (nbits, (f (ftn2c 1 j ni)).setWidth 32)) = (nj - 1) * nbits := by
      rw [toksLen_map (steps 2 nj 1) nbits (fun j => (f (ftn2c 1 j ni)).setWidth 32), steps_one]; simp
    rw [hlen] at h1
    simp only [parTokens, List.cons_append, toksLen_cons, toksLen_append, l1, l2, toksLen_flatMap]
    have e1 : ni * nbits ≤ ni * 16 := Nat.mul_le_mul_left _ hn
    have e2 : (nj - 1) * nbits ≤ (nj - 1) * 16 := Nat.mul_le_mul_left _ hn
    have e3 : ni * nj = (nj + 1 - 2) * (ni + 1 - 2) + (nj - 1) + ni := by
      obtain ⟨a, rfl⟩ : ∃ a, ni = a + 1 := ⟨ni - 1, by omega⟩
      obtain ⟨b, rfl⟩ : ∃ b, nj = b + 1 := ⟨nj - 1, by omega⟩
      have x1 : b + 1 + 1 - 2 = b := by omega
      have x2 : a + 1 + 1 - 2 = a := by omega
      have x3 : b + 1 - 1 = b := by omega
      rw [x1, x2, x3, Nat.mul_add, Nat.add_mul, Nat.mul_comm a b]; omega
    omega
  have hall : ∀ t ∈ parTokens f ni nj nbits 3, TokOK t := by
    intro t ht
    simp only [parTokens, List.cons_append, List.mem_cons, List.mem_append, List.mem_map, List.mem_flatMap, mem_steps_one] at ht
    rcases ht with rfl | (⟨i, hi, rfl⟩ | ⟨j, hj, rfl⟩) | ⟨c, hcm, ht⟩
    · refine ⟨by simp, ?_⟩
      rcases hc with h | h <;> rw [h.1] <;> decide
    · exact htok _ (ftn2c_lt hi.1 hi.2 (by omega) (by omega))
    · exact htok _ (ftn2c_lt (by omega) (by omega) (by omega) hj.2)
    · exact parTile_ok (htile c hcm) t ht
  obtain ⟨z', n, pad, e, hl, h1, h2, -, -, h3, h4⟩ := packTokens_spec hdr _ z hall (by omega) hroom
  exact ⟨z', n, pad, e, hl, h1, h2, h3, h4⟩

/-! ## Decoders on a buffer that begins with the encoded words -/

theorem decoder_start {mem z : List W} {n : Nat} {hdr : W} {toks : List Tok} {pad : List Bool}
    (hz : memBits (z.take n) = toBits 32 hdr.toNat ++ toksBits toks ++ pad)
    (hm : mem.take n = z.take n) (hlt : n < mem.length) (h1 : 1 ≤ n) :
    ∃ s rest, startDecode mem = some s ∧ s.WF ∧ rest ≠ [] ∧ s.bits mem = toksBits toks ++ rest := by
  obtain ⟨s, e, wf, hb⟩ := startDecode_spec (mem := mem) (by omega)
  have hsplit : memBits mem = toBits 32 hdr.toNat ++ (toksBits toks ++ (pad ++ memBits (mem.drop n))) := by
    conv => lhs; rw [← List.take_append_drop n mem]
    rw [memBits_append, hm, hz]
    simp
  refine ⟨s, pad ++ memBits (mem.drop n), e, wf, ?_, ?_⟩
  · intro h
    have := congrArg List.length h
    simp at this
    omega
  · rw [hb, hsplit, List.drop_append_of_le_length (by simp)]
    simp

theorem unpackMinimum_spec {u : W} {mem z : List W} {n : Nat} {hdr : W} {f g : Nat → BitVec 16} {ni nj nbits : Nat}
    {pad : List Bool} (hb1 : 1 ≤ nbits) (hn : nbits ≤ 16) (hf : ∀ k, k < ni * nj → (f k).toNat < 2 ^ nbits)
    (hz : memBits (z.take n) = toBits 32 hdr.toNat ++ toksBits ((tiles ni nj 5 1).flatMap (minTile f nbits)) ++ pad)
    (hm : mem.take n = z.take n) (hlt : n < mem.length) (h1 : 1 ≤ n) :
    ∃ g', unpackMinimum u mem ni nj nbits 5 g = some g' ∧ ∀ k, g' k = if k < ni * nj then f k else g k := by
  obtain ⟨s, rest, e, wf, hr, hs⟩ := decoder_start hz hm hlt h1
  obtain ⟨s', g', e', -, -, hg⟩ := unMinTiles_spec (u := u) hb1 hn (tiles ni nj 5 1) g s rest
    (fun k hk => hf k ((mem_tiles_one (by omega)).1 hk)) (fun c hc => tiles_ne_nil hc) wf hr hs
  refine ⟨g', by simp [unpackMinimum, e, e'], fun k => ?_⟩
  rw [hg]
  simp only [mem_tiles_one (st := 5) (by omega)]

theorem unpackParallelogram_spec {u : W} {mem z : List W} {n : Nat} {hdr : W} {f g : Nat → BitVec 16} {d0 : Nat → Int}
    {ni nj nbits : Nat} {pad : List Bool} (hb1 : 1 ≤ nbits) (hn : nbits ≤ 16) (hni : 2 ≤ ni) (hnj : 2 ≤ nj)
    (hf : ∀ k, k < ni * nj → (f k).toNat < 2 ^ nbits)
    (hz : memBits (z.take n) = toBits 32 hdr.toNat ++ toksBits (parTokens f ni nj nbits 3) ++ pad)
    (hm : mem.take n = z.take n) (hlt : n < mem.length) (h1 : 1 ≤ n) :
    ∃ g', unpackParallelogram u mem ni nj nbits 3 g d0 = some g' ∧ ∀ k, g' k = if k < ni * nj then f k else g k := by
  obtain ⟨s, rest, e, wf, hr, hs⟩ := decoder_start hz hm hlt h1
  have hc := parHc hn hf
  have hcont : container f ni nj nbits = 4 ∨ container f ni nj nbits = 5 := hc.imp (·.1) (·.1)
  have hcn : (BitVec.ofNat 32 (container f ni nj nbits)).toNat = container f ni nj nbits := by
    simp; omega
  simp only [parTokens, List.cons_append, toksBits_cons, toksBits_append, List.append_assoc] at hs
  obtain ⟨s1, e1, wf1, b1⟩ := extract_tok (u := u) wf (by omega) (by omega) (by rw [hcn]; omega) (by simp [hr]) hs
  have m1 : ((steps 1 ni 1).map fun i => (nbits, (f (ftn2c i 1 ni)).setWidth 32)) =
      ((steps 1 ni 1).map fun i => ftn2c i 1 ni).map fun k => ((nbits, (f k).setWidth 32) : Tok) := by simp
  have m2 : ((steps 2 nj 1).map fun j => (nbits, (f (ftn2c 1 j ni)).setWidth 32)) =
      ((steps 2 nj 1).map fun j => ftn2c 1 j ni).map fun k => ((nbits, (f k).setWidth 32) : Tok) := by simp
  have r1 : ∀ k ∈ (steps 1 ni 1).map fun i => ftn2c i 1 ni, k < ni * nj := by
    intro k hk
    simp only [List.mem_map, mem_steps_one] at hk
    obtain ⟨i, hi, rfl⟩ := hk
    exact ftn2c_lt hi.1 hi.2 (by omega) (by omega)
  have r2 : ∀ k ∈ (steps 2 nj 1).map fun j => ftn2c 1 j ni, k < ni * nj := by
    intro k hk
    simp only [List.mem_map, mem_steps_one] at hk
    obtain ⟨j, hj, rfl⟩ := hk
    exact ftn2c_lt (by omega) (by omega) (by omega) hj.2
  have hlow : ∀ k, k < ni * nj → ((f k).setWidth 32).toNat < 2 ^ nbits := by
    intro k hk
    simp only [BitVec.toNat_setWidth]
    exact Nat.lt_of_le_of_lt (Nat.mod_le _ _) (hf k hk)
  rw [m1] at b1
  obtain ⟨s2, g2, e2, wf2, b2, hg2⟩ := readCells_spec (u := u) (val := fun t => t.setWidth 16) (fun k => (f k).setWidth 32) f hb1 (by omega) _ s1 g _ wf1
    (fun k hk => hlow k (r1 k hk)) (fun k hk => by simp) (by simp [hr]) b1
  rw [m2] at b2
  obtain ⟨s3, g3, e3, wf3, b3, hg3⟩ := readCells_spec (u := u) (val := fun t => t.setWidth 16) (fun k => (f k).setWidth 32) f hb1 (by omega) _ s2 g2 _ wf2
    (fun k hk => hlow k (r2 k hk)) (fun k hk => by simp) (by simp [hr]) b2
  obtain ⟨s4, d, e4, -, -, hd⟩ := unParTiles_spec (u := u) (tiles ni nj 3 2) d0 s3 rest hc wf3 hr b3
  refine ⟨rebuild d ni (interior ni nj) g3, by simp only [unpackParallelogram, e, e1, e2, e3, hcn, e4], ?_⟩
  have hedge : ∀ k, edge ni nj k → g3 k = f k := by
    rintro k ⟨x, y, a, b, c, d, hxy, rfl⟩
    rw [hg3]
    split
    · rfl
    · rename_i hnot
      rw [hg2, if_pos]
      by_cases hy : y = 1
      · subst hy
        simp only [List.mem_map, mem_steps_one]
        exact ⟨x, ⟨a, b⟩, rfl⟩
      · exfalso
        apply hnot
        have hx : x = 1 := by omega
        subst hx
        simp only [List.mem_map, mem_steps_one]
        exact ⟨y, ⟨by omega, d⟩, rfl⟩
  have hdi : ∀ k ∈ interior ni nj, d k = parDiff f ni k := by
    intro k hk
    rw [hd, if_pos]
    obtain ⟨x, y, a, b, c, d, rfl⟩ := mem_interior.1 hk
    exact (mem_tiles (by omega)).2 ⟨x, y, a, b, c, d, rfl⟩
  have hall := rebuild_spec (interior ni nj) (edge ni nj) g3 hdi hedge (fun p k q h => interior_order p k q h)
  intro k
  split
  · rename_i hk
    obtain ⟨x, y, a, b, c, d, rfl⟩ := ftn2c_surj hk
    exact (hall _).1 (edge_or_interior a b c d)
  · rename_i hk
    have hni' : k ∉ interior ni nj := by
      intro h
      obtain ⟨x, y, a, b, c, d, rfl⟩ := mem_interior.1 h
      exact hk (ftn2c_lt (by omega) b (by omega) d)
    rw [(hall k).2 hni', hg3, if_neg (fun h => hk (r2 k h)), hg2, if_neg (fun h => hk (r1 k h))]

end Verif
