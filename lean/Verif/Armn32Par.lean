import Verif.Armn32Rle

/-! # Parallelogram coder for bytes and words: helper lemmas for `Armn32` -/

namespace Verif.Armn32

open Verif

theorem pDiff_eq (a b c d : W) (B : Nat) (hB : B ≤ 23) (ha : a.toNat < 2 ^ B) (hb : b.toNat < 2 ^ B) (hc : c.toNat < 2 ^ B)
    (hd : d.toNat < 2 ^ B) : (a - (b + c - d)).toInt = a.toNat - ((b.toNat : Int) + c.toNat - d.toNat) := by
  have e : a - (b + c - d) = BitVec.ofInt 32 ((a.toNat : Int) - ((b.toNat : Int) + c.toNat - d.toNat)) := by
    have e1 : (a.toNat : Int) - ((b.toNat : Int) + c.toNat - d.toNat) =
        a.toNat + -((b.toNat : Int) + c.toNat + -(d.toNat : Int)) := by omega
    rw [e1, BitVec.ofInt_add, BitVec.ofInt_neg, BitVec.ofInt_add, BitVec.ofInt_add, BitVec.ofInt_neg]
    simp [BitVec.sub_eq_add_neg]
  have hp : 2 ^ B ≤ 2 ^ 23 := Nat.pow_le_pow_right (by decide) hB
  rw [e, BitVec.toInt_ofInt, Int.bmod_eq_of_le] <;> omega

/-- Magnitude of a difference. -/
theorem pDiff_lt {f : Nat → W} {ni k B : Nat} (hB : B ≤ 23)
    (h : ∀ n ∈ [k, k - ni, k - 1, k - 1 - ni], (f n).toNat < 2 ^ B) : (pDiff f ni k).natAbs < 2 ^ (B + 1) := by
  unfold pDiff
  have h0 := h k (by simp)
  have h1 := h (k - ni) (by simp)
  have h2 := h (k - 1) (by simp)
  have h3 := h (k - 1 - ni) (by simp)
  rw [pDiff_eq _ _ _ _ B hB h0 h1 h2 h3, Nat.pow_succ]
  omega

theorem pMax_cons (d : Nat → Int) (c : Nat) (cs : List Nat) : pMax d (c :: cs) =
    (c :: cs).foldl (fun (m : Int) k => if m < (d k).natAbs then ((d k).natAbs : Int) else m) (d c) := rfl

theorem le_pMax {d : Nat → Int} {cells : List Nat} {k : Nat} (h : k ∈ cells) : (d k).natAbs ≤ (pMax d cells).toNat := by
  cases cells with
  | nil => simp at h
  | cons c cs =>
    have := (foldl_abs_spec d (c :: cs) (d c)).2.1 k h
    rw [pMax_cons]
    omega

theorem pMax_lt {d : Nat → Int} {cells : List Nat} {B : Nat} (hB : 0 < B) (h : ∀ k ∈ cells, (d k).natAbs < B) :
    (pMax d cells).toNat < B := by
  cases cells with
  | nil => simpa [pMax] using hB
  | cons c cs =>
    have hc := h c (by simp)
    rcases (foldl_abs_spec d (c :: cs) (d c)).2.2 with e | ⟨k, hk, e⟩
    · rw [pMax_cons, e]; omega
    · have := h k hk
      rw [pMax_cons, e]; omega

theorem bitLen_zero {v : Nat} (h : bitLen v = 0) : v = 0 := by
  rcases Nat.eq_zero_or_pos v with h0 | h0
  · exact h0
  · have := bitLen_pos (x := v) (by omega); omega

/-- What is known of the differences of a tile. -/
structure TileOK (d : Nat → Int) (cont B : Nat) (cells : List Nat) : Prop where
  small : ∀ k ∈ cells, (d k).natAbs < 2 ^ B
  fits : B < 2 ^ cont
  b24 : B ≤ 24
  c5 : cont ≤ 5
  c4 : 1 ≤ cont

theorem TileOK.bits {d : Nat → Int} {cont B : Nat} {cells : List Nat} (h : TileOK d cont B cells) :
    bitLen (pMax d cells).toNat ≤ B := bitLen_le (pMax_lt (Nat.two_pow_pos B) h.small)

theorem pTile_ok {d : Nat → Int} {cont B : Nat} {cells : List Nat} (h : TileOK d cont B cells) :
    ∀ t ∈ pTile d cont cells, TokOK t := by
  have hb := h.bits
  obtain ⟨-, h2, h3, h4, h5⟩ := h
  intro t ht
  simp only [pTile, List.mem_cons] at ht
  generalize bitLen (pMax d cells).toNat = nd at *
  rcases ht with rfl | ht
  · refine ⟨by simp; omega, ?_⟩
    rw [BitVec.toNat_ofNat]
    exact Nat.lt_of_le_of_lt (Nat.mod_le _ _) (by dsimp only; omega)
  · split at ht
    · simp at ht
    · obtain ⟨k, -, rfl⟩ := List.mem_map.1 ht
      exact ⟨by simp; omega, lowBits_lt _ (by omega) _⟩

theorem pTile_len {d : Nat → Int} {cont B : Nat} {cells : List Nat} (h : TileOK d cont B cells) :
    toksLen (pTile d cont cells) ≤ cont + cells.length * (B + 1) := by
  have hb := h.bits
  simp only [pTile, toksLen_cons]
  generalize bitLen (pMax d cells).toNat = nd at *
  split
  · simp
  · rw [toksLen_map]
    have := Nat.mul_le_mul_left cells.length (Nat.succ_le_succ hb)
    simp only [Nat.succ_eq_add_one] at this
    omega

theorem unPTile_spec {u : W} {mem : List W} {e : Nat → Int} {cont B : Nat} {cells : List Nat} {s : Reader}
    {d : Nat → Int} {rest : List Bool} (h : TileOK e cont B cells) (wf : s.WF) (hr : rest ≠ [])
    (hs : s.bits mem = toksBits (pTile e cont cells) ++ rest) :
    ∃ s' d', unPTile u mem cont cells s d = some (s', d') ∧ s'.WF ∧ s'.bits mem = rest ∧
      ∀ k, d' k = if k ∈ cells then e k else d k := by
  have ok := pTile_ok h
  have hb := h.bits
  have hlt := lt_two_pow_bitLen (pMax e cells).toNat
  have hz := @bitLen_zero (pMax e cells).toNat
  obtain ⟨h1, h2, h3, h4, h5⟩ := h
  simp only [pTile] at hs ok
  generalize bitLen (pMax e cells).toNat = nd at *
  simp only [toksBits_cons, List.append_assoc] at hs
  obtain ⟨s1, e1, wf1, b1⟩ := extract_tok (u := u) wf (by omega) (by omega) (ok _ (List.mem_cons_self ..)).2
    (by simp [hr]) hs
  simp only [unPTile, e1]
  by_cases c0 : nd = 0
  · subst c0
    simp only [if_true, toksBits_nil, List.nil_append] at b1
    refine ⟨s1, fillCells 0 cells d, by simp, wf1, b1, fun k => ?_⟩
    rw [fillCells_spec]
    split
    · rename_i hk
      have := le_pMax (d := e) hk
      have := hz rfl
      omega
    · rfl
  · have hnat : (BitVec.ofNat 32 nd).toNat = nd := by simp; omega
    have c0' : ¬ BitVec.ofNat 32 nd = 0 := by
      intro h; have := congrArg BitVec.toNat h; rw [hnat] at this; exact c0 this
    rw [if_neg c0', hnat]
    simp only [if_neg c0] at b1
    refine readCells_spec (fun k => lowBits (nd + 1) (e k)) e (by omega) (by omega) cells s1 d rest wf1
      (fun k _ => lowBits_lt _ (by omega) _) (fun k hk => ?_) hr b1
    have h1 := le_pMax (d := e) hk
    exact signExt_lowBits nd (by omega) _ (by omega)

theorem unPTiles_spec {u : W} {mem : List W} {e : Nat → Int} {cont B : Nat}
    (ts : List (List Nat)) (d : Nat → Int) (s : Reader) (rest : List Bool)
    (h : ∀ c ∈ ts, TileOK e cont B c) (wf : s.WF) (hr : rest ≠ [])
    (hs : s.bits mem = toksBits (ts.flatMap (pTile e cont)) ++ rest) :
    ∃ s' d', unPTiles u mem cont ts s d = some (s', d') ∧ s'.WF ∧ s'.bits mem = rest ∧
      ∀ k, d' k = if k ∈ ts.flatten then e k else d k := by
  induction ts generalizing s d with
  | nil => exact ⟨s, d, rfl, wf, by simpa using hs, by simp⟩
  | cons c cs ih =>
    simp only [List.flatMap_cons, toksBits_append, List.append_assoc] at hs
    obtain ⟨s1, d1, e1, wf1, b1, hd1⟩ := unPTile_spec (u := u) (d := d) (h c (by simp)) wf (by simp [hr]) hs
    obtain ⟨s2, d2, e2, wf2, b2, hd2⟩ := ih d1 s1 (fun c hc => h c (by simp [hc])) wf1 b1
    refine ⟨s2, d2, by simp [unPTiles, e1, e2], wf2, b2, fun k => ?_⟩
    rw [hd2, hd1, List.flatten_cons]
    by_cases h : k ∈ cs.flatten
    · simp only [h, if_true, List.mem_append, or_true]
    · simp only [h, if_false, List.mem_append, or_false]

/-! ## Rebuilding -/

theorem rebuildW_spec {trunc : W → W} {f : Nat → W} {d : Nat → Int} {ni : Nat} (l : List Nat) (done : Nat → Prop)
    (g : Nat → W) (ht : ∀ k ∈ l, trunc (f k) = f k) (hd : ∀ k ∈ l, d k = pDiff f ni k) (hg : ∀ k, done k → g k = f k)
    (hord : ∀ p k q, l = p ++ k :: q → ∀ n ∈ [k - ni, k - 1, k - 1 - ni], done n ∨ n ∈ p) :
    ∀ k, (done k ∨ k ∈ l → rebuildW trunc d ni l g k = f k) ∧ (k ∉ l → rebuildW trunc d ni l g k = g k) := by
  induction l generalizing done g with
  | nil => intro k; simp [rebuildW]; exact hg k
  | cons c cs ih =>
    have hn : ∀ n ∈ [c - ni, c - 1, c - 1 - ni], done n := by
      intro n hn
      have := hord [] c cs rfl n hn
      simpa using this
    have hstep : trunc (BitVec.ofInt 32 (d c) + (g (c - ni) + g (c - 1) - g (c - 1 - ni))) = f c := by
      rw [hg _ (hn _ (by simp)), hg _ (hn (c - 1) (by simp)), hg _ (hn (c - 1 - ni) (by simp)), hd c (by simp), pDiff,
        BitVec.ofInt_toInt, BitVec.sub_add_cancel]
      exact ht c (by simp)
    have := ih (fun k => done k ∨ k = c) (upd g c (f c)) (fun k hk => ht k (by simp [hk])) (fun k hk => hd k (by simp [hk]))
      (by
        intro k hk
        by_cases e : k = c
        · subst e; simp [upd]
        · rcases hk with hk | hk
          · simp [upd, e, hg k hk]
          · exact absurd hk e)
      (by
        intro p k q hl n hn
        have := hord (c :: p) k q (by simp [hl]) n hn
        rcases this with h | h
        · exact Or.inl (Or.inl h)
        · rcases List.mem_cons.1 h with h | h
          · exact Or.inl (Or.inr h)
          · exact Or.inr h)
    intro k
    simp only [rebuildW, hstep]
    refine ⟨fun hk => (this k).1 ?_, fun hk => ?_⟩
    · simp only [List.mem_cons] at hk
      rcases hk with h | h | h
      · exact Or.inl (Or.inl h)
      · exact Or.inl (Or.inr h)
      · exact Or.inr h
    · rw [(this k).2 (by intro h; exact hk (by simp [h]))]
      have : k ≠ c := by intro h; exact hk (by simp [h])
      simp [upd, this]

/-! ## The whole coder -/

/-- The field fits the widths. -/
structure ParOK (f : Nat → W) (ni nj nbits cont : Nat) : Prop where
  vals : ∀ k, k < ni * nj → (f k).toNat < 2 ^ nbits
  n1 : 1 ≤ nbits
  n23 : nbits ≤ 23
  fits : nbits + 1 < 2 ^ cont
  c1 : 1 ≤ cont
  c5 : cont ≤ 5
  ni2 : 2 ≤ ni
  nj2 : 2 ≤ nj

variable {f : Nat → W} {ni nj nbits cont : Nat}

theorem ParOK.tile (h : ParOK f ni nj nbits cont) : ∀ c ∈ tiles ni nj 3 2, TileOK (pDiff f ni) cont (nbits + 1) c := by
  intro c hc
  refine ⟨fun k hk => ?_, h.fits, by have := h.n23; omega, h.c5, h.c1⟩
  obtain ⟨x, y, h1, h2, h3, h4, e⟩ := (mem_tiles (by omega)).1 (List.mem_flatten.2 ⟨c, hc, hk⟩)
  have hlt := ftn2c_lt (x := x) (y := y) (ni := ni) (nj := nj) (by omega) h2 (by omega) h4
  refine pDiff_lt h.n23 fun n hn => h.vals n ?_
  simp only [List.mem_cons, List.not_mem_nil, or_false] at hn
  omega

theorem ParOK.edge_ok (h : ParOK f ni nj nbits cont) : ∀ t ∈ pEdge f ni nj nbits cont, TokOK t := by
  have hn := h.n23
  have hni := h.ni2
  have hnj := h.nj2
  have hc := h.c5
  have htok : ∀ k, k < ni * nj → TokOK (nbits, f k) := fun k hk => ⟨by simp; omega, h.vals k hk⟩
  intro t ht
  simp only [pEdge, List.mem_cons, List.mem_append, List.mem_map, mem_steps_one] at ht
  rcases ht with rfl | ⟨i, hi, rfl⟩ | ⟨j, hj, rfl⟩
  · refine ⟨by simp, ?_⟩
    rw [BitVec.toNat_ofNat]
    exact Nat.lt_of_le_of_lt (Nat.mod_le _ _) (by simp; omega)
  · exact htok _ (ftn2c_lt hi.1 hi.2 (by omega) (by omega))
  · exact htok _ (ftn2c_lt (by omega) (by omega) (by omega) hj.2)

theorem pEdge_len : toksLen (pEdge f ni nj nbits cont) = 3 + (ni + (nj - 1)) * nbits := by
  have l1 : toksLen ((steps 1 ni 1).map fun i => (nbits, f (ftn2c i 1 ni))) = ni * nbits := by
    rw [toksLen_map (steps 1 ni 1) nbits (fun i => f (ftn2c i 1 ni)), steps_one]; simp
  have l2 : toksLen ((steps 2 nj 1).map fun j => (nbits, f (ftn2c 1 j ni))) = (nj - 1) * nbits := by
    rw [toksLen_map (steps 2 nj 1) nbits (fun j => f (ftn2c 1 j ni)), steps_one]; simp
  simp only [pEdge, toksLen_cons, toksLen_append, l1, l2, Nat.add_mul]

/-- All tokens of the coder. -/
def parToks (f : Nat → W) (ni nj nbits cont : Nat) : List Tok :=
  pEdge f ni nj nbits cont ++ (tiles ni nj 3 2).flatMap (pTile (pDiff f ni) cont)

theorem ParOK.toks_ok (h : ParOK f ni nj nbits cont) : ∀ t ∈ parToks f ni nj nbits cont, TokOK t := by
  intro t ht
  rcases List.mem_append.1 ht with ht | ht
  · exact h.edge_ok t ht
  · obtain ⟨c, hc, ht⟩ := List.mem_flatMap.1 ht
    exact pTile_ok (h.tile c hc) t ht

theorem pTiles_some {full : Nat → Nat → Bool} {d : Nat → Int} (ts : List (List Nat)) (s s' : Writer)
    (h : pTiles full d cont ts s = some (some s')) : stuffAll (ts.flatMap (pTile d cont)) s = some s' := by
  induction ts generalizing s with
  | nil => simpa [pTiles, stuffAll] using h
  | cons c cs ih =>
    rw [List.flatMap_cons, stuffAll_append]
    simp only [pTiles] at h
    cases h1 : stuffAll (pTile d cont c) s with
    | none => rw [h1] at h; cases h
    | some s1 =>
      rw [h1] at h
      dsimp only at h
      split at h
      · cases h
      · exact ih s1 h

/-- The outcome of the coder, when it is not a refusal. -/
theorem packPar_ok {full : Nat → Nat → Bool} {mem mem' : List W} {base n : Nat} (h : ParOK f ni nj nbits cont)
    (e : packPar full f ni nj nbits cont mem base = some (some (mem', n))) (room : base + n < mem.length) :
    mem'.length = mem.length ∧ Seg mem' base n (parToks f ni nj nbits cont) ∧
      32 * n < toksLen (parToks f ni nj nbits cont) + 32 ∧ ∀ j : Nat, j < base → mem'[j]? = mem[j]? := by
  unfold packPar at e
  cases e0 : startWrite mem base with
  | none => rw [e0] at e; cases e
  | some s =>
    rw [e0] at e
    dsimp only at e
    cases e1 : stuffAll (pEdge f ni nj nbits cont) s with
    | none => rw [e1] at e; cases e
    | some s1 =>
      rw [e1] at e
      dsimp only at e
      cases e2 : pTiles full (pDiff f ni) cont (tiles ni nj 3 2) s1 with
      | none => rw [e2] at e; cases e
      | some r =>
        rw [e2] at e
        cases r with
        | none => cases e
        | some s2 =>
          dsimp only at e
          cases e3 : stuffAll trailer s2 with
          | none => rw [e3] at e; cases e
          | some s3 =>
            rw [e3] at e
            simp only [Option.map_some, Option.some.injEq, Prod.mk.injEq] at e
            obtain ⟨rfl, rfl⟩ := e
            have hall : stuffAll (parToks f ni nj nbits cont ++ trailer) s = some s3 := by
              rw [parToks, stuffAll_append, stuffAll_append, e1, Option.bind_some, pTiles_some _ _ _ e2, Option.bind_some, e3]
            have hptr : s3.ptr < mem.length := by omega
            obtain ⟨a1, a2, a3, a4, a5, a6⟩ := stream_spec e0 h.toks_ok hall hptr
            exact ⟨a1, a3, a4, a6⟩

/-- Without the test for space, room for all tokens is enough. -/
theorem packPar_noCheck {mem : List W} {base : Nat} (h : ParOK f ni nj nbits cont) (hb : base < mem.length)
    (room : 32 * base + toksLen (parToks f ni nj nbits cont) + 32 ≤ 32 * mem.length) :
    ∃ mem' n, packPar (fun _ _ => false) f ni nj nbits cont mem base = some (some (mem', n)) ∧ base + n < mem.length := by
  obtain ⟨s, s', e1, e2, hp⟩ := stream_some (mem := mem) (base := base) h.toks_ok hb room
  have key : ∀ (ts : List (List Nat)) (s : Writer), pTiles (fun _ _ => false) (pDiff f ni) cont ts s =
      (stuffAll (ts.flatMap (pTile (pDiff f ni) cont)) s).map some := by
    intro ts
    induction ts with
    | nil => intro s; rfl
    | cons c cs ih =>
      intro s
      rw [List.flatMap_cons, stuffAll_append]
      simp only [pTiles]
      cases stuffAll (pTile (pDiff f ni) cont c) s with
      | none => rfl
      | some s1 => simp [ih]
  have q := (stuffAll_some _ _ _ (by
    obtain ⟨_, rfl⟩ := startWrite_eq e1
    exact ⟨by simp, by simp; omega⟩) (fun t ht => by
      rcases List.mem_append.1 ht with ht | ht
      · exact h.toks_ok t ht
      · simp [trailer] at ht; subst ht; simp [TokOK]) e2).2.2.2.2.1
  rw [parToks, stuffAll_append, stuffAll_append] at e2
  cases a1 : stuffAll (pEdge f ni nj nbits cont) s with
  | none => rw [a1] at e2; cases e2
  | some s1 =>
    rw [a1, Option.bind_some] at e2
    cases a2 : stuffAll ((tiles ni nj 3 2).flatMap (pTile (pDiff f ni) cont)) s1 with
    | none => rw [a2] at e2; cases e2
    | some s2 =>
      rw [a2, Option.bind_some] at e2
      refine ⟨s'.mem, s'.ptr - base, ?_, ?_⟩
      · simp only [packPar, e1, a1, key, a2, Option.map_some, e2]
      · obtain ⟨_, rfl⟩ := startWrite_eq e1
        simp only at q
        omega

/-- With the test for space: five bits for every constant tile, and room for one more tile behind the limit. -/
theorem pTiles_check {d : Nat → Int} {mem : List W} {base : Nat} {rem : Int} {nb limit : Nat} (hl : 32 * ((base : Int) + rem) ≤ limit) (ts : List (List Nat)) (s : Writer)
    (hts : ∀ c ∈ ts, TileOK d 5 24 c ∧ c.length ≤ 9) (wf : s.WF) (hlen : s.mem.length = mem.length) (hbase : base ≤ s.ptr)
    (hpos : s.pos + 5 * ts.length + 240 ≤ 32 * mem.length) (hlim : limit + 5 * ts.length + 240 ≤ 32 * mem.length) :
    ∃ r, pTiles (noSpace base rem nb) d 5 ts s = some r ∧
      ∀ s', r = some s' → s'.WF ∧ s'.mem.length = mem.length ∧ s.ptr ≤ s'.ptr ∧ s'.pos + 240 ≤ 32 * mem.length := by
  induction ts generalizing s with
  | nil =>
    refine ⟨some s, rfl, fun s' h => ?_⟩
    cases h
    exact ⟨wf, hlen, Nat.le_refl _, by simpa using hpos⟩
  | cons c cs ih =>
    obtain ⟨hc, h9⟩ := hts c (by simp)
    have hlen9 : c.length * 25 ≤ 9 * 25 := Nat.mul_le_mul_right _ h9
    have htl := pTile_len hc
    simp only [List.length_cons] at hpos hlim
    obtain ⟨s1, e1, wf1, b1, p1, l1⟩ := stuffAll_spec (pTile d 5 c) s wf (pTile_ok hc) (by rw [hlen]; omega)
    have q1 := (stuffAll_some _ _ _ wf (pTile_ok hc) e1).2.2.2.2.1
    simp only [pTiles, e1]
    by_cases cz : bitLen (pMax d c).toNat = 0
    · rw [if_neg (by intro h; exact h.1 cz)]
      have hz : toksLen (pTile d 5 c) = 5 := by simp [pTile, cz]
      obtain ⟨r, er, hr⟩ := ih s1 (fun c hc => hts c (by simp [hc])) wf1 (by rw [l1, hlen]) (by omega) (by rw [p1, hz]; omega) (by omega)
      refine ⟨r, er, fun s' h => ?_⟩
      obtain ⟨a, b, c', d'⟩ := hr s' h
      exact ⟨a, b, by omega, d'⟩
    · by_cases cf : noSpace base rem nb s1.ptr (bitLen (pMax d c).toNat) = true
      · rw [if_pos ⟨cz, cf⟩]
        exact ⟨none, rfl, fun s' h => by cases h⟩
      · rw [if_neg (by intro h; exact cf h.2)]
        have hsp : s1.pos ≤ limit := by
          simp only [noSpace, decide_eq_true_eq] at cf
          generalize (bitLen (pMax d c).toNat + 9 * nb) / 32 = q at cf
          have := wf1.1
          simp only [Writer.pos]
          omega
        obtain ⟨r, er, hr⟩ := ih s1 (fun c hc => hts c (by simp [hc])) wf1 (by rw [l1, hlen]) (by omega) (by omega) (by omega)
        refine ⟨r, er, fun s' h => ?_⟩
        obtain ⟨a, b, c', d'⟩ := hr s' h
        exact ⟨a, b, by omega, d'⟩

theorem tile_length_le {c : List Nat} (h : c ∈ tiles ni nj 3 2) : c.length ≤ 9 := by
  simp only [tiles, List.mem_flatMap, List.mem_map] at h
  obtain ⟨j, -, i, -, rfl⟩ := h
  rw [tileCells_length]
  have h1 : lclCount j nj 3 + 1 ≤ 3 := by unfold lclCount; split <;> omega
  have h2 : lclCount i ni 3 + 1 ≤ 3 := by unfold lclCount; split <;> omega
  exact Nat.mul_le_mul h1 h2

/-- Fewer tiles than interior points. -/
theorem tiles_count (ni nj : Nat) : (tiles ni nj 3 2).length ≤ (nj - 1) * (ni - 1) := by
  have h := tiles_length (ni := ni) (nj := nj) (st := 3) (a0 := 2) (by omega)
  have h2 : ∀ ts : List (List Nat), (∀ c ∈ ts, c ≠ []) → ts.length ≤ (ts.map List.length).sum := by
    intro ts hts
    induction ts with
    | nil => simp
    | cons c cs ih =>
      have := List.length_pos_iff.2 (hts c (by simp))
      have := ih (fun c hc => hts c (by simp [hc]))
      simp only [List.length_cons, List.map_cons, List.sum_cons]
      omega
  have := h2 (tiles ni nj 3 2) (fun c hc => tiles_ne_nil hc)
  rw [h] at this
  have e1 : nj + 1 - 2 = nj - 1 := by omega
  have e2 : ni + 1 - 2 = ni - 1 := by omega
  rwa [e1, e2] at this

theorem TileOK.mono {d : Nat → Int} {B : Nat} {c : List Nat} (h : TileOK d 5 B c) : TileOK d 5 24 c :=
  ⟨fun k hk => Nat.lt_of_lt_of_le (h.small k hk) (Nat.pow_le_pow_right (by decide) h.b24), by decide, by decide, by decide, by decide⟩

/-- With the test for space there is either a refusal or a stream that fits. -/
theorem packPar_check {mem : List W} {base : Nat} {rem : Int} {limit : Nat} (h : ParOK f ni nj nbits 5)
    (hl : 32 * ((base : Int) + rem) ≤ limit)
    (hpos : 32 * base + (3 + (ni + (nj - 1)) * nbits) + 5 * ((nj - 1) * (ni - 1)) + 240 ≤ 32 * mem.length)
    (hlim : limit + 5 * ((nj - 1) * (ni - 1)) + 240 ≤ 32 * mem.length) :
    packPar (noSpace base rem nbits) f ni nj nbits 5 mem base = some none ∨
    ∃ mem' n, packPar (noSpace base rem nbits) f ni nj nbits 5 mem base = some (some (mem', n)) ∧ base + n + 1 < mem.length := by
  have hb : base < mem.length := by omega
  have hcount := tiles_count ni nj
  have e0 := startWrite_some hb
  generalize hs0 : ({ mem := mem.set base 0, ptr := base, last := 0, space := 32 } : Writer) = s0 at e0
  have wf0 : s0.WF := by subst hs0; exact ⟨by simp, by simp; omega⟩
  have l0 : s0.mem.length = mem.length := by subst hs0; simp
  have p0 : s0.pos = 32 * base := by subst hs0; simp [Writer.pos]
  have q0 : s0.ptr = base := by subst hs0; rfl
  obtain ⟨s1, e1, wf1, b1, p1, l1⟩ := stuffAll_spec (pEdge f ni nj nbits 5) s0 wf0 h.edge_ok (by rw [p0, l0, pEdge_len]; omega)
  have q1 := (stuffAll_some _ _ _ wf0 h.edge_ok e1).2.2.2.2.1
  obtain ⟨r, er, hr⟩ := pTiles_check (d := pDiff f ni) (mem := mem) (nb := nbits) hl (tiles ni nj 3 2) s1
    (fun c hc => ⟨(h.tile c hc).mono, tile_length_le hc⟩) wf1 (by rw [l1, l0]) (by omega) (by rw [p1, p0, pEdge_len]; omega) (by omega)
  unfold packPar
  rw [e0]
  dsimp only
  rw [e1]
  dsimp only
  rw [er]
  cases r with
  | none => exact Or.inl rfl
  | some s2 =>
    right
    obtain ⟨wf2, l2, q2, p2⟩ := hr s2 rfl
    have ptail : toksLen trailer = 32 := rfl
    have htr : ∀ t ∈ trailer, TokOK t := by
      intro t ht
      simp [trailer] at ht; subst ht; simp [TokOK]
    obtain ⟨s3, e3, wf3, -, p3, l3⟩ := stuffAll_spec trailer s2 wf2 htr (by rw [ptail, l2]; omega)
    have q3 := (stuffAll_some _ _ _ wf2 htr e3).2.2.2.2.1
    have hsp := wf3.1
    refine ⟨s3.mem, s3.ptr - base, by dsimp only; rw [e3]; rfl, ?_⟩
    simp only [Writer.pos, ptail] at p2 p3
    omega

/-! ## The decoder -/

theorem unpackPar_spec {trunc : W → W} {u : W} {mem : List W} {base n : Nat} {g : Nat → W} {d0 : Nat → Int}
    (h : ParOK f ni nj nbits cont) (ht : ∀ k, k < ni * nj → trunc (f k) = f k)
    (hseg : Seg mem base n (parToks f ni nj nbits cont)) :
    ∃ g', unpackPar trunc u mem base ni nj nbits g d0 = some g' ∧ ∀ k, g' k = if k < ni * nj then f k else g k := by
  obtain ⟨s, rest, e, wf, hr, hs⟩ := hseg.start
  obtain ⟨hf, hb1, hn, -, -, hc5, hni, hnj⟩ := id h
  have hcn : (BitVec.ofNat 32 cont).toNat = cont := by simp; omega
  simp only [parToks, pEdge, List.cons_append, toksBits_cons, toksBits_append, List.append_assoc] at hs
  obtain ⟨s1, e1, wf1, b1⟩ := extract_tok (u := u) wf (by omega) (by omega) (by rw [hcn]; omega) (by simp [hr]) hs
  have m1 : ((steps 1 ni 1).map fun i => (nbits, f (ftn2c i 1 ni))) =
      ((steps 1 ni 1).map fun i => ftn2c i 1 ni).map fun k => ((nbits, f k) : Tok) := by simp
  have m2 : ((steps 2 nj 1).map fun j => (nbits, f (ftn2c 1 j ni))) =
      ((steps 2 nj 1).map fun j => ftn2c 1 j ni).map fun k => ((nbits, f k) : Tok) := by simp
  have r1 : ∀ k ∈ (steps 1 ni 1).map fun i => ftn2c i 1 ni, k < ni * nj := by
    intro k hk
    simp only [List.mem_map, mem_steps_one] at hk
    obtain ⟨i, hi, rfl⟩ := hk
    exact ftn2c_lt hi.1 hi.2 (by omega) (by omega)
  have r2 : ∀ k ∈ (steps 2 nj 1).map fun j => ftn2c 1 j ni, k < ni * nj := by
    intro k hk
    simp only [List.mem_map, mem_steps_one] at hk
    obtain ⟨j, hj, rfl⟩ := hk
    exact ftn2c_lt (by omega) (by omega) (by omega) hj.2
  rw [m1] at b1
  obtain ⟨s2, g2, e2, wf2, b2, hg2⟩ := readCells_spec (u := u) (val := trunc) f f hb1 (by omega) _ s1 g _ wf1
    (fun k hk => hf k (r1 k hk)) (fun k hk => ht k (r1 k hk)) (by simp [hr]) b1
  rw [m2] at b2
  obtain ⟨s3, g3, e3, wf3, b3, hg3⟩ := readCells_spec (u := u) (val := trunc) f f hb1 (by omega) _ s2 g2 _ wf2
    (fun k hk => hf k (r2 k hk)) (fun k hk => ht k (r2 k hk)) (by simp [hr]) b2
  obtain ⟨s4, d, e4, -, -, hd⟩ := unPTiles_spec (u := u) (tiles ni nj 3 2) d0 s3 rest h.tile wf3 hr b3
  refine ⟨rebuildW trunc d ni (interior ni nj) g3, by simp only [unpackPar, e, e1, e2, e3, hcn, e4], ?_⟩
  have hedge : ∀ k, edge ni nj k → g3 k = f k := by
    rintro k ⟨x, y, a, b, c, d, hxy, rfl⟩
    rw [hg3]
    split
    · rfl
    · rename_i hnot
      rw [hg2, if_pos]
      by_cases hy : y = 1
      · subst hy
        simp only [List.mem_map, mem_steps_one]
        exact ⟨x, ⟨a, b⟩, rfl⟩
      · exfalso
        apply hnot
        have hx : x = 1 := by omega
        subst hx
        simp only [List.mem_map, mem_steps_one]
        exact ⟨y, ⟨by omega, d⟩, rfl⟩
  have hdi : ∀ k ∈ interior ni nj, d k = pDiff f ni k := by
    intro k hk
    rw [hd, if_pos]
    obtain ⟨x, y, a, b, c, d, rfl⟩ := mem_interior.1 hk
    exact (mem_tiles (by omega)).2 ⟨x, y, a, b, c, d, rfl⟩
  have hlt : ∀ k ∈ interior ni nj, k < ni * nj := by
    intro k hk
    obtain ⟨x, y, a, b, c, d, rfl⟩ := mem_interior.1 hk
    exact ftn2c_lt (by omega) b (by omega) d
  have hall := rebuildW_spec (interior ni nj) (edge ni nj) g3 (fun k hk => ht k (hlt k hk)) hdi hedge
    (fun p k q h => interior_order p k q h)
  intro k
  split
  · rename_i hk
    obtain ⟨x, y, a, b, c, d, rfl⟩ := ftn2c_surj hk
    exact (hall _).1 (edge_or_interior a b c d)
  · rename_i hk
    have hni' : k ∉ interior ni nj := fun h => hk (hlt k h)
    rw [(hall k).2 hni', hg3, if_neg (fun h => hk (r2 k h)), hg2, if_neg (fun h => hk (r1 k h))]

end Verif.Armn32
