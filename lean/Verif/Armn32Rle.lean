import Verif.Armn32Seg

/-! # Runs of signs: helper lemmas for `Armn32` -/

namespace Verif.Armn32

open Verif

/-- Token sequences that describe the signs from position `p` on; `lv` is the last sign that was counted. -/
inductive RleOK (f : Nat → BitVec 8) (npts : Nat) : Nat → Option (BitVec 8) → List Tok → Prop
  | done (p : Nat) (lv : Option (BitVec 8)) (h : npts ≤ p) : RleOK f npts p lv []
  | seq (p : Nat) (lv : Option (BitVec 8)) (ts l : List Tok) (h : p < npts) (hl : l = seqToks f npts p ++ ts)
      (r : RleOK f npts (p + 7) lv ts) : RleOK f npts p lv l
  | cnt (p n : Nat) (lv : Option (BitVec 8)) (ts l : List Tok) (h7 : 8 ≤ n) (h62 : n ≤ 62) (h : p + n ≤ npts)
      (hf : ∀ k, p ≤ k → k < p + n → f k = f p) (hl : l = cntToks f p n ++ ts)
      (r : RleOK f npts (p + n) (some (f p)) ts) : RleOK f npts p lv l
  | rep (p : Nat) (v : BitVec 8) (lv : Option (BitVec 8)) (ts l : List Tok) (h : p + 255 ≤ npts)
      (hf : ∀ k, p ≤ k → k < p + 255 → f k = v) (hl : l = (8, 0xFF#32) :: ts) (hv : lv = some v)
      (r : RleOK f npts (p + 255) (some v) ts) : RleOK f npts p lv l

variable {f : Nat → BitVec 8} {npts : Nat}

/-! ## The encoder -/

theorem runEnd_spec (last k indx : Nat) : indx ≤ runEnd f last k indx ∧ runEnd f last k indx ≤ indx + k ∧
    ∀ j, indx ≤ j → j < runEnd f last k indx → f j = f last := by
  induction k generalizing indx with
  | zero => simp only [runEnd]; exact ⟨Nat.le_refl _, Nat.le_refl _, fun j h1 h2 => by omega⟩
  | succ k ih =>
    simp only [runEnd]
    split
    · rename_i h
      obtain ⟨h1, h2, h3⟩ := ih (indx + 1)
      refine ⟨by omega, by omega, fun j hj hj2 => ?_⟩
      rcases Nat.eq_or_lt_of_le hj with rfl | hj
      · exact h
      · exact h3 j hj hj2
    · exact ⟨Nat.le_refl _, by omega, fun j h1 h2 => by omega⟩

theorem runToks_spec (count : Nat) (fuel i last : Nat) (rep : Bool) (lv : Option (BitVec 8)) (v : BitVec 8)
    (hfuel : count - i < fuel) (hn : last + (count - i) ≤ npts) (hlast : i < count → last < npts)
    (hf : ∀ k, last ≤ k → k < last + (count - i) → f k = v) (hrep : rep = true → lv = some v) :
    ∃ ts last', runToks f npts count fuel i rep last = some (ts, last') ∧ last ≤ last' ∧ (i < count → last < last') ∧
      ∃ lv', ∀ rest, RleOK f npts last' lv' rest → RleOK f npts last lv (ts ++ rest) := by
  induction fuel generalizing i last rep lv with
  | zero => omega
  | succ fuel ih =>
    simp only [runToks]
    by_cases hi : i < count
    · rw [if_pos hi]
      have hfl : f last = v := hf last (Nat.le_refl _) (by omega)
      generalize hlcl : (if count - i ≥ 63 then 62 else count - i) = lcl
      have hl62 : lcl ≤ 62 ∧ lcl ≤ count - i ∧ 1 ≤ lcl ∧ (lcl < 62 → lcl = count - i) := by split at hlcl <;> omega
      have cntCase : ∀ rep' : Bool, 8 ≤ lcl →
          ∃ ts last', (runToks f npts count fuel (i + lcl) rep' (last + lcl)).map (fun r => (cntToks f last lcl ++ r.1, r.2)) =
              some (ts, last') ∧ last ≤ last' ∧ (i < count → last < last') ∧
            ∃ lv', ∀ rest, RleOK f npts last' lv' rest → RleOK f npts last lv (ts ++ rest) := by
        intro rep' h8
        obtain ⟨ts, last', e, h1, h2, lv', h3⟩ := ih (i + lcl) (last + lcl) rep' (some v) (by omega) (by omega) (by omega)
          (fun k hk hk2 => hf k (by omega) (by omega)) (fun _ => rfl)
        refine ⟨cntToks f last lcl ++ ts, last', by rw [e]; rfl, by omega, by omega, lv', fun rest hr => ?_⟩
        refine RleOK.cnt last lcl lv (ts ++ rest) _ h8 hl62.1 (by omega) (fun k hk hk2 => ?_) (List.append_assoc _ _ _) ?_
        · rw [hfl]; exact hf k hk (by omega)
        · rw [hfl]; exact h3 rest hr
      by_cases c8 : lcl < 8
      · rw [if_pos c8]
        have : i + lcl = count := by omega
        rw [this]
        have hstop : ∀ (fu l : Nat), fu ≠ 0 → runToks f npts count fu count rep l = some ([], l) := by
          intro fu l h0
          cases fu with
          | zero => exact absurd rfl h0
          | succ fu => simp only [runToks, Nat.lt_irrefl, if_false]
        rw [hstop fuel _ (by omega)]
        refine ⟨_, _, rfl, by omega, by omega, lv, fun rest hr => ?_⟩
        exact RleOK.seq last lv rest _ (hlast hi) (by simp) hr
      · rw [if_neg c8]
        by_cases c62 : lcl = 62
        · rw [if_pos c62]
          by_cases cr : count - i > 256 ∧ rep = true
          · rw [if_pos cr]
            obtain ⟨ts, last', e, h1, h2, lv', h3⟩ := ih (i + 255) (last + 255) rep (some v) (by omega) (by omega) (by omega)
              (fun k hk hk2 => hf k (by omega) (by omega)) (fun _ => rfl)
            refine ⟨(8, 0xFF#32) :: ts, last', by rw [e]; rfl, by omega, by omega, lv', fun rest hr => ?_⟩
            exact RleOK.rep last v lv (ts ++ rest) _ (by omega) (fun k hk hk2 => hf k hk (by omega)) rfl (hrep cr.2) (h3 rest hr)
          · rw [if_neg cr]
            exact cntCase true (by omega)
        · rw [if_neg c62]
          exact cntCase rep (by omega)
    · rw [if_neg hi]
      exact ⟨[], last, rfl, Nat.le_refl _, fun h => absurd h hi, lv, fun rest hr => hr⟩

theorem rleToks_spec (fuel last : Nat) (lv : Option (BitVec 8)) (hfuel : npts - last < fuel) :
    ∃ ts, rleToks f npts fuel last = some ts ∧ RleOK f npts last lv ts := by
  induction fuel generalizing last lv with
  | zero => omega
  | succ fuel ih =>
    simp only [rleToks]
    by_cases h : last + 1 ≤ npts
    · rw [if_pos h]
      obtain ⟨h1, h2, h3⟩ := runEnd_spec (f := f) last (npts - (last + 1)) (last + 1)
      generalize runEnd f last (npts - (last + 1)) (last + 1) = e at *
      by_cases c : e - last < 8
      · rw [if_pos c]
        obtain ⟨ts, et, ok⟩ := ih (last + 7) lv (by omega)
        exact ⟨_, by rw [et]; rfl, RleOK.seq last lv ts _ (by omega) rfl ok⟩
      · rw [if_neg c]
        obtain ⟨ts, last', er, q1, q2, lv', q3⟩ := runToks_spec (f := f) (npts := npts) (e - last) (e - last + 1) 0 last false lv (f last)
          (by omega) (by omega) (by omega) (fun k hk hk2 => by
            rcases Nat.eq_or_lt_of_le hk with rfl | hk
            · rfl
            · exact h3 k (by omega) (by omega)) (by simp)
        rw [er]
        obtain ⟨ts2, et2, ok2⟩ := ih last' lv' (by have := q2 (by omega); omega)
        exact ⟨_, by dsimp only; rw [et2]; rfl, q3 _ ok2⟩
    · rw [if_neg h]
      exact ⟨[], rfl, RleOK.done last lv (by omega)⟩

/-! ## Size and form of the tokens -/

theorem bitTok_ok {b : BitVec 8} (h : b.toNat ≤ 1) : TokOK (bitTok b) := by
  refine ⟨by simp [bitTok], ?_⟩
  simp only [bitTok, BitVec.toNat_setWidth]
  exact Nat.lt_of_le_of_lt (Nat.mod_le _ _) (by omega)

theorem seqToks_ok (hf : ∀ k, k < npts → (f k).toNat ≤ 1) (p : Nat) : ∀ t ∈ seqToks f npts p, TokOK t := by
  intro t ht
  simp only [seqToks, List.mem_cons, List.mem_map, List.mem_range] at ht
  rcases ht with rfl | ⟨i, hi, rfl⟩
  · simp [TokOK]
  · exact bitTok_ok (hf _ (by split at hi <;> omega))

theorem cntToks_ok (hf : ∀ k, k < npts → (f k).toNat ≤ 1) {p n : Nat} (hp : p < npts) (hn : n ≤ 63) :
    ∀ t ∈ cntToks f p n, TokOK t := by
  intro t ht
  simp only [cntToks, List.mem_cons, List.not_mem_nil, or_false] at ht
  rcases ht with rfl | rfl | rfl
  · simp [TokOK]
  · exact bitTok_ok (hf _ hp)
  · refine ⟨by simp, ?_⟩
    simp
    omega

theorem RleOK.ok (hf : ∀ k, k < npts → (f k).toNat ≤ 1) {p : Nat} {lv : Option (BitVec 8)} {ts : List Tok}
    (h : RleOK f npts p lv ts) : ∀ t ∈ ts, TokOK t := by
  induction h with
  | done => simp
  | seq p lv ts l hp hl r ih =>
    subst hl
    intro t ht
    rcases List.mem_append.1 ht with ht | ht
    · exact seqToks_ok hf p t ht
    · exact ih t ht
  | cnt p n lv ts l h7 h62 h hfp hl r ih =>
    subst hl
    intro t ht
    rcases List.mem_append.1 ht with ht | ht
    · exact cntToks_ok hf (by omega) (by omega) t ht
    · exact ih t ht
  | rep p v lv ts l h hfp hl hv r ih =>
    subst hl
    intro t ht
    rcases List.mem_cons.1 ht with rfl | ht
    · simp [TokOK]
    · exact ih t ht

theorem toksLen_range_bit (n p : Nat) : toksLen ((List.range n).map fun i => bitTok (f (p + i))) = n := by
  rw [show ((List.range n).map fun i => bitTok (f (p + i))) = (List.range n).map fun i => ((1, (f (p + i)).setWidth 32) : Tok) from rfl,
    toksLen_map (List.range n) 1 (fun i => (f (p + i)).setWidth 32)]
  simp

/-- Eight bits for seven signs at most. -/
theorem RleOK.len {p : Nat} {lv : Option (BitVec 8)} {ts : List Tok}
    (h : RleOK f npts p lv ts) : toksLen ts ≤ 8 * ((npts - p + 6) / 7) := by
  induction h with
  | done => simp
  | seq p lv ts l hp hl r ih =>
    subst hl
    simp only [seqToks, List.cons_append, toksLen_cons, toksLen_append, toksLen_range_bit]
    split <;> omega
  | cnt p n lv ts l h7 h62 h hfp hl r ih =>
    subst hl
    simp only [cntToks, bitTok, List.cons_append, List.nil_append, toksLen_cons]
    omega
  | rep p v lv ts l h hfp hl hv r ih =>
    subst hl
    simp only [toksLen_cons]
    omega

/-! ## The decoder -/

theorem unRle_spec {u : W} {mem : List W} (hf : ∀ k, k < npts → (f k).toNat ≤ 1) {p : Nat} {lv : Option (BitVec 8)}
    {ts : List Tok} (h : RleOK f npts p lv ts) :
    ∀ (fuel i : Nat) (lastVal : W) (s : Reader) (g : Nat → BitVec 8) (rest : List Bool), i = min p npts → npts - i < fuel →
      (∀ v, lv = some v → lastVal.setWidth 8 = v) → s.WF → rest ≠ [] → s.bits mem = toksBits ts ++ rest →
      ∃ g', unRle u mem npts fuel i lastVal s g = some g' ∧ ∀ k, g' k = if i ≤ k ∧ k < npts then f k else g k := by
  induction h with
  | done p lv hp =>
    intro fuel i lastVal s g rest hi hfuel hv wf hr hs
    cases fuel with
    | zero => omega
    | succ fuel =>
      refine ⟨g, by simp only [unRle]; rw [if_neg (by omega)], fun k => ?_⟩
      rw [if_neg (by omega)]
  | seq p lv ts l hp hl r ih =>
    intro fuel i lastVal s g rest hi hfuel hv wf hr hs
    subst hl
    have hip : i = p := by omega
    subst hip
    cases fuel with
    | zero => omega
    | succ fuel =>
      have hok := seqToks_ok hf i
      simp only [unRle]
      rw [if_pos hp]
      simp only [seqToks, List.cons_append, toksBits_cons, toksBits_append, List.append_assoc] at hs hok
      obtain ⟨s1, e1, wf1, b1⟩ := extract_tok (u := u) wf (by omega) (by omega) (hok _ (List.mem_cons_self ..)).2 (by simp [hr]) hs
      rw [e1]
      dsimp only
      rw [if_pos rfl]
      generalize hlim : (if i + 7 > npts then npts - i else 7) = lim at *
      have hlim2 : i + lim = min (i + 7) npts := by split at hlim <;> omega
      have em : ((List.range lim).map fun k => bitTok (f (i + k))) =
          ((List.range lim).map (i + ·)).map fun k => ((1, (f k).setWidth 32) : Tok) := by
        simp [bitTok]
      rw [em] at b1
      obtain ⟨s2, g2, e2, wf2, b2, hg2⟩ := readCells_spec (u := u) (val := fun t : W => t.setWidth 8)
        (fun k => (f k).setWidth 32) f (by omega) (by omega) ((List.range lim).map (i + ·)) s1 g _ wf1
        (by
          intro k hk
          simp only [List.mem_map, List.mem_range] at hk
          obtain ⟨j, hj, rfl⟩ := hk
          have := hf (i + j) (by omega)
          simp only [BitVec.toNat_setWidth]
          exact Nat.lt_of_le_of_lt (Nat.mod_le _ _) (by omega))
        (fun k _ => by simp) (by simp [hr]) b1
      rw [e2]
      obtain ⟨g', e3, hg3⟩ := ih fuel (i + lim) lastVal s2 g2 rest hlim2 (by omega) hv wf2 hr b2
      refine ⟨g', e3, fun k => ?_⟩
      rw [hg3, hg2]
      simp only [List.mem_map, List.mem_range]
      by_cases c1 : i + lim ≤ k ∧ k < npts
      · rw [if_pos c1, if_pos (by omega)]
      · rw [if_neg c1]
        by_cases c2 : ∃ a, a < lim ∧ i + a = k
        · rw [if_pos c2]
          obtain ⟨a, ha, rfl⟩ := c2
          rw [if_pos (by omega)]
        · rw [if_neg c2, if_neg]
          intro h
          exact c2 ⟨k - i, by omega, by omega⟩
  | cnt p n lv ts l h7 h62 h hfp hl r ih =>
    intro fuel i lastVal s g rest hi hfuel hv wf hr hs
    subst hl
    have hip : i = p := by omega
    subst hip
    cases fuel with
    | zero => omega
    | succ fuel =>
      have hok := cntToks_ok hf (p := i) (n := n) (by omega) (by omega)
      simp only [unRle]
      rw [if_pos (by omega)]
      simp only [cntToks, bitTok, List.cons_append, List.nil_append, toksBits_cons, List.append_assoc] at hs hok
      obtain ⟨s1, e1, wf1, b1⟩ := extract_tok (u := u) (w := 1) (t := 1) wf (by omega) (by omega) (by decide) (by simp [hr]) hs
      rw [e1]
      dsimp only
      rw [if_neg (by decide)]
      obtain ⟨s2, e2, wf2, b2⟩ := extract_tok (u := u) (w := 1) (t := (f i).setWidth 32) wf1 (by omega) (by omega)
        (hok (1, (f i).setWidth 32) (by simp)).2 (by simp [hr]) b1
      rw [e2]
      dsimp only
      obtain ⟨s3, e3, wf3, b3⟩ := extract_tok (u := u) (t := BitVec.ofNat 32 n) wf2 (by omega) (by omega)
        (hok (6, BitVec.ofNat 32 n) (by simp)).2 (by simp [hr]) b2
      rw [e3]
      dsimp only
      have hnn : (BitVec.ofNat 32 n).toNat = n := by simp; omega
      rw [if_neg (by intro h; have := congrArg BitVec.toNat h; rw [hnn] at this; simp at this; omega), hnn]
      obtain ⟨g', e4, hg4⟩ := ih fuel (i + n) ((f i).setWidth 32) s3 (fill8 (((f i).setWidth 32 : W).setWidth 8) g i n) rest (by omega)
        (by omega) (by intro v hv; cases hv; simp) wf3 hr b3
      refine ⟨g', e4, fun k => ?_⟩
      rw [hg4, fill8]
      by_cases c1 : i + n ≤ k ∧ k < npts
      · rw [if_pos c1, if_pos (by omega)]
      · rw [if_neg c1]
        by_cases c2 : i ≤ k ∧ k < i + n
        · rw [if_pos c2, if_pos (by omega), hfp k c2.1 c2.2]
          simp
        · rw [if_neg c2, if_neg (by omega)]
  | rep p v lv ts l h hfp hl hlv r ih =>
    intro fuel i lastVal s g rest hi hfuel hv wf hr hs
    subst hl
    have hip : i = p := by omega
    subst hip
    cases fuel with
    | zero => omega
    | succ fuel =>
      simp only [unRle]
      rw [if_pos (by omega)]
      have hs' : s.bits mem = toBits 1 (1#32).toNat ++ (toBits 1 (1#32).toNat ++ (toBits 6 (63#32).toNat ++ (toksBits ts ++ rest))) := by
        rw [hs]
        rfl
      obtain ⟨s1, e1, wf1, b1⟩ := extract_tok (u := u) wf (by omega) (by omega) (by decide) (by simp [hr]) hs'
      rw [e1]
      dsimp only
      rw [if_neg (by decide)]
      obtain ⟨s2, e2, wf2, b2⟩ := extract_tok (u := u) wf1 (by omega) (by omega) (by decide) (by simp [hr]) b1
      rw [e2]
      dsimp only
      obtain ⟨s3, e3, wf3, b3⟩ := extract_tok (u := u) wf2 (by omega) (by omega) (by decide) (by simp [hr]) b2
      rw [e3]
      dsimp only
      rw [if_pos (by decide)]
      have hlast := hv v hlv
      obtain ⟨g', e4, hg4⟩ := ih fuel (i + 255) lastVal s3 (fill8 (lastVal.setWidth 8) g i 255) rest (by omega)
        (by omega) (by intro v hv; cases hv; exact hlast) wf3 hr b3
      refine ⟨g', e4, fun k => ?_⟩
      rw [hg4, fill8]
      by_cases c1 : i + 255 ≤ k ∧ k < npts
      · rw [if_pos c1, if_pos (by omega)]
      · rw [if_neg c1]
        by_cases c2 : i ≤ k ∧ k < i + 255
        · rw [if_pos c2, if_pos (by omega), hfp k c2.1 c2.2, hlast]
        · rw [if_neg c2, if_neg (by omega)]

/-- `pack1bitRLE` into an array with room. -/
theorem pack1bitRLE_spec (hf : ∀ k, k < npts → (f k).toNat ≤ 1) {mem : List W} {base : Nat}
    (room : 32 * base + 8 * ((npts + 6) / 7) + 32 ≤ 32 * mem.length) :
    ∃ mem' n ts, pack1bitRLE f npts mem base = some (mem', n) ∧ mem'.length = mem.length ∧
      Seg mem' base n ts ∧ RleOK f npts 0 none ts ∧ 32 * n < 8 * ((npts + 6) / 7) + 32 ∧
      ∀ j : Nat, j < base → mem'[j]? = mem[j]? := by
  obtain ⟨ts, e, ok⟩ := rleToks_spec (f := f) (npts := npts) (npts + 1) 0 none (by omega)
  have hlen := ok.len
  have hok := ok.ok hf
  obtain ⟨s, s', e1, e2, hp⟩ := stream_some (mem := mem) (base := base) hok (by omega) (by omega)
  obtain ⟨h1, h2, h3, h4, h5, h6⟩ := stream_spec e1 hok e2 hp
  refine ⟨s'.mem, s'.ptr - base, ts, ?_, h1, h3, ok, by omega, h6⟩
  simp only [pack1bitRLE, e, e1, e2, Option.map_some]

theorem unpack1bitRLE_spec {u : W} (hf : ∀ k, k < npts → (f k).toNat ≤ 1) {mem : List W} {base n : Nat} {ts : List Tok}
    {g : Nat → BitVec 8} (hseg : Seg mem base n ts) (ok : RleOK f npts 0 none ts) :
    ∃ g', unpack1bitRLE u mem base npts g = some g' ∧ ∀ k, g' k = if k < npts then f k else g k := by
  obtain ⟨s, rest, e, wf, hr, hs⟩ := hseg.start
  obtain ⟨g', e2, hg⟩ := unRle_spec (u := u) hf ok (npts + 1) 0 0xFFFFFFFF#32 s g rest (by omega) (by omega) (by simp) wf hr hs
  refine ⟨g', by simp only [unpack1bitRLE, e, e2], fun k => ?_⟩
  rw [hg]
  simp

end Verif.Armn32
