import Verif.TokenStream
import Verif.CompactIntegerLemmas

/-! # Model of `compact_rle`

Code: `/repo/src/packers/compact_rle.c`.  Element counts, strides, offsets are natural numbers
(no overflow of the `int` products).  Token widths 3..31; for a width of 32 the conversion of line
138 and the shifts of `stuff` are undefined.  The tokens are listed first and then stuffed in that
order; the code stuffs each one when it is made. -/

namespace Verif.Rle

/-- lines 149-205: the token sequence made from the relative values (`arrayOfUnpacked[i] - minInteger`);
`prev` and `cnt` are `previousToken` and `previousTokenCount`; the last element is treated by 192-204. -/
def tokens (maxRange : W) (maxRepeat : Int) : W → Int → List W → List W
  | _, _, [] => []
  | prev, cnt, [t] =>
    if t ≠ prev then [t]
    else if cnt + 1 = 2 then [t]
    else [maxRange + BitVec.ofInt 32 (cnt + 1)]
  | prev, cnt, t :: t' :: ts =>
    if t ≠ prev then
      (if cnt = 1 then [t] else if cnt = 2 then [prev, t] else [maxRange + BitVec.ofInt 32 cnt, t])
        ++ tokens maxRange maxRepeat t 1 (t' :: ts)
    else if cnt + 1 = maxRepeat then
      (maxRange + BitVec.ofInt 32 maxRepeat) :: tokens maxRange maxRepeat (-1) 1 (t' :: ts)
    else tokens maxRange maxRepeat prev (cnt + 1) (t' :: ts)

/-- lines 119-136: `minInteger` and `maxInteger` (elements compared as unsigned). -/
def bounds (xs : List W) (max min : W) : W × W :=
  if max = min then
    match xs with
    | [] => (0, 0)
    | x :: r => findMinMax false r (x, x)
  else (min, max)

/-- lines 118-218, packing (`opCode == 1`): packed array, header words 1 to 3, number of tokens. -/
def pack (src : List W) (n stride : Nat) (max min : W) (bits off : Nat) (dst : List W) :
    Option (List W × List W × Nat) :=
  if bits < 3 ∨ n = 0 ∨ 31 < bits then none
  else
    match gather src stride n 0 with
    | none => none
    | some xs =>
      let (mn, mx) := bounds xs max min
      let maxRange := mx - mn
      let maxRepeat : Int := 2 ^ bits - 1 - maxRange.toNat
      let toks := tokens maxRange maxRepeat (-1) 1 (xs.map fun x => x - mn)
      match startWriter dst off with
      | none => none
      | some s =>
        match stuffAll (toks.map fun t => (bits, t)) s with
        | none => none
        | some s' =>
          (finish s').map fun d =>
            (d, [0xF0000000#32 ||| (1 <<< 20), (BitVec.ofNat 32 bits <<< 26) ||| BitVec.ofNat 32 toks.length, mn, maxRange],
              toks.length)

/-- lines 246-249: `while (repeatCount--) { arrayOfUnpacked[currentPosition] = previousToken; currentPosition += stride; }` -/
def fill (stride : Nat) (v : W) : Nat → Nat → List W → Option (List W × Nat)
  | 0, pos, out => some (out, pos)
  | k+1, pos, out =>
    match store out pos v with
    | none => none
    | some out => fill stride v k (pos + stride) out

/-- lines 238-252: the unpacking loop. -/
def unpackLoop (u : W) (mem : List W) (stride size : Nat) (maxRange mn : W) :
    Nat → Reader → W → Nat → List W → Option (List W)
  | 0, _, _, _, out => some out
  | k+1, s, prev, pos, out =>
    match extract u mem size s with
    | none => none
    | some (tok, s') =>
      let cur := tok + mn
      if tok ≤ maxRange then
        match store out pos cur with
        | none => none
        | some out => unpackLoop u mem stride size maxRange mn k s' cur (pos + stride) out
      else
        match fill stride prev (tok - maxRange - 1).toNat pos out with
        | none => none
        | some (out, pos) => unpackLoop u mem stride size maxRange mn k s' cur pos out

/-- lines 219-254, unpacking (`opCode == 2`).  `u`: result of a shift by 32; `junk`: `previousToken`
before its first assignment.  The bit fields of `rle_header` (33-40) are read as on a little-endian machine. -/
def unpack (u junk : W) (mem hdr : List W) (stride off : Nat) (out : List W) : Option (List W × Nat) :=
  match hdr with
  | [_, w1, mn, range] =>
    let total := w1.toNat % 2 ^ 26
    let size := w1.toNat / 2 ^ 26
    let maxInteger := mn + range
    let maxRange := maxInteger - mn
    match startReader mem off with
    | none => none
    | some s => (unpackLoop u mem stride size maxRange mn total s junk 0 out).map (·, total)
  | _ => none

/-! ## Lemmas -/

/-- What the decoder makes of a token sequence. -/
def expand (maxRange mn : W) : W → List W → List W
  | _, [] => []
  | prev, t :: ts =>
    (if t ≤ maxRange then [t + mn] else List.replicate (t - maxRange - 1).toNat prev) ++ expand maxRange mn (t + mn) ts

/-- The last element equals the one before, or the latter differs from its predecessor. -/
def Keeps (xs : List W) : Prop := ∀ l a b c, xs = l ++ [a, b, c] → c = b ∨ b ≠ a

theorem Keeps.tail {x : W} {xs : List W} (h : Keeps (x :: xs)) : Keeps xs := by
  intro l a b c e
  exact h (x :: l) a b c (by simp [e])

theorem expand_rep {mr mn p c : W} {k : Nat} {ts : List W} (hk : 2 ≤ k) (hlt : mr.toNat + k < 2 ^ 32) (hc : c = mr + BitVec.ofNat 32 k) :
    expand mr mn p (c :: ts) = List.replicate (k - 1) p ++ expand mr mn (c + mn) ts := by
  have hc' : c.toNat = mr.toNat + k := by
    rw [hc, BitVec.toNat_add, BitVec.toNat_ofNat, Nat.mod_eq_of_lt (b := 2 ^ 32) (a := k) (by omega),
      Nat.mod_eq_of_lt (by omega)]
  have h1 : ¬ c ≤ mr := by rw [BitVec.le_def]; omega
  have h2 : (c - mr - 1).toNat = k - 1 := by
    have h3 : (c - mr).toNat = k := by rw [BitVec.toNat_sub]; omega
    rw [BitVec.toNat_sub, h3]
    simp; omega
  simp only [expand, h1, if_false, h2]

theorem ofInt_natCast (k : Nat) : BitVec.ofInt 32 (k : Int) = BitVec.ofNat 32 k := by simp

theorem expand_lit {mr mn p t : W} {ts : List W} (h : t ≤ mr) :
    expand mr mn p (t :: ts) = (t + mn) :: expand mr mn (t + mn) ts := by
  simp [expand, h]

/-- The state of the packer: nothing pending, or `k - 1` copies of `prev` pending. -/
def Live (mr mn prev p : W) (k rep : Nat) : Prop :=
  (prev = -1 ∧ k = 1) ∨ (prev ≤ mr ∧ 1 ≤ k ∧ k < rep ∧ p = prev + mn)

/-- The suffix seen with the pending repeats put back. -/
def pend (prev : W) (k : Nat) (ts : List W) : List W :=
  if prev = -1 then ts else List.replicate (min k 2) prev ++ ts

theorem expand_tokens {mr mn : W} {rep : Nat} (hrep : 2 ≤ rep) (hmr : mr.toNat + rep < 2 ^ 31) :
    ∀ (ts : List W) (prev p : W) (k : Nat), Live mr mn prev p k rep → ts ≠ [] → (∀ t ∈ ts, t ≤ mr) →
      Keeps (pend prev k ts) →
      expand mr mn p (tokens mr rep prev k ts) = (List.replicate (k - 1) prev ++ ts).map (· + mn) := by
  have hm1 : (-1 : W).toNat = 2 ^ 32 - 1 := by decide
  have hne : ∀ t : W, t ≤ mr → t ≠ -1 := by
    intro t ht e; rw [e, BitVec.le_def, hm1] at ht; omega
  intro ts
  induction ts with
  | nil => intro _ _ _ _ h; exact absurd rfl h
  | cons t ts ih =>
    intro prev p k hlive _ hts hkeep
    have ht := hts t (by simp)
    have htm := hne t ht
    cases ts with
    | nil =>
      simp only [tokens]
      by_cases e : t = prev
      · subst e
        rcases hlive with ⟨h, -⟩ | ⟨h1, h2, h3, h4⟩
        · exact absurd h htm
        rw [if_neg (by simp)]
        by_cases k1 : k = 1
        · subst k1; simp [expand, h1]
        · rw [if_neg (by omega), expand_rep (k := k + 1) (by omega) (by omega) (by rw [← ofInt_natCast]; congr 1)]
          subst h4
          simp only [expand, List.append_nil, Nat.add_sub_cancel, List.map_append, List.map_replicate,
            List.map_cons, List.map_nil]
          rw [show k = (k - 1) + 1 by omega, List.replicate_succ']; simp
      · rw [if_pos e]
        have hk : k = 1 := by
          rcases hlive with ⟨_, h⟩ | ⟨h1, h2, h3, h4⟩
          · exact h
          · by_cases k1 : k = 1
            · exact k1
            · exfalso
              have hp : pend prev k [t] = [] ++ [prev, prev, t] := by
                rw [pend, if_neg (hne prev h1), show min k 2 = 2 by omega]; rfl
              rcases hkeep [] prev prev t hp with h | h
              · exact e h
              · exact h rfl
        subst hk
        simp [expand, ht]
    | cons t' ts =>
      have hts' : ∀ x ∈ t' :: ts, x ≤ mr := fun x hx => hts x (List.mem_cons_of_mem _ hx)
      simp only [tokens]
      by_cases e : t = prev
      · subst e
        rcases hlive with ⟨h, -⟩ | ⟨h1, h2, h3, h4⟩
        · exact absurd h htm
        rw [if_neg (by simp)]
        by_cases kr : k + 1 = rep
        · rw [if_pos (by omega), expand_rep (k := rep) hrep (by omega) (by rw [← ofInt_natCast])]
          have := ih (-1) (mr + BitVec.ofInt 32 rep + mn) 1 (Or.inl ⟨rfl, rfl⟩) (by simp) hts' (by
            rw [pend, if_neg htm] at hkeep
            rw [pend, if_pos rfl]
            have hh : ∀ (m : Nat) (l : List W), Keeps (List.replicate m t ++ l) → Keeps l := by
              intro m
              induction m with
              | zero => intro l h; exact h
              | succ m ihm => intro l h; rw [List.replicate_succ, List.cons_append] at h; exact ihm _ h.tail
            exact (hh _ _ hkeep).tail)
          rw [Nat.sub_self, List.replicate_zero, List.nil_append] at this
          rw [show ((1 : Nat) : Int) = 1 from rfl] at this
          rw [this, h4, ← kr]
          simp only [Nat.add_sub_cancel, List.map_append, List.map_replicate, List.map_cons]
          rw [show k = (k - 1) + 1 by omega, List.replicate_succ']; simp
        · rw [if_neg (by omega)]
          have := ih t p (k + 1) (Or.inr ⟨h1, by omega, by omega, h4⟩) (by simp) hts' (by
            rw [pend, if_neg htm] at hkeep ⊢
            rw [show min (k + 1) 2 = 2 by omega]
            by_cases k1 : k = 1
            · subst k1; simpa using hkeep
            · rw [show min k 2 = 2 by omega] at hkeep
              have := hkeep.tail
              simpa using this)
          rw [show ((k + 1 : Nat) : Int) = (k : Int) + 1 by omega] at this
          rw [this]
          simp only [Nat.add_sub_cancel]
          rw [show k = (k - 1) + 1 by omega, List.replicate_succ']; simp
      · rw [if_pos e]
        have IH := ih t (t + mn) 1 (Or.inr ⟨ht, by omega, by omega, rfl⟩) (by simp) hts' (by
            have hh : ∀ (m : Nat) (l : List W), Keeps (List.replicate m prev ++ l) → Keeps l := by
              intro m
              induction m with
              | zero => intro l h; exact h
              | succ m ihm => intro l h; rw [List.replicate_succ, List.cons_append] at h; exact ihm _ h.tail
            have h2 : Keeps (t :: t' :: ts) := by
              unfold pend at hkeep
              split at hkeep
              · exact hkeep
              · exact hh _ _ hkeep
            rw [pend, if_neg htm]; simpa using h2)
        rw [show ((1 : Nat) : Int) = 1 from rfl] at IH
        simp only [Nat.sub_self, List.replicate_zero, List.nil_append] at IH
        by_cases k1 : k = 1
        · subst k1
          rw [if_pos (by rfl), List.singleton_append, expand_lit ht, IH]; simp
        · have hl : prev ≤ mr ∧ 1 ≤ k ∧ k < rep ∧ p = prev + mn := by
            rcases hlive with ⟨_, h⟩ | h
            · exact absurd h k1
            · exact h
          rw [if_neg (by omega)]
          by_cases k2 : k = 2
          · subst k2
            rw [if_pos (by rfl)]
            simp only [List.cons_append, List.nil_append]
            rw [expand_lit hl.1, expand_lit ht, IH]; simp
          · rw [if_neg (by omega)]
            simp only [List.cons_append, List.nil_append]
            rw [expand_rep (k := k) (by omega) (by omega) (by rw [← ofInt_natCast]), expand_lit ht, IH, hl.2.2.2]
            simp

/-- Every token is in range. -/
theorem tokens_lt {mr : W} {rep : Nat} (hrep : 2 ≤ rep) (hmr : mr.toNat + rep < 2 ^ 31) :
    ∀ (ts : List W) (prev : W) (k : Nat), (prev = -1 ∧ k = 1 ∨ prev ≤ mr ∧ 1 ≤ k ∧ k < rep) → (∀ t ∈ ts, t ≤ mr) →
      (∀ c ∈ tokens mr rep prev k ts, c.toNat ≤ mr.toNat + rep) ∧ (tokens mr rep prev k ts).length + 1 ≤ ts.length + k := by
  have hm1 : (-1 : W).toNat = 2 ^ 32 - 1 := by decide
  have hne : ∀ t : W, t ≤ mr → t ≠ -1 := by
    intro t ht e; rw [e, BitVec.le_def, hm1] at ht; omega
  have hlit : ∀ t : W, t ≤ mr → t.toNat ≤ mr.toNat + rep := by
    intro t ht; rw [BitVec.le_def] at ht; omega
  have hcode : ∀ k : Nat, k ≤ rep → (mr + BitVec.ofInt 32 (k : Int)).toNat ≤ mr.toNat + rep := by
    intro k hk
    rw [ofInt_natCast, BitVec.toNat_add, BitVec.toNat_ofNat, Nat.mod_eq_of_lt (b := 2 ^ 32) (a := k) (by omega),
      Nat.mod_eq_of_lt (by omega)]
    omega
  intro ts
  induction ts with
  | nil => intro _ k h _; simp [tokens]; omega
  | cons t ts ih =>
    intro prev k hlive hts
    have ht := hts t (by simp)
    have htm := hne t ht
    cases ts with
    | nil =>
      simp only [tokens]
      by_cases e : t = prev
      · rw [if_neg (by simp [e])]
        have hl : prev ≤ mr ∧ 1 ≤ k ∧ k < rep := by
          rcases hlive with ⟨h, -⟩ | h
          · exact absurd (e.trans h) htm
          · exact h
        by_cases k1 : k = 1
        · subst k1
          rw [if_pos (by rfl)]
          exact ⟨by simp; exact hlit t ht, by simp⟩
        · rw [if_neg (by omega)]
          refine ⟨?_, by simp; omega⟩
          simp only [List.mem_singleton, forall_eq]
          have := hcode (k + 1) (by omega)
          rwa [show ((k + 1 : Nat) : Int) = (k : Int) + 1 by omega] at this
      · rw [if_pos e]; exact ⟨by simp; exact hlit t ht, by simp; omega⟩
    | cons t' ts =>
      have hts' : ∀ x ∈ t' :: ts, x ≤ mr := fun x hx => hts x (List.mem_cons_of_mem _ hx)
      simp only [tokens]
      by_cases e : t = prev
      · rw [if_neg (by simp [e])]
        have hl : prev ≤ mr ∧ 1 ≤ k ∧ k < rep := by
          rcases hlive with ⟨h, -⟩ | h
          · exact absurd (e.trans h) htm
          · exact h
        by_cases kr : k + 1 = rep
        · rw [if_pos (by omega)]
          have := ih (-1) 1 (Or.inl ⟨rfl, rfl⟩) hts'
          rw [show ((1 : Nat) : Int) = 1 from rfl] at this
          refine ⟨?_, by have := this.2; simp at this ⊢; omega⟩
          intro c hc
          rcases List.mem_cons.1 hc with h | h
          · rw [h]; exact hcode rep (by omega)
          · exact this.1 c h
        · rw [if_neg (by omega)]
          have := ih prev (k + 1) (Or.inr ⟨hl.1, by omega, by omega⟩) hts'
          rw [show ((k + 1 : Nat) : Int) = (k : Int) + 1 by omega] at this
          exact ⟨this.1, by have := this.2; simp at this ⊢; omega⟩
      · rw [if_pos e]
        have := ih t 1 (Or.inr ⟨ht, by omega, by omega⟩) hts'
        rw [show ((1 : Nat) : Int) = 1 from rfl] at this
        by_cases k1 : k = 1
        · subst k1
          rw [if_pos (by rfl)]
          refine ⟨?_, by have := this.2; simp at this ⊢; omega⟩
          intro c hc
          rcases List.mem_append.1 hc with h | h
          · rw [List.mem_singleton.1 h]; exact hlit t ht
          · exact this.1 c h
        · have hl : prev ≤ mr ∧ 1 ≤ k ∧ k < rep := by
            rcases hlive with ⟨_, h⟩ | h
            · exact absurd h k1
            · exact h
          rw [if_neg (by omega)]
          by_cases k2 : k = 2
          · subst k2
            rw [if_pos (by rfl)]
            refine ⟨?_, by have := this.2; simp at this ⊢; omega⟩
            intro c hc
            rcases List.mem_append.1 hc with h | h
            · simp at h
              rcases h with h | h
              · rw [h]; exact hlit _ hl.1
              · rw [h]; exact hlit t ht
            · exact this.1 c h
          · rw [if_neg (by omega)]
            refine ⟨?_, by have := this.2; simp at this ⊢; omega⟩
            intro c hc
            rcases List.mem_append.1 hc with h | h
            · simp only [List.mem_cons, List.not_mem_nil, or_false] at h
              rcases h with h | h
              · rw [h]; exact hcode k (by omega)
              · rw [h]; exact hlit t ht
            · exact this.1 c h

/-- Storing values one after the other. -/
def scatter (stride : Nat) : List W → Nat → List W → Option (List W)
  | [], _, out => some out
  | v :: vs, pos, out => (store out pos v).bind (scatter stride vs (pos + stride))

theorem fill_scatter (stride : Nat) (v : W) (vs : List W) :
    ∀ (k pos : Nat) (out : List W), scatter stride (List.replicate k v ++ vs) pos out =
      (fill stride v k pos out).bind fun r => scatter stride vs r.2 r.1 := by
  intro k
  induction k with
  | zero => intro pos out; rfl
  | succ k ih =>
    intro pos out
    simp only [List.replicate_succ, List.cons_append, scatter, fill]
    cases store out pos v with
    | none => rfl
    | some o => simp [ih]

theorem unpackLoop_scatter {u : W} {mem : List W} {stride size : Nat} {mr mn : W} (h1 : 1 ≤ size) (h2 : size ≤ 32) :
    ∀ (ts : List W) (s : Reader) (prev : W) (pos : Nat) (out : List W) (rest : List Bool), s.WF →
      (∀ t ∈ ts, t.toNat < 2 ^ size) → s.bits mem = tokBits size ts ++ rest → rest ≠ [] →
      unpackLoop u mem stride size mr mn ts.length s prev pos out = scatter stride (expand mr mn prev ts) pos out := by
  intro ts
  induction ts with
  | nil => intros; rfl
  | cons t ts ih =>
    intro s prev pos out rest wf hlt hb hr
    rw [tokBits_cons, List.append_assoc] at hb
    obtain ⟨s', e, wf', hb'⟩ := extract_tok (u := u) wf h1 h2 (hlt t (by simp)) (by simp [hr]) hb
    have IH := fun prev pos out => ih s' prev pos out rest wf' (fun t ht => hlt t (by simp [ht])) hb' hr
    simp only [List.length_cons, unpackLoop, e, expand]
    by_cases c : t ≤ mr
    · simp only [c, if_true, List.singleton_append, scatter]
      cases store out pos (t + mn) with
      | none => rfl
      | some o => simp [IH]
    · simp only [c, if_false]
      rw [fill_scatter]
      cases fill stride prev (t - mr - 1).toNat pos out with
      | none => rfl
      | some o => simp [IH]

theorem scatter_spec {stride : Nat} (hst : 1 ≤ stride) :
    ∀ (vs : List W) (i : Nat) (out : List W), (∀ j, j < vs.length → (i + j) * stride < out.length) →
      ∃ out', scatter stride vs (i * stride) out = some out' ∧ out'.length = out.length ∧
        (∀ j (h : j < vs.length), out'[(i + j) * stride]? = some vs[j]) ∧
        (∀ p, (∀ j, j < vs.length → p ≠ (i + j) * stride) → out'[p]? = out[p]?) := by
  intro vs
  induction vs with
  | nil => intro i out _; exact ⟨out, rfl, rfl, by simp, by simp⟩
  | cons v vs ih =>
    intro i out hout
    have h0 : i * stride < out.length := by simpa using hout 0 (by simp)
    obtain ⟨out', e, l, a, b⟩ := ih (i + 1) (out.set (i * stride) v) (by
      intro j hj
      have := hout (j + 1) (by simp; omega)
      rw [show i + 1 + j = i + (j + 1) by omega]; simpa using this)
    refine ⟨out', ?_, by simpa using l, ?_, ?_⟩
    · simp only [scatter, store, h0, if_true, Option.bind_some]
      rw [show i * stride + stride = (i + 1) * stride by rw [Nat.add_mul]; omega]
      exact e
    · intro j hj
      cases j with
      | zero =>
        simp only [Nat.add_zero, List.getElem_cons_zero]
        rw [b (i * stride) (by
          intro j' _ h
          have : i * stride < (i + 1 + j') * stride := (Nat.mul_lt_mul_right (by omega)).2 (by omega)
          omega)]
        simp [h0]
      | succ j =>
        have := a j (by simpa using hj)
        rw [show i + 1 + j = i + (j + 1) by omega] at this
        simpa using this
    · intro p hp
      rw [b p (by
        intro j hj
        have := hp (j + 1) (by simp; omega)
        rwa [show i + 1 + j = i + (j + 1) by omega])]
      have hpi := hp 0 (by simp)
      rw [List.getElem?_set_ne (by simpa using hpi.symm)]

theorem stuffAll_tail (l : List Tok) (s : Writer) (wf : s.WF) (ok : ∀ t ∈ l, TokOK t)
    (room : s.pos + toksLen l ≤ 32 * (s.mem.length + 1)) :
    ∃ s', stuffAll l s = some s' ∧ s'.WF ∧ s'.bits = s.bits ++ toksBits l ∧
      s'.pos = s.pos + toksLen l ∧ s'.mem.length = s.mem.length ∧ s.ptr ≤ s'.ptr ∧
      ∀ j, s'.ptr ≤ j → s'.mem[j]? = s.mem[j]? := by
  induction l generalizing s with
  | nil => exact ⟨s, rfl, wf, by simp, by simp, rfl, Nat.le_refl _, fun _ _ => rfl⟩
  | cons t l ih =>
    obtain ⟨w, t⟩ := t
    have h := ok (w, t) (by simp)
    simp only [toksLen_cons] at room
    obtain ⟨s1, e1, wf1, b1, p1, l1, t1, -, hc⟩ := stuff_spec (tok := t) (bits := w) wf (by have := h.1; simp at this; omega) h.2
      (by have := h.1; simp at this; omega)
      (by
        intro hlt
        have := wf.1
        simp only [Writer.pos] at room
        omega)
    have q1 : s.ptr ≤ s1.ptr := by
      by_cases hw : w ≤ s.space
      · exact Nat.le_of_eq (hc hw).2.symm
      · have hp := p1
        have w1 := wf.1
        have w2 := wf1.1
        simp only [Writer.pos] at hp
        omega
    obtain ⟨s2, e2, wf2, b2, p2, l2, q2, t2⟩ := ih s1 wf1 (fun t ht => ok t (by simp [ht])) (by rw [p1, l1]; omega)
    refine ⟨s2, ?_, wf2, ?_, ?_, by rw [l2, l1], by omega, ?_⟩
    · simp [stuffAll, e1, e2]
    · rw [b2, b1]; simp
    · rw [p2, p1]; simp; omega
    · intro j hj; rw [t2 j hj]; exact t1 j (by omega)

theorem gather_strided {src : List W} {stride : Nat} : ∀ (xs : List W) (i : Nat),
    (∀ j (h : j < xs.length), src[(i + j) * stride]? = some xs[j]) → gather src stride xs.length i = some xs := by
  intro xs
  induction xs with
  | nil => intros; rfl
  | cons x xs ih =>
    intro i h
    have h0 := h 0 (by simp)
    have := ih (i + 1) (by
      intro j hj
      have := h (j + 1) (by simp; omega)
      rw [show i + 1 + j = i + (j + 1) by omega]; simpa using this)
    simp at h0
    simp [gather, h0, this]

theorem tokBits_toksBits (b : Nat) (ts : List W) : toksBits (ts.map fun t => (b, t)) = tokBits b ts := by
  simp [toksBits, tokBits, List.flatMap_map]

theorem toksLen_map (b : Nat) (ts : List W) : toksLen (ts.map fun t => (b, t)) = ts.length * b := by
  rw [← toksBits_length, tokBits_toksBits, tokBits_length]

end Verif.Rle
