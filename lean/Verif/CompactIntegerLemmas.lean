import Verif.CompactInteger

/-! Helper lemmas for the packer: `pack` writes the concatenated token bits and nothing else. -/

namespace Verif

/-- `xs` are the elements found in `src` at indices 0, stride, 2*stride, … -/
def Strided {α : Type} (src : List α) (stride : Nat) (xs : List α) : Prop :=
  ∀ j (h : j < xs.length), src[j * stride]? = some xs[j]

/-- The bit string of a list of tokens, all of width `b`. -/
def tokBits (b : Nat) (ts : List W) : List Bool := ts.flatMap fun t => toBits b t.toNat

@[simp] theorem tokBits_nil (b : Nat) : tokBits b [] = [] := rfl
@[simp] theorem tokBits_cons (b : Nat) (t : W) (ts : List W) :
    tokBits b (t :: ts) = toBits b t.toNat ++ tokBits b ts := rfl
@[simp] theorem tokBits_length (b : Nat) (ts : List W) : (tokBits b ts).length = ts.length * b := by
  induction ts with
  | nil => simp
  | cons t ts ih => simp [ih, Nat.add_mul]; omega

theorem startWriter_spec {dst : List W} {off : Nat} (h : off ≤ 32 * dst.length) :
    ∃ s, startWriter dst off = some s ∧ s.WF ∧ s.mem = dst ∧ s.pos = off ∧
      s.bits = (memBits dst).take off ∧ s.ptr = off / 32 ∧ s.space = 32 - off % 32 := by
  have hm := Nat.div_add_mod off 32
  have hlt := Nat.mod_lt off (show 32 > 0 by decide)
  unfold startWriter
  by_cases c : off % 32 = 0
  · rw [if_pos (by omega)]
    refine ⟨_, rfl, ⟨by simp, by simp; omega⟩, rfl, ?_, ?_, rfl, rfl⟩
    · simp [Writer.pos]; omega
    · simp only [Writer.bits]
      rw [← memBits_take, show 32 * (off / 32) = off by omega, c]
      simp
  · rw [if_neg (by omega)]
    have hg : dst[off / 32]? = some dst[off / 32] := List.getElem?_eq_getElem (by omega)
    rw [hg]
    refine ⟨_, rfl, ⟨by simp, by simp; omega⟩, rfl, ?_, ?_, rfl, rfl⟩
    · simp [Writer.pos]; omega
    · simp only [Writer.bits]
      conv => rhs; rw [← hm, List.take_add, memBits_take, memBits_drop, drop_eq_cons hg, memBits_cons]
      congr 1
      rw [List.take_append_of_le_length (by simp; omega)]
      have e : 32 = off % 32 + (32 - off % 32) := by omega
      conv => rhs; rw [show toBits 32 = toBits (off % 32 + (32 - off % 32)) by congr 1, toBits_take]
      rw [show 32 - (32 - off % 32) = off % 32 by omega]
      simp

theorem drop_eq_of_getElem? {α} {a b : List α} {k : Nat} (h : ∀ j, k ≤ j → a[j]? = b[j]?) :
    a.drop k = b.drop k := by
  apply List.ext_getElem?
  intro i
  simp [h (k + i) (by omega)]

theorem lowMask_getLsbD (sp i : Nat) (h : i < 32) :
    (~~~((-1#32 : W) <<< sp)).getLsbD i = decide (i < sp) := by
  have hones : (-1#32 : W) = BitVec.allOnes 32 := by decide
  rw [hones, BitVec.getLsbD_not, BitVec.getLsbD_shiftLeft, BitVec.getLsbD_allOnes]
  by_cases c : i < sp
  · simp [h, c]
  · have : i - sp < 32 := by omega
    simp [h, c, this]

/-- Flushing the last word leaves the rest of the array as it was. -/
theorem finish_spec {dst : List W} {s : Writer} (wf : s.WF) (hlen : s.mem.length = dst.length)
    (hpos : s.pos ≤ 32 * dst.length) (tail : ∀ j, s.ptr ≤ j → s.mem[j]? = dst[j]?) :
    ∃ d, finish s = some d ∧ d.length = dst.length ∧
      memBits d = s.bits ++ (memBits dst).drop s.pos := by
  obtain ⟨w1, w2⟩ := wf
  unfold finish
  by_cases c : s.space < 32
  · have hp : s.ptr < s.mem.length := by
      unfold Writer.pos at hpos; omega
    have hg : s.mem[s.ptr]? = some s.mem[s.ptr] := List.getElem?_eq_getElem hp
    rw [if_pos c, hg]
    simp only [store, hp, if_true]
    refine ⟨_, rfl, by simp [hlen], ?_⟩
    generalize hw : s.mem[s.ptr] = w at hg
    have ht : (s.mem.set s.ptr ((s.last <<< s.space) ||| (w &&& ~~~((-1#32) <<< s.space)))) =
        s.mem.take s.ptr ++ ((s.last <<< s.space) ||| (w &&& ~~~((-1#32) <<< s.space))) :: s.mem.drop (s.ptr + 1) := by
      rw [List.set_eq_take_append_cons_drop, if_pos hp]
    rw [ht]
    have htd : s.mem.drop s.ptr = dst.drop s.ptr := drop_eq_of_getElem? tail
    have hd1 : s.mem.drop (s.ptr + 1) = dst.drop (s.ptr + 1) :=
      drop_eq_of_getElem? (fun j hj => tail j (by omega))
    rw [drop_eq_cons hg] at htd
    simp only [Writer.bits, Writer.pos]
    rw [← List.drop_drop (l := memBits dst), memBits_drop, ← htd, memBits_append, memBits_cons, memBits_cons, hd1,
      List.append_assoc]
    congr 1
    rw [List.drop_append_of_le_length (by simp), ← List.append_assoc]
    congr 1
    conv => rhs; rw [show toBits 32 = toBits ((32 - s.space) + s.space) by congr 1; omega, toBits_drop]
    conv => lhs; rw [show toBits 32 = toBits ((32 - s.space) + s.space) by congr 1; omega, toBits_append]
    congr 1
    · apply toBits_ext
      intro i hi
      have h3 : s.space + i < 32 := by omega
      rw [Nat.testBit_shiftRight, BitVec.testBit_toNat, BitVec.testBit_toNat, BitVec.getLsbD_or,
        BitVec.getLsbD_and, lowMask_getLsbD _ _ h3, BitVec.getLsbD_shiftLeft]
      have h5 : ¬ (s.space + i < s.space) := by omega
      simp [h3, h5]
    · apply toBits_ext
      intro i hi
      have h3 : i < 32 := by omega
      rw [BitVec.testBit_toNat, BitVec.testBit_toNat, BitVec.getLsbD_or,
        BitVec.getLsbD_and, lowMask_getLsbD _ _ h3, BitVec.getLsbD_shiftLeft]
      simp [hi]
  · rw [if_neg c]
    refine ⟨_, rfl, hlen, ?_⟩
    have : s.space = 32 := by omega
    simp only [Writer.bits, Writer.pos, this, Nat.sub_self, toBits_zero, List.append_nil, Nat.add_zero]
    rw [memBits_drop,
      ← drop_eq_of_getElem? tail, ← memBits_append, List.take_append_drop]

/-- The token loop appends the token bits. -/
theorem packLoop_spec {k : Nat} {src : List (BitVec k)} {stride bits : Nat} {kind : TokKind} {mask : W}
    {dst : List W} (hb : bits ≤ 32) :
    ∀ (xs : List (BitVec k)) (i : Nat) (s : Writer),
      (∀ j (h : j < xs.length), src[(i + j) * stride]? = some xs[j]) →
      (∀ x ∈ xs, (kind.tok (x.setWidth 32) &&& mask).toNat < 2 ^ bits) →
      s.WF → s.mem.length = dst.length →
      (∀ j, s.ptr ≤ j → s.mem[j]? = dst[j]?) →
      (bits = 32 → 0 < s.space ∧ s.space < 32) →
      s.pos + xs.length * bits ≤ 32 * dst.length →
      ∃ s', packLoop src stride bits kind mask xs.length i s = some s' ∧ s'.WF ∧
        s'.mem.length = dst.length ∧ (∀ j, s'.ptr ≤ j → s'.mem[j]? = dst[j]?) ∧
        s'.pos = s.pos + xs.length * bits ∧
        s'.bits = s.bits ++ tokBits bits (xs.map fun x => kind.tok (x.setWidth 32) &&& mask) := by
  intro xs
  induction xs with
  | nil =>
    intro i s _ _ wf hl ht _ _
    exact ⟨s, rfl, wf, hl, ht, by simp, by simp⟩
  | cons x xs ih =>
    intro i s hsrc htok wf hl ht h32 hroom
    have h0 := hsrc 0 (by simp)
    simp only [Nat.add_zero, List.getElem_cons_zero] at h0
    simp only [List.length_cons, Nat.add_mul, Nat.one_mul] at hroom
    obtain ⟨s1, e1, wf1, b1, p1, l1, t1, _, q1⟩ := stuff_spec (tok := kind.tok (x.setWidth 32) &&& mask)
      (bits := bits) (s := s) wf hb (htok x (by simp)) h32
      (by intro hs; have := wf.space; simp only [Writer.pos] at hroom; omega)
    have hptr : s.ptr ≤ s1.ptr := by
      have := wf.space; have := wf1.space
      simp only [Writer.pos] at p1
      by_cases c : bits ≤ s.space
      · rw [(q1 c).2]; omega
      · omega
    obtain ⟨s', e', r⟩ := ih (i + 1) s1
      (by intro j hj
          have := hsrc (j + 1) (by simp; omega)
          rw [show i + (j + 1) = i + 1 + j by omega] at this
          simpa using this)
      (by intro y hy; exact htok y (by simp [hy]))
      wf1 (by omega) (fun j hj => (t1 j hj).trans (ht j (by omega)))
      (by intro hb32
          have := h32 hb32; have := wf1.space
          simp only [Writer.pos] at p1
          omega)
      (by omega)
    refine ⟨s', ?_, r.1, r.2.1, r.2.2.1, ?_, ?_⟩
    · simp only [List.length_cons, packLoop, h0, e1]
      exact e'
    · rw [r.2.2.2.1, p1]; simp [Nat.add_mul]; omega
    · rw [r.2.2.2.2, b1]; simp

theorem pack32Loop_spec {k : Nat} {src : List (BitVec k)} {stride : Nat} {kind : TokKind}
    {dst : List W} :
    ∀ (xs : List (BitVec k)) (i : Nat) (s : Writer),
      (∀ j (h : j < xs.length), src[(i + j) * stride]? = some xs[j]) →
      s.WF → s.mem.length = dst.length → s.space = 32 →
      (∀ j, s.ptr ≤ j → s.mem[j]? = dst[j]?) →
      s.pos + xs.length * 32 ≤ 32 * dst.length →
      ∃ s', pack32Loop src stride kind xs.length i s = some s' ∧ s'.WF ∧
        s'.mem.length = dst.length ∧ (∀ j, s'.ptr ≤ j → s'.mem[j]? = dst[j]?) ∧
        s'.pos = s.pos + xs.length * 32 ∧
        s'.bits = s.bits ++ tokBits 32 (xs.map fun x => kind.tok (x.setWidth 32)) := by
  intro xs
  induction xs with
  | nil =>
    intro i s _ wf hl _ ht _
    exact ⟨s, rfl, wf, hl, ht, by simp, by simp⟩
  | cons x xs ih =>
    intro i s hsrc wf hl hsp ht hroom
    have h0 := hsrc 0 (by simp)
    simp only [Nat.add_zero, List.getElem_cons_zero] at h0
    simp only [List.length_cons, Writer.pos, hsp] at hroom
    have hp : s.ptr < s.mem.length := by omega
    obtain ⟨s', e', r⟩ := ih (i + 1)
      { s with mem := s.mem.set s.ptr (kind.tok (x.setWidth 32)), ptr := s.ptr + 1 }
      (by intro j hj
          have := hsrc (j + 1) (by simp; omega)
          rw [show i + (j + 1) = i + 1 + j by omega] at this
          simpa using this)
      ⟨wf.space, by simp; omega⟩ (by simp [hl]) hsp
      (by intro j hj
          simp only at hj ⊢
          rw [List.getElem?_set_ne (by omega)]
          exact ht j (by omega))
      (by simp [Writer.pos, hsp]; omega)
    refine ⟨s', ?_, r.1, r.2.1, r.2.2.1, ?_, ?_⟩
    · simp only [List.length_cons, pack32Loop, h0, store, hp, if_true]
      exact e'
    · rw [r.2.2.2.1]; simp [Writer.pos]; omega
    · rw [r.2.2.2.2]
      simp only [Writer.bits, hsp, Nat.sub_self, toBits_zero, List.map_cons, tokBits_cons, List.append_nil]
      rw [take_set_succ _ _ _ hp, memBits_append, memBits_cons, memBits_nil]
      simp

/-- Token actually written: whole aligned words are not masked. -/
def TokKind.written (kind : TokKind) (bits off : Nat) (mask : W) (x : W) : W :=
  if bits = 32 ∧ off % 32 = 0 then kind.tok x else kind.tok x &&& mask

/-- The packer replaces the bits `off … off + n*bits - 1` of the destination by the token bits and
changes nothing else. -/
theorem pack_spec {k : Nat} {src : List (BitVec k)} {stride bits off : Nat} {kind : TokKind} {mask : W}
    {dst : List W} {xs : List (BitVec k)} (hb : bits ≤ 32)
    (hsrc : Strided src stride xs)
    (htok : ∀ x ∈ xs, (kind.written bits off mask (x.setWidth 32)).toNat < 2 ^ bits)
    (hroom : off + xs.length * bits ≤ 32 * dst.length) :
    ∃ d, pack src xs.length stride bits off kind mask dst = some d ∧ d.length = dst.length ∧
      memBits d = (memBits dst).take off ++
        tokBits bits (xs.map fun x => kind.written bits off mask (x.setWidth 32)) ++
        (memBits dst).drop (off + xs.length * bits) := by
  obtain ⟨s, es, wf, hm, hp, hbits, hptr, hsp⟩ := startWriter_spec (dst := dst) (off := off) (by omega)
  have hsrc' : ∀ j (h : j < xs.length), src[(0 + j) * stride]? = some xs[j] := by
    intro j hj; simpa using hsrc j hj
  unfold pack
  rw [es]
  simp only
  by_cases c : s.space = 32 ∧ bits = 32
  · rw [if_pos c]
    obtain ⟨s', e', wf', l', t', p', b'⟩ := pack32Loop_spec (kind := kind) (dst := dst) xs 0 s hsrc' wf (by rw [hm]) c.1
      (by intro j _; rw [hm]) (by rw [hp]; have := c.2; subst this; omega)
    obtain ⟨d, ed, ld, bd⟩ := finish_spec wf' l' (by rw [p', hp]; have := c.2; subst this; omega) t'
    refine ⟨d, by rw [e']; exact ed, ld, ?_⟩
    rw [bd, b', hbits, p', hp, c.2]
    have h0 : off % 32 = 0 := by omega
    simp [TokKind.written, h0]
  · rw [if_neg c]
    have c' : ¬ (bits = 32 ∧ off % 32 = 0) := by omega
    simp only [TokKind.written, if_neg c'] at htok ⊢
    obtain ⟨s', e', wf', l', t', p', b'⟩ := packLoop_spec (kind := kind) (dst := dst) hb xs 0 s hsrc' htok wf (by rw [hm])
      (by intro j _; rw [hm]) (by intro h; have : s.space ≠ 32 := fun h' => c ⟨h', h⟩; omega) (by rw [hp]; omega)
    obtain ⟨d, ed, ld, bd⟩ := finish_spec wf' l' (by rw [p', hp]; omega) t'
    refine ⟨d, by rw [e']; exact ed, ld, ?_⟩
    rw [bd, b', hbits, p', hp]

theorem startReader_spec {mem : List W} {off : Nat} (h : off < 32 * mem.length) :
    ∃ s, startReader mem off = some s ∧ s.WF ∧ s.bits mem = (memBits mem).drop off := by
  have hm := Nat.div_add_mod off 32
  have hlt := Nat.mod_lt off (show 32 > 0 by decide)
  have hg : mem[off / 32]? = some mem[off / 32] := List.getElem?_eq_getElem (by omega)
  unfold startReader
  rw [hg]
  generalize mem[off / 32] = w at hg
  refine ⟨_, rfl, ⟨by simp; omega, by simp, ?_⟩, ?_⟩
  · intro i hi
    simp at hi
    simp [BitVec.testBit_toNat, -BitVec.toNat_shiftLeft]
    intro _ _; omega
  · simp only [Reader.bits]
    conv => rhs; rw [← hm, ← List.drop_drop, memBits_drop, drop_eq_cons hg, memBits_cons,
      List.drop_append_of_le_length (by simp; omega)]
    congr 1
    conv => rhs; rw [show toBits 32 = toBits (off % 32 + (32 - off % 32)) by congr 1; omega, toBits_drop]
    apply toBits_ext
    intro i hi
    simp [Nat.testBit_shiftRight, BitVec.testBit_toNat, -BitVec.toNat_shiftLeft]
    have h3 : ¬ (32 - (32 - off % 32) + i < off % 32) := by omega
    have h4 : 32 - (32 - off % 32) + i < 32 := by omega
    simp [h3, h4]
    congr 1; omega

/-- The unpacking loop reads the tokens of the stream in order. -/
theorem unpackLoop_spec {k : Nat} {u : W} {mem : List W} {stride size : Nat} {kind : UntokKind}
    (h1 : 1 ≤ size) (h2 : size ≤ 32) (hst : 1 ≤ stride) :
    ∀ (ts : List W) (i : Nat) (s : Reader) (out : List (BitVec k)) (rest : List Bool),
      s.WF → (∀ t ∈ ts, t.toNat < 2 ^ size) →
      s.bits mem = tokBits size ts ++ rest → rest ≠ [] →
      (∀ j, j < ts.length → (i + j) * stride < out.length) →
      ∃ out', unpackLoop u mem stride size kind ts.length i s out = some out' ∧
        out'.length = out.length ∧
        (∀ j (h : j < ts.length), out'[(i + j) * stride]? = some ((kind.val ts[j]).setWidth k)) ∧
        (∀ p, (∀ j, j < ts.length → p ≠ (i + j) * stride) → out'[p]? = out[p]?) := by
  intro ts
  induction ts with
  | nil => intro i s out rest _ _ _ _ _; exact ⟨out, rfl, rfl, by simp, fun _ _ => rfl⟩
  | cons t ts ih =>
    intro i s out rest wf hlt hb hrest hout
    have hl := congrArg List.length hb
    have hrl : 0 < rest.length := List.length_pos_iff.2 hrest
    obtain ⟨tok, s', e, wf', htl, hbb⟩ := extract_spec (u := u) wf h1 h2
      (by rw [hb]; simp; omega)
    rw [hb, tokBits_cons, List.append_assoc] at hbb
    have hinj := List.append_inj hbb (by simp)
    have htok : tok = t := by
      apply BitVec.eq_of_toNat_eq
      exact (toBits_inj (hlt t (by simp)) htl hinj.1).symm
    subst htok
    have h0 : i * stride < out.length := by simpa using hout 0 (by simp)
    obtain ⟨out', e', l', v', o'⟩ := ih (i + 1) s' (out.set (i * stride) ((kind.val tok).setWidth k)) rest wf'
      (fun t ht => hlt t (by simp [ht])) hinj.2.symm hrest
      (by intro j hj
          have := hout (j + 1) (by simp; omega)
          rw [show i + 1 + j = i + (j + 1) by omega]
          simpa using this)
    refine ⟨out', ?_, by simpa using l', ?_, ?_⟩
    · simp only [List.length_cons, unpackLoop, e, h0, if_true]
      exact e'
    · intro j hj
      cases j with
      | zero =>
        simp only [Nat.add_zero, List.getElem_cons_zero]
        rw [o' (i * stride) (by
          intro j' _ h
          have : i * stride < (i + 1 + j') * stride := (Nat.mul_lt_mul_right (by omega)).2 (by omega)
          omega)]
        simp [h0]
      | succ j =>
        have := v' j (by simpa using hj)
        rw [show i + 1 + j = i + (j + 1) by omega] at this
        simpa using this
    · intro p hp
      rw [o' p (by
        intro j hj
        have := hp (j + 1) (by simp; omega)
        rwa [show i + 1 + j = i + (j + 1) by omega])]
      have hpi := hp 0 (by simp)
      rw [List.getElem?_set_ne (by simpa using hpi.symm)]

theorem unpack_spec {k : Nat} {u : W} {mem : List W} {stride size off : Nat} {kind : UntokKind}
    (h1 : 1 ≤ size) (h2 : size ≤ 32) (hst : 1 ≤ stride) {ts : List W} {out : List (BitVec k)} {rest : List Bool}
    (hlt : ∀ t ∈ ts, t.toNat < 2 ^ size)
    (hb : (memBits mem).drop off = tokBits size ts ++ rest) (hrest : rest ≠ [])
    (hout : ∀ j, j < ts.length → j * stride < out.length) :
    ∃ out', unpack u mem ts.length stride size off kind out = some out' ∧
      out'.length = out.length ∧
      Strided out' stride (ts.map fun t => (kind.val t).setWidth k) ∧
      (∀ p, (∀ j, j < ts.length → p ≠ j * stride) → out'[p]? = out[p]?) := by
  have hl := congrArg List.length hb
  have hrl : 0 < rest.length := List.length_pos_iff.2 hrest
  simp at hl
  obtain ⟨s, es, wf, hs⟩ := startReader_spec (mem := mem) (off := off) (by omega)
  obtain ⟨out', e, l, v, o⟩ := unpackLoop_spec (k := k) (u := u) (kind := kind) h1 h2 hst ts 0 s out rest wf hlt
    (by rw [hs, hb]) hrest (by intro j hj; simpa using hout j hj)
  refine ⟨out', ?_, l, ?_, ?_⟩
  · unfold unpack; rw [es]; exact e
  · intro j hj
    simp at hj
    have := v j hj
    simpa using this
  · intro p hp
    exact o p (by intro j hj; simpa using hp j hj)

end Verif
