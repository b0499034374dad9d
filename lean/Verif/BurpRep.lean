import Verif.BurpValues

/-! # Layout of a BURP report and the effect of each operation on it -/

namespace Verif.Burp

/-- A stored block: header, words of the element list, words of the values. -/
structure Blk where
  hdr : Hdr
  lw : List W
  vw : List W

def Blk.n (b : Blk) : Nat := b.hdr.dims.1 * b.hdr.dims.2.1 * b.hdr.dims.2.2

def heads (bs : List Blk) : List W := bs.flatMap (fun b => b.hdr.words)
def bodies (bs : List Blk) : List W := bs.flatMap (fun b => b.lw ++ b.vw)

@[simp] theorem heads_nil : heads [] = [] := rfl
@[simp] theorem heads_cons (b : Blk) (bs : List Blk) : heads (b :: bs) = b.hdr.words ++ heads bs := rfl
@[simp] theorem heads_append (a b : List Blk) : heads (a ++ b) = heads a ++ heads b := by simp [heads]
@[simp] theorem bodies_nil : bodies [] = [] := rfl
@[simp] theorem bodies_cons (b : Blk) (bs : List Blk) : bodies (b :: bs) = b.lw ++ b.vw ++ bodies bs := rfl
@[simp] theorem bodies_append (a b : List Blk) : bodies (a ++ b) = bodies a ++ bodies b := by simp [bodies]

@[simp] theorem heads_length (bs : List Blk) : (heads bs).length = 4 * bs.length := by
  induction bs with
  | nil => rfl
  | cons b bs ih => simp [ih]; omega

/-- The layout of a report: keys, headers, bodies, unused words. -/
structure Lay (st : Buf) (keys : List W) (bs : List Blk) (rest : List W) : Prop where
  keysLen : keys.length = 10
  data : st.data = keys ++ heads bs ++ bodies bs ++ rest
  idx : st.dataIndex = 10
  nbits : st.nbits = 32 * (10 + 4 * bs.length + (bodies bs).length)
  nblk : st.nblk = bs.length
  hdrBits : st.hdrBits = 128 * bs.length
  bit0 : ∀ pre b post, bs = pre ++ b :: post → 2 * b.hdr.bit0 = (bodies pre).length
  wf : ∀ b ∈ bs, b.hdr.WF
  szl : ∀ b ∈ bs, b.lw.length = nbWords b.hdr.listed 16
  szv : ∀ b ∈ bs, b.vw.length = nbWords b.n (b.hdr.nbit + 1)
  rest : rest ≠ []
  cap : st.data.length ≤ st.nwords

theorem Lay.even {st : Buf} {keys rest : List W} {bs : List Blk} (h : Lay st keys bs rest) :
    ∀ cs, (∀ c ∈ cs, c ∈ bs) → (bodies cs).length % 2 = 0 := by
  intro cs
  induction cs with
  | nil => intro _; rfl
  | cons c cs ih =>
    intro hc
    have h1 := h.szl c (hc c (by simp))
    have h2 := h.szv c (hc c (by simp))
    have h3 := ih (fun d hd => hc d (by simp [hd]))
    simp only [bodies_cons, List.length_append]
    unfold nbWords at h1 h2
    omega

/-! ## Buffer functions -/

theorem nbWords_32 (k : Nat) : nbWords (2 * k) 32 = 2 * k := by unfold nbWords; omega

/-- Words inserted between `A` and `B`. -/
theorem xdfins_words (u : W) {st : Buf} {A B c vals : List W} {bitpos k : Nat} (hd : st.data = A ++ B ++ c)
    (hA : A.length = st.dataIndex + bitpos / 32) (hb : bitpos % 64 = 0) (hB : st.nbits / 32 = A.length + B.length)
    (hv : 2 * k ≤ vals.length) (hc : 2 * k < c.length) (hcap : st.data.length ≤ st.nwords) :
    ∃ c', c'.length + 2 * k = c.length ∧
      xdfins u st vals bitpos (2 * k) 32 0 =
        some (0, { st with data := A ++ vals.take (2 * k) ++ B ++ c', nbits := st.nbits + 32 * (2 * k) }) := by
  have hlen : st.data.length = A.length + B.length + c.length := by rw [hd]; simp; omega
  have hput : ∀ x C, x.length = 2 * k → putWords u vals A.length (2 * k) 32 0 (A ++ x ++ C) =
      some (0, A ++ vals.take (2 * k) ++ C) := by
    intro x C hx
    unfold putWords
    rw [if_pos (by simp), nbWords_32]
    have := fill_append (src := vals) (p := id) (g := id) (a := A) (x := x) (c := C) (ys := vals.take (2 * k))
      (fun i hi => by
        have h2 : i < 2 * k := by simp at hi; omega
        rw [List.getElem_take, id, List.getElem?_eq_getElem (by omega)]) (by simp; omega)
    rw [show (vals.take (2 * k)).length = 2 * k by simp; omega] at this
    rw [this]; simp
  unfold xdfins
  simp only
  rw [if_neg (by omega), if_neg (by omega), nbWords_32, if_neg (by omega), ← hA, hB]
  cases c with
  | nil => simp at hc
  | cons w r =>
    simp only [List.length_cons] at hc
    by_cases hB0 : B = []
    · subst hB0
      rw [if_neg (by simp)]
      simp only
      have hs : st.data = A ++ (w :: r).take (2 * k) ++ (w :: r).drop (2 * k) := by
        rw [hd, List.append_nil, List.append_assoc, List.take_append_drop]
      rw [hs, hput _ _ (by simp; omega)]
      simp only
      refine ⟨(w :: r).drop (2 * k), by simp; omega, ?_⟩
      simp
    · have hBl : 0 < B.length := List.length_pos_iff.2 hB0
      rw [if_pos (by omega), show A.length + B.length + 1 - A.length = B.length + 1 by omega, hd]
      obtain ⟨x, hx, e⟩ := moveUp_append (nb := 2 * k) (a := A) (b := B) (r := r) (w := w) (by omega)
      rw [e]
      simp only
      rw [show A ++ x ++ B ++ w :: r.drop (2 * k) = A ++ x ++ (B ++ w :: r.drop (2 * k)) by simp, hput _ _ hx]
      simp only
      refine ⟨w :: r.drop (2 * k), by simp; omega, ?_⟩
      simp

/-- Words removed between `A` and `B`. -/
theorem xdfcut_words {st : Buf} {A x B c : List W} {bitpos n nb dt : Nat} (hd : st.data = A ++ x ++ B ++ c)
    (hA : A.length = st.dataIndex + bitpos / 32) (hb : bitpos % 64 = 0) (hx : x.length = nbWords n nb)
    (hB : st.nbits = 32 * (A.length + x.length + B.length)) (hdt : dt ≠ 3) (hdt5 : dt = 5 → nb = 8) (hc : c ≠ []) :
    ∃ c', c'.length = c.length + x.length ∧
      xdfcut st bitpos n nb dt = some (0, { st with data := A ++ B ++ c', nbits := 32 * (A.length + B.length) }) := by
  unfold xdfcut
  simp only
  rw [if_neg (by omega), if_neg (by omega), ← hx, ← hA]
  have hl : st.nbits / 32 = A.length + x.length + B.length := by omega
  rw [hl]
  by_cases h0 : x.length + B.length = 0
  · rw [if_neg (by omega)]
    simp only
    have hx0 : x = [] := List.eq_nil_of_length_eq_zero (by omega)
    have hB0 : B = [] := List.eq_nil_of_length_eq_zero (by omega)
    subst hx0; subst hB0
    refine ⟨c, by simp, ?_⟩
    simp only [List.append_nil] at hd
    rw [hd]
    simp only [List.length_nil, Nat.mul_zero, Nat.sub_zero, Nat.add_zero, List.append_nil] at hB ⊢
    rw [hB]
  · rw [if_pos (by omega)]
    cases c with
    | nil => exact absurd rfl hc
    | cons w r =>
      obtain ⟨r', hr', e⟩ := cut_append (a := A) (x := x) (c := B) (r := r) (w := w)
      refine ⟨w :: r', by simp; omega, ?_⟩
      rw [show A.length + x.length + B.length + 1 - x.length - A.length = B.length + 1 by omega, hd]
      cases hm : moveDown x.length A.length (B.length + 1) (A ++ x ++ B ++ w :: r) with
      | none => rw [hm] at e; simp at e
      | some z =>
        rw [hm] at e
        simp only at e ⊢
        rw [e]
        simp only [Option.some.injEq, Prod.mk.injEq, true_and, Buf.mk.injEq, and_true]
        omega

/-! ## Headers in the report -/

theorem blockAt_append {A C : List W} {h : Hdr} {k : Nat} (hA : A.length = 10 + 4 * k) :
    blockAt (A ++ h.words ++ C) k = some h.canon := by
  obtain ⟨a, b, c, d, hw, ho⟩ := h.ofWords_words
  have hg : ∀ i, i < 4 → (A ++ h.words ++ C)[10 + 4 * k + i]? = [a, b, c, d][i]? := by
    intro i hi
    rw [List.append_assoc, List.getElem?_append_right (by omega), List.getElem?_append_left (by simp; omega), hw,
      show 10 + 4 * k + i - A.length = i by omega]
  unfold blockAt
  have h0 := hg 0 (by decide)
  rw [Nat.add_zero] at h0
  rw [h0, hg 1 (by decide), hg 2 (by decide), hg 3 (by decide)]
  simp [ho]

theorem modBlock_append {A C : List W} {h : Hdr} {k : Nat} (f : Hdr → Hdr) (hA : A.length = 10 + 4 * k) :
    modBlock k f (A ++ h.words ++ C) = some (A ++ (f h.canon).words ++ C) := by
  unfold modBlock
  rw [blockAt_append hA]
  simp only
  have := fill_append (src := (f h.canon).words) (p := id) (g := id) (a := A) (x := h.words) (c := C)
    (ys := (f h.canon).words) (fun i hi => by rw [id, List.getElem?_eq_getElem hi]) (by simp)
  rw [hA] at this
  simp only [Hdr.words_length, List.map_id] at this
  exact this

/-- A block with its position changed. -/
def Blk.shift (d : Int) (b : Blk) : Blk := { b with hdr := { b.hdr with bit0 := ((b.hdr.bit0 + d) % 2 ^ 20).toNat } }

theorem Blk.shift_wf {d : Int} {b : Blk} (h : b.hdr.WF) : (b.shift d).hdr.WF := by
  obtain ⟨h1, h2, h3, h4, h5, h6, h7, h8, h9, h10, h11, h12⟩ := h
  refine ⟨h1, h2, h3, ?_, h5, h6, h7, h8, h9, h10, h11, h12⟩
  simp only [Blk.shift]
  omega

theorem shiftBit0_append {d : Int} {C : List W} : ∀ (bs : List Blk) (A : List W) (k : Nat), A.length = 10 + 4 * k →
    (∀ b ∈ bs, b.hdr.WF) →
    shiftBit0 d k bs.length (A ++ heads bs ++ C) = some (A ++ heads (bs.map (Blk.shift d)) ++ C) := by
  intro bs
  induction bs with
  | nil => intro A k _ _; rfl
  | cons b bs ih =>
    intro A k hA hwf
    simp only [List.length_cons, heads_cons, List.map_cons]
    unfold shiftBit0
    rw [show A ++ (b.hdr.words ++ heads bs) ++ C = A ++ b.hdr.words ++ (heads bs ++ C) by simp, modBlock_append _ hA,
      (hwf b (by simp)).canon]
    simp only
    have := ih (A ++ (b.shift d).hdr.words) (k + 1) (by simp; omega) (fun c hc => hwf c (by simp [hc]))
    simp only [Blk.shift] at this
    rw [show ∀ z : List W, A ++ z ++ (heads bs ++ C) = A ++ z ++ heads bs ++ C by intro z; simp, this]
    simp [Blk.shift]

theorem readHdr_lay (u : W) {st : Buf} {keys rest : List W} {pre post : List Blk} {b : Blk}
    (h : Lay st keys (pre ++ b :: post) rest) : readHdr u st (pre.length + 1) = some b.hdr := by
  have hw := h.wf b (by simp)
  obtain ⟨a, b', c, d, hww, ho⟩ := b.hdr.ofWords_words
  have hg : ∀ i (hi : i < b.hdr.words.length), st.data[10 + 4 * pre.length + i]? = some b.hdr.words[i] := by
    intro i hi
    rw [h.data]
    simp only [heads_append, heads_cons, List.append_assoc]
    rw [List.getElem?_append_right (by have := h.keysLen; omega),
      List.getElem?_append_right (by have := h.keysLen; simp; omega), List.getElem?_append_left]
    · rw [show 10 + 4 * pre.length + i - keys.length - (heads pre).length = i by have := h.keysLen; simp; omega,
        List.getElem?_eq_getElem hi]
    · have := h.keysLen; simp at hi ⊢; omega
  have hf := fill_append (src := st.data) (p := fun i => 10 + 4 * pre.length + i) (g := id) (a := []) (x := [0, 0, 0, 0])
    (c := []) (ys := b.hdr.words) hg rfl
  unfold readHdr xdfxtr
  rw [if_neg (by omega), if_neg (by omega)]
  unfold getWords
  rw [if_pos (by simp), h.idx, show 10 + 128 * (pre.length + 1 - 1) / 32 = 10 + 4 * pre.length by omega]
  simp only [List.nil_append, List.length_nil, Hdr.words_length, List.append_nil, List.map_id] at hf
  rw [show nbWords 4 32 = 4 from rfl, hf, hww]
  simp only [Option.map_some]
  rw [ho, hw.canon]

theorem blockAt_lay {st : Buf} {keys rest : List W} {pre post : List Blk} {b : Blk}
    (h : Lay st keys (pre ++ b :: post) rest) : blockAt st.data pre.length = some b.hdr := by
  have hw := h.wf b (by simp)
  rw [h.data, show keys ++ heads (pre ++ b :: post) ++ bodies (pre ++ b :: post) ++ rest =
    (keys ++ heads pre) ++ b.hdr.words ++ (heads post ++ bodies (pre ++ b :: post) ++ rest) by simp,
    blockAt_append (by have := h.keysLen; simp; omega), hw.canon]

/-! ## Deleting a block -/

theorem delete_lay (u : W) {st : Buf} {keys rest : List W} {pre post : List Blk} {b : Blk}
    (h : Lay st keys (pre ++ b :: post) rest) (h3 : b.hdr.datyp ≠ 3) (h5 : b.hdr.datyp = 5 → b.hdr.nbit + 1 = 8) :
    ∃ st' rest' d, mrbdel u st (pre.length + 1) = some (0, st') ∧ Lay st' keys (pre ++ post.map (Blk.shift d)) rest' ∧
      st'.nwords = st.nwords ∧ st'.data.length = st.data.length := by
  have hbit0 := h.bit0 pre b post rfl
  have hszl := h.szl b (by simp)
  have hszv := h.szv b (by simp)
  have hkeys := h.keysLen
  have hdata := h.data
  have hcap := h.cap
  have hnbits := h.nbits
  have hidx := h.idx
  have hhdr := h.hdrBits
  simp only [heads_append, heads_cons, bodies_append, bodies_cons, List.length_append, List.length_cons] at hdata hnbits hhdr
  obtain ⟨c0, r0, hrest⟩ := List.exists_cons_of_ne_nil h.rest
  -- the list
  obtain ⟨rest1, hr1, e1⟩ : ∃ rest1, rest1.length = rest.length + b.lw.length ∧
      (if 0 < b.hdr.listed then xdfcut st (b.hdr.bit0 * 64 + st.hdrBits) b.hdr.listed 16 2 else some (0, st)) =
      some (0, { st with data := (keys ++ heads pre ++ b.hdr.words ++ heads post ++ bodies pre) ++ b.vw ++ bodies post ++ rest1,
                         nbits := 32 * (10 + 4 * (pre.length + 1 + post.length) + (bodies pre).length + b.vw.length +
                           (bodies post).length) }) := by
    split
    · obtain ⟨c', hc', e⟩ := xdfcut_words (st := st) (A := keys ++ heads pre ++ b.hdr.words ++ heads post ++ bodies pre)
        (x := b.lw) (B := b.vw ++ bodies post) (c := rest) (bitpos := b.hdr.bit0 * 64 + st.hdrBits) (n := b.hdr.listed)
        (nb := 16) (dt := 2) (by rw [hdata]; simp) (by rw [hhdr, hidx]; simp; omega) (by omega) hszl
        (by rw [hnbits]; simp; omega) (by decide) (by decide) h.rest
      refine ⟨c', hc', ?_⟩
      rw [e]
      simp only [Option.some.injEq, Prod.mk.injEq, true_and, Buf.mk.injEq, and_true]
      refine ⟨by simp; omega, by simp⟩
    · rename_i hz
      have hlw : b.lw = [] := List.eq_nil_of_length_eq_zero (by
        rw [hszl, show b.hdr.listed = 0 by omega]; rfl)
      refine ⟨rest, by rw [hlw]; simp, ?_⟩
      cases st
      simp only [Option.some.injEq, Prod.mk.injEq, true_and, Buf.mk.injEq, and_true]
      simp only at hdata hnbits
      refine ⟨by rw [hnbits, hlw]; simp; omega, by rw [hdata, hlw]; simp⟩
  -- the values
  obtain ⟨rest2, hr2, e2⟩ := xdfcut_words
    (st := { st with data := (keys ++ heads pre ++ b.hdr.words ++ heads post ++ bodies pre) ++ b.vw ++ bodies post ++ rest1,
                     nbits := 32 * (10 + 4 * (pre.length + 1 + post.length) + (bodies pre).length + b.vw.length +
                           (bodies post).length) })
    (A := keys ++ heads pre ++ b.hdr.words ++ heads post ++ bodies pre) (x := b.vw) (B := bodies post) (c := rest1)
    (bitpos := b.hdr.bit0 * 64 + st.hdrBits) (n := b.hdr.dims.1 * b.hdr.dims.2.1 * b.hdr.dims.2.2) (nb := b.hdr.nbit + 1)
    (dt := b.hdr.datyp) rfl (by simp only; rw [hhdr, hidx]; simp; omega) (by omega) hszv
    (by simp; omega) h3 h5
    (by intro hn; rw [hn, hrest] at hr1; simp at hr1; omega)
  -- the header
  obtain ⟨rest3, hr3, e3⟩ := xdfcut_words
    (st := { st with data := (keys ++ heads pre ++ b.hdr.words ++ heads post ++ bodies pre) ++ bodies post ++ rest2,
                     nbits := 32 * ((keys ++ heads pre ++ b.hdr.words ++ heads post ++ bodies pre).length +
                       (bodies post).length) })
    (A := keys ++ heads pre) (x := b.hdr.words) (B := heads post ++ bodies pre ++ bodies post) (c := rest2)
    (bitpos := 128 * (pre.length + 1 - 1)) (n := 4) (nb := 32) (dt := 0) (by simp)
    (by simp only; rw [hidx]; simp; omega) (by omega) rfl (by simp; omega) (by decide) (by decide)
    (by intro hn; rw [hn, hr1, hrest] at hr2; simp at hr2; omega)
  -- the later headers
  have hlenrest3 : rest3.length = rest.length + b.lw.length + b.vw.length + 4 := by
    rw [hr3, hr2, hr1]; simp
  obtain ⟨d, hd⟩ : ∃ d : Int, d = (b.hdr.bit0 : Int) -
      ((blockAt (keys ++ heads pre ++ (heads post ++ bodies pre ++ bodies post) ++ rest3) pre.length).map (·.bit0)).getD 0 :=
    ⟨_, rfl⟩
  have hblk : ∃ q, blockAt (keys ++ heads pre ++ (heads post ++ bodies pre ++ bodies post) ++ rest3) pre.length = some q := by
    unfold blockAt
    have hlen : (keys ++ heads pre ++ (heads post ++ bodies pre ++ bodies post) ++ rest3).length ≥ 10 + 4 * pre.length + 4 := by
      simp; omega
    rw [List.getElem?_eq_getElem (by omega), List.getElem?_eq_getElem (by omega), List.getElem?_eq_getElem (by omega),
      List.getElem?_eq_getElem (by omega)]
    exact ⟨_, rfl⟩
  obtain ⟨q, hq⟩ := hblk
  rw [hq] at hd
  simp only [Option.map_some, Option.getD_some] at hd
  have hsh := shiftBit0_append (d := d) (C := bodies pre ++ bodies post ++ rest3) post (keys ++ heads pre) pre.length
    (by simp; omega) (fun c hc => h.wf c (by simp [hc]))
  refine ⟨{ st with data := keys ++ heads pre ++ heads (post.map (Blk.shift d)) ++ (bodies pre ++ bodies post ++ rest3),
                    nbits := 32 * ((keys ++ heads pre).length + (heads post ++ bodies pre ++ bodies post).length),
                    nblk := st.nblk - 1, hdrBits := st.hdrBits - 128 }, rest3, d, ?_, ?_, rfl, ?_⟩
  · unfold mrbdel
    rw [if_neg (by rw [h.nblk]; simp), readHdr_lay u h]
    simp only
    unfold delParts
    rw [e1]
    simp only
    rw [e2]
    simp only
    rw [e3]
    simp only [Nat.add_sub_cancel]
    rw [hq]
    simp only
    rw [← hd, h.nblk, show (pre ++ b :: post).length - 1 - pre.length = post.length by simp]
    rw [show keys ++ heads pre ++ (heads post ++ bodies pre ++ bodies post) ++ rest3 =
      keys ++ heads pre ++ heads post ++ (bodies pre ++ bodies post ++ rest3) by simp, hsh]
  · have hbs : bodies (post.map (Blk.shift d)) = bodies post := by
      simp only [bodies, List.flatMap_map]; rfl
    refine ⟨hkeys, by simp [hbs], hidx, ?_, ?_, ?_, ?_, ?_, ?_, ?_, ?_, ?_⟩
    · simp only [List.length_append, heads_length, List.length_map, bodies_append, hbs]; omega
    · simp only [h.nblk]; simp
    · simp only [hhdr]; simp; omega
    · intro p c q' heq
      -- either an earlier block or a later one
      rcases List.append_eq_append_iff.1 heq with ⟨as, hp, hc⟩ | ⟨bs', hp, hc⟩
      · cases post with
        | nil => simp at hc
        | cons p0 ps =>
          obtain ⟨l1, l2, hl, ha, hb⟩ := List.map_eq_append_iff.1 hc
          cases l2 with
          | nil => simp at hb
          | cons c0' l2 =>
            simp only [List.map_cons, List.cons.injEq] at hb
            rw [hp, ← hb.1]
            have hl1 : bodies as = bodies l1 := by
              rw [← ha]; simp only [bodies, List.flatMap_map]; rfl
            have hc0 := h.bit0 (pre ++ b :: l1) c0' l2 (by rw [hl]; simp)
            -- the distance is the size of the deleted block
            have hp0 := h.bit0 (pre ++ [b]) p0 ps (by simp)
            have hqq : q = p0.hdr := by
              have := blockAt_append (A := keys ++ heads pre) (h := p0.hdr)
                (C := heads ps ++ bodies pre ++ bodies (p0 :: ps) ++ rest3) (k := pre.length) (by simp; omega)
              rw [(h.wf p0 (by simp)).canon] at this
              rw [show keys ++ heads pre ++ (heads (p0 :: ps) ++ bodies pre ++ bodies (p0 :: ps)) ++ rest3 =
                keys ++ heads pre ++ p0.hdr.words ++ (heads ps ++ bodies pre ++ bodies (p0 :: ps) ++ rest3) by simp,
                this] at hq
              exact (Option.some.inj hq).symm
            rw [hqq] at hd
            have hwc := (h.wf c0' (by rw [hl]; simp)).bit0
            simp only [Blk.shift, bodies_append, List.length_append, hl1]
            simp only [bodies_append, bodies_cons, List.length_append, bodies_nil, List.append_nil, List.length_nil] at hc0 hp0
            have e1 : ((c0'.hdr.bit0 : Int) + d) = ((bodies pre).length + (bodies l1).length : Nat) / 2 := by omega
            omega
      · cases bs' with
        | nil =>
          simp only [List.append_nil] at hp
          simp only [List.nil_append] at hc
          cases post with
          | nil => simp at hc
          | cons p0 ps =>
            simp only [List.map_cons, List.cons.injEq] at hc
            rw [← hp, hc.1]
            have hp0 := h.bit0 (pre ++ [b]) p0 ps (by simp)
            have hqq : q = p0.hdr := by
              have := blockAt_append (A := keys ++ heads pre) (h := p0.hdr)
                (C := heads ps ++ bodies pre ++ bodies (p0 :: ps) ++ rest3) (k := pre.length) (by simp; omega)
              rw [(h.wf p0 (by simp)).canon] at this
              rw [show keys ++ heads pre ++ (heads (p0 :: ps) ++ bodies pre ++ bodies (p0 :: ps)) ++ rest3 =
                keys ++ heads pre ++ p0.hdr.words ++ (heads ps ++ bodies pre ++ bodies (p0 :: ps) ++ rest3) by simp,
                this] at hq
              exact (Option.some.inj hq).symm
            rw [hqq] at hd
            have hwb := (h.wf b (by simp)).bit0
            simp only [Blk.shift]
            omega
        | cons c' bs' =>
          simp only [List.cons_append, List.cons.injEq] at hc
          have := h.bit0 p c' (bs' ++ b :: post) (by rw [hp]; simp)
          rw [hc.1]
          exact this
    · intro c hc
      rcases List.mem_append.1 hc with hc | hc
      · exact h.wf c (by simp [hc])
      · obtain ⟨c', hc', rfl⟩ := List.mem_map.1 hc
        exact Blk.shift_wf (h.wf c' (by simp [hc']))
    · intro c hc
      rcases List.mem_append.1 hc with hc | hc
      · exact h.szl c (by simp [hc])
      · obtain ⟨c', hc', rfl⟩ := List.mem_map.1 hc
        exact h.szl c' (by simp [hc'])
    · intro c hc
      rcases List.mem_append.1 hc with hc | hc
      · exact h.szv c (by simp [hc])
      · obtain ⟨c', hc', rfl⟩ := List.mem_map.1 hc
        exact h.szv c' (by simp [hc'])
    · intro hn; rw [hn] at hlenrest3; simp at hlenrest3
    · rw [hdata] at hcap
      simp at hcap ⊢; omega
  · rw [hdata]
    simp; omega

/-! ## Adding a block -/

theorem add_lay (u : W) {st : Buf} {keys rest : List W} {bs : List Blk} (h : Lay st keys bs rest) (a : AddArgs)
    (lst : List W) (inbit idatyp : Nat) (P : List W → Prop) (hlst : a.nele ≤ lst.length)
    (hput : ∀ A x C, x.length = nbWords (a.nele * a.nval * a.nt) inbit →
      ∃ vw, putWords u a.vals A.length (a.nele * a.nval * a.nt) inbit idatyp (A ++ x ++ C) = some (0, A ++ vw ++ C) ∧
        vw.length = nbWords (a.nele * a.nval * a.nt) inbit ∧ P vw)
    (h8 : idatyp = 3 ∨ idatyp = 5 → inbit = 8) (hin : 1 ≤ inbit ∧ inbit ≤ 32) (hdt : idatyp < 16)
    (hdim : a.nele < 65536 ∧ a.nval < 65536 ∧ a.nt < 65536)
    (hroom : nbWords a.nele 16 + 4 + nbWords (a.nele * a.nval * a.nt) inbit < rest.length)
    (hbig : (bodies bs).length / 2 < 2 ^ 20) :
    ∃ st' rest' b pad, addParts u st a lst inbit idatyp = some (0, st') ∧ Lay st' keys (bs ++ [b]) rest' ∧
      st'.nwords = st.nwords ∧ st'.data.length = st.data.length ∧
      b.hdr = (newHdr a lst inbit idatyp ((bodies bs).length / 2)).canon ∧
      b.hdr.dims = (a.nele, a.nval, a.nt) ∧ b.hdr.nbit + 1 = inbit ∧ b.hdr.datyp = idatyp ∧ P b.vw ∧
      b.hdr.listed = ((lst.take a.nele).drop (a.nele - b.hdr.listed)).length ∧
      memBits b.lw = tokBits 16 (((lst.take a.nele).drop (if 127 ≤ a.nele ∨ 256 ≤ a.nval ∨ 256 ≤ a.nt then 0 else 3)).map
        (· &&& 0xffff#32)) ++ pad := by
  have hkeys := h.keysLen
  have hdata := h.data
  have hcap := h.cap
  have hnbits := h.nbits
  have hidx := h.idx
  have hhdr := h.hdrBits
  have heven := h.even bs (fun _ h => h)
  have hlen : st.data.length = 10 + 4 * bs.length + (bodies bs).length + rest.length := by rw [hdata]; simp; omega
  generalize hdone : (if 127 ≤ a.nele ∨ 256 ≤ a.nval ∨ 256 ≤ a.nt then 0 else 3) = done
  generalize hels : (lst.take a.nele).drop done = els
  generalize hH : newHdr a lst inbit idatyp ((bodies bs).length / 2) = H
  -- the header
  have hHd : H.canon.dims = (a.nele, a.nval, a.nt) ∧ H.canon.nbit + 1 = inbit ∧ H.canon.datyp = idatyp ∧
      H.canon.listed = a.nele - done ∧ H.canon.bit0 = (bodies bs).length / 2 := by
    rw [← hH]
    unfold newHdr
    by_cases hbigq : 127 ≤ a.nele ∨ 256 ≤ a.nval ∨ 256 ≤ a.nt
    · rw [if_pos hbigq] at hdone
      simp only [if_pos hbigq, Hdr.canon, Hdr.dims, Hdr.listed]
      subst hdone
      refine ⟨?_, by omega, by omega, ?_, by omega⟩
      · rw [if_pos (by decide), Nat.mod_eq_of_lt (by omega), Nat.mod_eq_of_lt (by omega), Nat.mod_eq_of_lt (by omega)]
      · rw [if_pos (by decide), Nat.mod_eq_of_lt (by omega)]; omega
    · rw [if_neg hbigq] at hdone
      simp only [if_neg hbigq, Hdr.canon, Hdr.dims, Hdr.listed]
      subst hdone
      refine ⟨?_, by omega, by omega, ?_, by omega⟩
      · rw [if_neg (by decide), Nat.mod_eq_of_lt (by omega), Nat.mod_eq_of_lt (by omega), Nat.mod_eq_of_lt (by omega)]
      · rw [if_neg (by decide), Nat.mod_eq_of_lt (by omega)]
  have helslen : els.length = a.nele - done := by rw [← hels]; simp; omega
  have hnbl : nbWords els.length 16 ≤ nbWords a.nele 16 := by rw [helslen]; unfold nbWords; omega
  have hnbe : nbWords els.length 16 % 2 = 0 := by unfold nbWords; omega
  -- the list
  generalize hn : a.nele * a.nval * a.nt = n at *
  obtain ⟨added, lw, c1, e1, hadd, hlw, hc1, pad, hpad⟩ := writeList_spec (els := els)
    (a := keys ++ heads bs ++ bodies bs) (x := rest.take (nbWords els.length 16)) (c := rest.drop (nbWords els.length 16))
    (by simp; omega) (by intro hz; have := congrArg List.length hz; simp at this; omega)
  simp only [List.length_drop] at hc1
  rw [List.length_take, Nat.min_eq_left (by omega)] at hlw
  have hpos : st.nbits / 32 = (keys ++ heads bs ++ bodies bs).length := by rw [hnbits]; simp; omega
  have e1' : writeList els (st.nbits / 32) st.data = some (added, (keys ++ heads bs ++ bodies bs) ++ lw ++ c1) := by
    rw [← e1, hpos]
    conv_lhs => rw [hdata]
    congr 1
    rw [List.append_assoc (keys ++ heads bs ++ bodies bs), List.take_append_drop]
  -- the header inserted
  obtain ⟨c2, hc2, e2⟩ := xdfins_words u
    (st := { st with data := (keys ++ heads bs ++ bodies bs) ++ lw ++ c1, nbits := st.nbits + (added + 63) / 64 * 64 })
    (A := keys ++ heads bs) (B := bodies bs ++ lw) (c := c1) (vals := H.words) (bitpos := st.hdrBits) (k := 2)
    (by simp) (by simp only; rw [hidx, hhdr]; simp; omega) (by omega)
    (by simp only; rw [hadd, hnbits]; simp; omega) (by simp) (by omega)
    (by simp only; simp; omega)
  simp only [Nat.reduceMul] at e2 hc2
  rw [List.take_of_length_le (by simp)] at e2
  -- the values added
  obtain ⟨vw, e3, hvw, hP⟩ := hput (keys ++ heads bs ++ H.words ++ (bodies bs ++ lw)) (c2.take (nbWords n inbit))
    (c2.drop (nbWords n inbit)) (by simp; omega)
  rw [List.append_assoc (keys ++ heads bs ++ H.words ++ (bodies bs ++ lw)), List.take_append_drop] at e3
  have hpos3 : (st.nbits + (added + 63) / 64 * 64 + 32 * 4) / 32 =
      (keys ++ heads bs ++ H.words ++ (bodies bs ++ lw)).length := by rw [hnbits]; simp; omega
  refine ⟨{ st with data := keys ++ heads bs ++ H.words ++ (bodies bs ++ lw) ++ vw ++ c2.drop (nbWords n inbit),
                    nbits := st.nbits + (added + 63) / 64 * 64 + 32 * 4 + 32 * nbWords n inbit,
                    nblk := st.nblk + 1, hdrBits := st.hdrBits + 128 },
    c2.drop (nbWords n inbit), ⟨H.canon, lw, vw⟩, pad, ?_, ?_, rfl, ?_, rfl, hHd.1, hHd.2.1, hHd.2.2.1, hP, ?_, hpad⟩
  · unfold addParts
    simp only
    rw [hdone, if_neg (by omega), hels, e1']
    simp only
    rw [show (st.nbits - 320 - st.hdrBits) / 64 = (bodies bs).length / 2 by rw [hnbits, hhdr]; omega, hH, e2]
    simp only
    unfold xdfadd
    simp only
    rw [hn, if_neg (by omega), if_neg (by rw [hpos3]; simp; omega), hpos3, e3]
    rfl
  · refine ⟨hkeys, ?_, hidx, ?_, ?_, ?_, ?_, ?_, ?_, ?_, ?_, ?_⟩
    · simp [Hdr.words_canon]
    · simp only; rw [hadd, hnbits]; simp; omega
    · simp [h.nblk]
    · simp only; rw [hhdr]; simp; omega
    · intro p c q heq
      rcases List.append_eq_append_iff.1 heq with ⟨as, hp, hc⟩ | ⟨bs', hp, hc⟩
      · cases as with
        | nil =>
          simp only [List.nil_append, List.cons.injEq] at hc
          rw [← hc.1, hp, List.append_nil]
          simp only
          rw [hHd.2.2.2.2]
          omega
        | cons z as => simp at hc
      · cases bs' with
        | nil =>
          simp only [List.nil_append, List.cons.injEq] at hc
          simp only [List.append_nil] at hp
          rw [hc.1, ← hp]
          simp only
          rw [hHd.2.2.2.2]
          omega
        | cons c' bs' =>
          simp only [List.cons_append, List.cons.injEq] at hc
          rw [hc.1]
          exact h.bit0 p c' bs' hp
    · intro c hc
      rcases List.mem_append.1 hc with hc | hc
      · exact h.wf c hc
      · rw [List.mem_singleton.1 hc]; exact H.canon_wf
    · intro c hc
      rcases List.mem_append.1 hc with hc | hc
      · exact h.szl c hc
      · rw [List.mem_singleton.1 hc]; simp only; rw [hlw, hHd.2.2.2.1, helslen]
    · intro c hc
      rcases List.mem_append.1 hc with hc | hc
      · exact h.szv c hc
      · rw [List.mem_singleton.1 hc]
        simp only [Blk.n]
        rw [hHd.1, hHd.2.1]
        simp only
        rw [hvw, hn]
    · intro hz; have := congrArg List.length hz; simp at this; omega
    · simp; omega
  · simp; omega
  · simp only
    rw [hHd.2.2.2.1]
    simp; omega

/-! ## Replacing values -/

theorem Blk.shift_zero {b : Blk} (h : b.hdr.WF) : b.shift 0 = b := by
  have := h.bit0
  have e : ((b.hdr.bit0 + (0 : Int)) % 2 ^ 20).toNat = b.hdr.bit0 := by omega
  unfold Blk.shift
  rw [e]

theorem rep_lay (u : W) {st : Buf} {keys rest : List W} {pre post : List Blk} {b : Blk}
    (h : Lay st keys (pre ++ b :: post) rest) (vals : List W) (nb dt : Nat) (P : List W → Prop)
    (hput : ∀ A x C, x.length = nbWords b.n nb →
      ∃ vw, putWords u vals A.length b.n nb dt (A ++ x ++ C) = some (0, A ++ vw ++ C) ∧ vw.length = nbWords b.n nb ∧ P vw)
    (h3 : dt ≠ 3) (h5 : dt = 5 → nb = 8) (hnb : b.hdr.nbit + 1 ≤ nb ∧ nb ≤ 32) (hdt : dt < 16)
    (hvals : nbWords b.n nb - b.vw.length ≤ vals.length)
    (hroom : nbWords b.n nb - b.vw.length < rest.length)
    (hbig : ((bodies (pre ++ b :: post)).length + (nbWords b.n nb - b.vw.length)) / 2 < 2 ^ 20) :
    ∃ st' rest' d vw, repParts u st (pre.length + 1) b.hdr vals nb dt = some (0, st') ∧
      Lay st' keys (pre ++ ⟨{ b.hdr with nbit := nb - 1, datyp := dt }, b.lw, vw⟩ :: post.map (Blk.shift d)) rest' ∧
      st'.nwords = st.nwords ∧ st'.data.length = st.data.length ∧ P vw := by
  have hbit0 := h.bit0 pre b post rfl
  have hszl := h.szl b (by simp)
  have hszv := h.szv b (by simp)
  have hwf := h.wf b (by simp)
  have hkeys := h.keysLen
  have hdata := h.data
  have hcap := h.cap
  have hnbits := h.nbits
  have hidx := h.idx
  have hhdr := h.hdrBits
  simp only [heads_append, heads_cons, bodies_append, bodies_cons, List.length_append, List.length_cons] at hdata hnbits hhdr hbig
  have hlen : st.data.length = 10 + 4 * (pre.length + (post.length + 1)) + ((bodies pre).length + (b.lw.length + b.vw.length +
      (bodies post).length)) + rest.length := by rw [hdata]; simp; omega
  generalize hH : ({ b.hdr with nbit := nb - 1, datyp := dt } : Hdr) = H
  have hHwf : H.WF := by
    obtain ⟨w1, w2, w3, w4, w5, w6, w7, w8, w9, w10, w11, w12⟩ := hwf
    rw [← hH]
    exact ⟨by simp only; omega, w2, w3, w4, by simp only; omega, w6, w7, w8, w9, w10, w11, w12⟩
  have hHd : H.dims = b.hdr.dims ∧ H.listed = b.hdr.listed ∧ H.nbit + 1 = nb ∧ H.bit0 = b.hdr.bit0 := by
    rw [← hH]; exact ⟨rfl, rfl, by simp only; omega, rfl⟩
  -- the header
  have e1 : modBlock pre.length (fun q => { q with nbit := (nb + 31) % 32, datyp := dt }) st.data =
      some (keys ++ heads pre ++ H.words ++ heads post ++ bodies pre ++ b.lw ++ b.vw ++ bodies post ++ rest) := by
    rw [hdata, show keys ++ (heads pre ++ (b.hdr.words ++ heads post)) ++ (bodies pre ++ (b.lw ++ b.vw ++ bodies post)) ++ rest =
      (keys ++ heads pre) ++ b.hdr.words ++ (heads post ++ bodies pre ++ b.lw ++ b.vw ++ bodies post ++ rest) by simp,
      modBlock_append _ (by simp; omega), hwf.canon]
    rw [← hH, show (nb + 31) % 32 = nb - 1 by omega]
    simp
  -- the room
  obtain ⟨diff, hdiff⟩ : ∃ diff, diff = (nb * b.n + 63) / 64 - ((b.hdr.nbit + 1) * b.n + 63) / 64 := ⟨_, rfl⟩
  have hmono : (b.hdr.nbit + 1) * b.n ≤ nb * b.n := Nat.mul_le_mul_right _ hnb.1
  have hgrow : nbWords b.n nb = b.vw.length + 2 * diff := by
    rw [hszv, hdiff]; unfold nbWords
    rw [Nat.mul_comm b.n nb, Nat.mul_comm b.n (b.hdr.nbit + 1)]
    omega
  obtain ⟨rest1, x, d, hr1, hx, hd, e2⟩ : ∃ (rest1 x : List W) (d : Int), rest1.length + 2 * diff = rest.length ∧
      x.length = nbWords b.n nb ∧ d = diff ∧
      (if nb ≠ b.hdr.nbit + 1 ∧ 0 < diff then
        growBlock u { st with data := keys ++ heads pre ++ H.words ++ heads post ++ bodies pre ++ b.lw ++ b.vw ++ bodies post ++ rest }
          (pre.length + 1) (b.hdr.bit0 * 64 + st.hdrBits + (b.hdr.listed * 16 + 63) / 64 * 64) diff vals
       else some ((0 : Int), { st with data := (keys ++ heads pre ++ H.words ++ heads post ++ bodies pre ++ b.lw ++ b.vw ++
          bodies post ++ rest) })) =
      some (0, { st with
        data := ((keys ++ heads pre ++ H.words ++ heads (post.map (Blk.shift d)) ++ bodies pre ++ b.lw) ++ x ++
          (bodies post ++ rest1)),
        nbits := st.nbits + 32 * (2 * diff) }) := by
    split
    · rename_i hc
      obtain ⟨c', hc', e⟩ := xdfins_words u
        (st := { st with data := keys ++ heads pre ++ H.words ++ heads post ++ bodies pre ++ b.lw ++ b.vw ++ bodies post ++ rest })
        (A := keys ++ heads pre ++ H.words ++ heads post ++ bodies pre ++ b.lw) (B := b.vw ++ bodies post) (c := rest)
        (vals := vals) (bitpos := b.hdr.bit0 * 64 + st.hdrBits + (b.hdr.listed * 16 + 63) / 64 * 64) (k := diff)
        (by simp) (by simp only; rw [hidx, hhdr]; unfold nbWords at hszl; simp; omega) (by omega)
        (by simp only; rw [hnbits]; simp; omega) (by omega) (by omega)
        (by simp only; simp; omega)
      refine ⟨c', vals.take (2 * diff) ++ b.vw, diff, hc', by simp; omega, rfl, ?_⟩
      unfold growBlock
      rw [Nat.mul_comm diff 2, e]
      simp only
      rw [h.nblk, show (pre ++ b :: post).length - (pre.length + 1) = post.length by simp; omega]
      have := shiftBit0_append (d := (diff : Int)) (C := bodies pre ++ b.lw ++ vals.take (2 * diff) ++ (b.vw ++ bodies post) ++ c')
        post (keys ++ heads pre ++ H.words) (pre.length + 1) (by simp; omega) (fun q hq => h.wf q (by simp [hq]))
      rw [show keys ++ heads pre ++ H.words ++ heads post ++ bodies pre ++ b.lw ++ vals.take (2 * diff) ++ (b.vw ++ bodies post) ++ c' =
        keys ++ heads pre ++ H.words ++ heads post ++ (bodies pre ++ b.lw ++ vals.take (2 * diff) ++ (b.vw ++ bodies post) ++ c') by
        simp, this]
      simp
    · rename_i hc
      have h0 : diff = 0 := by
        by_cases hq : nb = b.hdr.nbit + 1
        · rw [hdiff, hq]; omega
        · omega
      refine ⟨rest, b.vw, diff, by omega, by omega, rfl, ?_⟩
      have hm : post.map (Blk.shift (diff : Int)) = post := by
        conv_rhs => rw [← List.map_id post]
        apply List.map_congr_left
        intro q hq
        rw [h0]
        exact Blk.shift_zero (h.wf q (by simp [hq]))
      rw [hm, h0]
      simp
  -- the values
  obtain ⟨vw, e3, hvw, hP⟩ := hput (keys ++ heads pre ++ H.words ++ heads (post.map (Blk.shift d)) ++ bodies pre ++ b.lw)
    (List.replicate x.length 0) (bodies post ++ rest1) (by simp; omega)
  have e4 := zeroFill_append (a := keys ++ heads pre ++ H.words ++ heads (post.map (Blk.shift d)) ++ bodies pre ++ b.lw)
    (x := x) (c := bodies post ++ rest1)
  have hA : (keys ++ heads pre ++ H.words ++ heads (post.map (Blk.shift d)) ++ bodies pre ++ b.lw).length =
      10 + (b.hdr.bit0 * 64 + st.hdrBits + (b.hdr.listed * 16 + 63) / 64 * 64) / 32 := by
    rw [hhdr]; unfold nbWords at hszl; simp; omega
  have hbs : bodies (post.map (Blk.shift d)) = bodies post := by
    simp only [bodies, List.flatMap_map]; rfl
  refine ⟨{ st with data := ((keys ++ heads pre ++ H.words ++ heads (post.map (Blk.shift d)) ++ bodies pre ++ b.lw) ++ vw ++
        (bodies post ++ rest1)), nbits := st.nbits + 32 * (2 * diff) }, rest1, d, vw, ?_, ?_, rfl, ?_, hP⟩
  · unfold repParts
    simp only [Nat.add_sub_cancel]
    rw [e1]
    simp only
    rw [show b.hdr.dims.1 * b.hdr.dims.2.1 * b.hdr.dims.2.2 = b.n from rfl, ← hdiff, e2]
    simp only
    unfold xdfrep
    simp only
    rw [if_neg (by omega), if_neg (by omega), hidx, ← hA, ← hx, if_neg (by simp; omega), e4]
    simp only
    rw [e3]
  · refine ⟨hkeys, ?_, hidx, ?_, ?_, ?_, ?_, ?_, ?_, ?_, ?_, ?_⟩
    · simp [hbs]
    · simp only; rw [hnbits]; simp [hbs]; omega
    · simp [h.nblk]
    · simp only; rw [hhdr]; simp
    · intro p c q heq
      rcases List.append_eq_append_iff.1 heq with ⟨as, hp, hc⟩ | ⟨bs', hp, hc⟩
      · cases as with
        | nil =>
          simp only [List.nil_append, List.cons.injEq] at hc
          rw [← hc.1, hp, List.append_nil]
          simp only
          rw [hHd.2.2.2]
          exact hbit0
        | cons z as =>
          simp only [List.cons_append, List.cons.injEq] at hc
          obtain ⟨l1, l2, hl, ha, hb⟩ := List.map_eq_append_iff.1 hc.2
          cases l2 with
          | nil => simp at hb
          | cons c0' l2 =>
            simp only [List.map_cons, List.cons.injEq] at hb
            rw [hp, ← hb.1, ← hc.1]
            have hl1 : bodies as = bodies l1 := by
              rw [← ha]; simp only [bodies, List.flatMap_map]; rfl
            have hc0 := h.bit0 (pre ++ b :: l1) c0' l2 (by rw [hl]; simp)
            have hwc := (h.wf c0' (by rw [hl]; simp)).bit0
            simp only [hl, bodies_append, bodies_cons, List.length_append] at hbig
            simp only [Blk.shift, bodies_append, bodies_cons, List.length_append, hl1]
            simp only [bodies_append, bodies_cons, List.length_append] at hc0
            omega
      · cases bs' with
        | nil =>
          simp only [List.nil_append, List.cons.injEq] at hc
          simp only [List.append_nil] at hp
          rw [hc.1, ← hp]
          simp only
          rw [hHd.2.2.2]
          exact hbit0
        | cons c' bs' =>
          simp only [List.cons_append, List.cons.injEq] at hc
          rw [hc.1]
          exact h.bit0 p c' (bs' ++ b :: post) (by rw [hp]; simp)
    · intro c hc
      rcases List.mem_append.1 hc with hc | hc
      · exact h.wf c (by simp [hc])
      · rcases List.mem_cons.1 hc with rfl | hc
        · exact hHwf
        · obtain ⟨c', hc', rfl⟩ := List.mem_map.1 hc
          exact Blk.shift_wf (h.wf c' (by simp [hc']))
    · intro c hc
      rcases List.mem_append.1 hc with hc | hc
      · exact h.szl c (by simp [hc])
      · rcases List.mem_cons.1 hc with rfl | hc
        · simp only; rw [hHd.2.1]; exact hszl
        · obtain ⟨c', hc', rfl⟩ := List.mem_map.1 hc
          exact h.szl c' (by simp [hc'])
    · intro c hc
      rcases List.mem_append.1 hc with hc | hc
      · exact h.szv c (by simp [hc])
      · rcases List.mem_cons.1 hc with rfl | hc
        · simp only [Blk.n]
          rw [hHd.1, hHd.2.2.1]
          exact hvw
        · obtain ⟨c', hc', rfl⟩ := List.mem_map.1 hc
          exact h.szv c' (by simp [hc'])
    · intro hz; rw [hz] at hr1; simp at hr1; omega
    · simp; omega
  · simp; omega

/-! ## Extracting a block -/

theorem xtr_lay (u : W) {st : Buf} {keys rest : List W} {pre post : List Blk} {b : Blk}
    (h : Lay st keys (pre ++ b :: post) rest) {els vals : List W} {pad : List Bool}
    (hb : memBits b.lw = tokBits 16 (els.map (· &&& 0xffff#32)) ++ pad) (hels : els.length = b.hdr.listed)
    (hlt : ∀ e ∈ els, e.toNat < 2 ^ 16) (hr : Reads b.hdr.datyp b.n (b.hdr.nbit + 1) b.vw vals)
    (h8 : b.hdr.datyp = 3 ∨ b.hdr.datyp = 5 → b.hdr.nbit + 1 = 8)
    {lst0 vals0 : List W} (hl0 : (headerElems b.hdr).length + els.length ≤ lst0.length) (hv0 : vals.length ≤ vals0.length) :
    ∃ l v, mrbxtr u st (pre.length + 1) lst0 vals0 = some (0, l, v) ∧
      l.take ((headerElems b.hdr).length + els.length) = headerElems b.hdr ++ els ∧ v.take vals.length = vals := by
  have hbit0 := h.bit0 pre b post rfl
  have hszl := h.szl b (by simp)
  have hkeys := h.keysLen
  have hdata := h.data
  have hidx := h.idx
  have hhdr := h.hdrBits
  simp only [heads_append, heads_cons, bodies_append, bodies_cons, List.length_append, List.length_cons] at hdata hhdr
  generalize hhd : headerElems b.hdr = hd at *
  obtain ⟨more, em, hmore⟩ : ∃ more, (if 0 < b.hdr.listed then
      xdfxtr u st (lst0.drop hd.length) (b.hdr.bit0 * 64 + st.hdrBits) b.hdr.listed 16 2
      else some ((0 : Int), lst0.drop hd.length)) = some (0, more) ∧ more.take els.length = els := by
    split
    · obtain ⟨o, e, l, ht⟩ := list_reads (pre := keys ++ heads pre ++ b.hdr.words ++ heads post ++ bodies pre) (lw := b.lw)
        (post := b.vw ++ bodies post ++ rest) (out := lst0.drop hd.length) u hb hlt
        (by simp [h.rest]) (by simp; omega)
      refine ⟨o, ?_, ht⟩
      unfold xdfxtr
      rw [if_neg (by omega), if_neg (by omega)]
      rw [hidx, show 10 + (b.hdr.bit0 * 64 + st.hdrBits) / 32 =
        (keys ++ heads pre ++ b.hdr.words ++ heads post ++ bodies pre).length by rw [hhdr]; simp; omega, ← hels, ← e]
      congr 1
      rw [hdata]; simp
    · rename_i hz
      have : els = [] := List.eq_nil_of_length_eq_zero (by omega)
      subst this
      exact ⟨_, rfl, by simp⟩
  obtain ⟨hvl, hroom, hget⟩ := hr
  obtain ⟨o, e, l, ht⟩ := hget u (keys ++ heads pre ++ b.hdr.words ++ heads post ++ bodies pre ++ b.lw) (bodies post ++ rest)
    vals0 (by simp [h.rest]) hv0
  refine ⟨hd ++ more, restoreMissing (b.hdr.nbit + 1) b.hdr.datyp b.n o, ?_, ?_, ht⟩
  · unfold mrbxtr
    rw [if_neg (by rw [h.nblk]; simp), readHdr_lay u h]
    simp only
    unfold xtrParts
    simp only
    rw [hhd, if_neg (by omega), em]
    simp only
    rw [if_neg (by decide)]
    have ex : xdfxtr u st vals0 (b.hdr.bit0 * 64 + st.hdrBits + (b.hdr.listed * 16 + 63) / 64 * 64)
        (b.hdr.dims.1 * b.hdr.dims.2.1 * b.hdr.dims.2.2) (b.hdr.nbit + 1) b.hdr.datyp = some (0, o) := by
      unfold xdfxtr
      rw [if_neg (by omega), if_neg (by omega), hidx,
        show 10 + (b.hdr.bit0 * 64 + st.hdrBits + (b.hdr.listed * 16 + 63) / 64 * 64) / 32 =
        (keys ++ heads pre ++ b.hdr.words ++ heads post ++ bodies pre ++ b.lw).length by
          rw [hhdr]; unfold nbWords at hszl; simp; omega, show b.hdr.dims.1 * b.hdr.dims.2.1 * b.hdr.dims.2.2 = b.n from rfl, ← e]
      congr 1
      rw [hdata]; simp
    rw [ex]
    simp only
    rw [if_neg (by decide)]
    rfl
  · rw [List.take_append, List.take_of_length_le (by omega), Nat.add_sub_cancel_left, hmore]

end Verif.Burp
