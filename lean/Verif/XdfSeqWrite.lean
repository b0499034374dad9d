import Verif.XdfSeqLemmas
/-! Lemmas about writing sequential files, closing and opening them. -/

namespace Verif.XdfSeq

open Verif.Xdf

/-- A call that writes: `c_xdfput` with handle 0, or `c_fstweo`. -/
inductive Op
  | put (data : List W) (junk : Nat → W)
  | weo (level : Nat) (junk : Nat)

/-- The state after a call that succeeds. -/
def step (s : St) : Op → Option St
  | .put data junk =>
    match put s data junk with
    | some (s', .ok) => some s'
    | _ => none
  | .weo level junk => weo s level junk

def run : St → List Op → Option St
  | s, [] => some s
  | s, op :: ops =>
    match step s op with
    | none => none
    | some s' => run s' ops

/-- What a call may write: records of type 1 to 111 holding at least the primary keys, and levels
from 1 to 15. -/
def Op.Ok (width : Nat) : Op → Prop
  | .put data _ => 1 ≤ idtyp (data.getD 0 0#32) ∧ idtyp (data.getD 0 0#32) ≤ 111 ∧
      width ≤ data.length ∧ data.length + 130 < 2 ^ 25
  | .weo level _ => 1 ≤ level ∧ level ≤ 15

/-- Words of the record written at `cur`. -/
def padded (cur : Nat) (data : List W) (junk : Nat → W) : List W :=
  data.drop 2 ++
    (List.range (nextCluster (cur + data.length + 4) - cur - 4 - data.length)).map junk

def Op.items (cur : Nat) : Op → List Item
  | .put data junk => [.record (idtyp (data.getD 0 0#32)) (padded cur data junk)]
  | .weo level _ => if level < 15 then [.mark level] else []

def itemsOf : Nat → List Op → List Item
  | _, [] => []
  | cur, op :: ops => op.items cur ++ itemsOf (cur + sizes (op.items cur)) ops

theorem nextCluster_props (a : Nat) (h : a % 2 = 0) :
    a ≤ nextCluster a ∧ nextCluster a ≤ a + 127 ∧ nextCluster a % 2 = 0 ∧
    (a < 2 ^ 23 → nextCluster a = a) := by
  simp only [nextCluster, Nat.shiftRight_eq_div_pow]
  split
  · omega
  · split
    · omega
    · split <;> omega

theorem wawrit_props {s : St} {a : Nat} {ws : List W} (ha : a ≤ s.fsize) (hf : s.fsize ≤ s.d.length) :
    Has (s.wawrit a ws).d a ws ∧
    (∀ b vs, Has s.d b vs → b + vs.length ≤ a → Has (s.wawrit a ws).d b vs) ∧
    (∀ b vs, Has s.d b vs → a + ws.length ≤ b → b + vs.length ≤ s.fsize →
      Has (s.wawrit a ws).d b vs) ∧
    (s.wawrit a ws).fsize = max s.fsize (a + ws.length) ∧
    (s.wawrit a ws).fsize ≤ (s.wawrit a ws).d.length ∧
    s.wawrit a ws = { s with d := (s.wawrit a ws).d, fsize := (s.wawrit a ws).fsize } := by
  unfold St.wawrit
  split
  case isTrue h =>
    refine ⟨?_, ?_, ?_, ?_, ?_, rfl⟩
    · intro i hi
      rw [List.getElem?_take_of_lt (by omega)]
      exact has_write_self s.d a ws i hi
    · intro b vs hv hb i hi
      rw [List.getElem?_take_of_lt (by omega)]
      exact has_write_disj hv a ws (Or.inl hb) i hi
    · intro b vs hv hb hb' i hi; omega
    · dsimp only; omega
    · dsimp only; rw [List.length_take, writeAt_length]; omega
  case isFalse h =>
    refine ⟨has_write_self s.d a ws, ?_, ?_, ?_, ?_, rfl⟩
    · intro b vs hv hb; exact has_write_disj hv a ws (Or.inl hb)
    · intro b vs hv hb hb'; exact has_write_disj hv a ws (Or.inr hb)
    · dsimp only; omega
    · dsimp only; rw [writeAt_length]; omega

/-- The invariant of a session that writes: the file holds the items up to the position. -/
structure Inv (s : St) (H : Nat) (items : List Item) : Prop where
  hok : s.hdr.Ok
  hlng : 2 * s.hdr.lng = H
  rw : s.hdr.rwflg ≠ RDMODE
  vrsn : s.hdr.vrsn = 0x58444630#32
  nbd : s.hdr.nbd = 0
  sign : s.hdr.sign ≠ 0x53544452#32 ∧ s.hdr.sign ≠ 0x73746472#32
  has : Has s.d H (lay H items)
  cur : s.cur = H + sizes items
  fs : s.cur ≤ s.fsize
  fd : s.fsize ≤ s.d.length
  ok : ∀ i ∈ items, i.Ok s.width
  fsiz : 2 * s.hdr.fsiz ≤ s.cur + 2 ^ 32
  nbig : s.hdr.nbig ≤ s.hdr.fsiz
  small : s.cur < 2 ^ 31
  width : 2 ≤ s.width

theorem sizes_even {width : Nat} (items : List Item) (h : ∀ i ∈ items, i.Ok width) :
    sizes items % 2 = 0 := by
  induction items with
  | nil => rfl
  | cons i r ih =>
    have h1 := (h i (by simp)).even
    have h2 := ih fun j hj => h j (by simp [hj])
    simp only [sizes]; omega

theorem Inv.even {s : St} {H : Nat} {items : List Item} (h : Inv s H items) : s.cur % 2 = 0 := by
  have := sizes_even items h.ok
  have := h.cur
  have := h.hlng
  omega

/-- Adding an item at the position of a session. -/
theorem has_add {d : List W} {H : Nat} {items : List Item} {i : Item}
    (h : Has d H (lay H items)) (h2 : Has d (H + sizes items) (i.words (H + sizes items))) :
    Has d H (lay H (items ++ [i])) := by
  rw [lay_append, has_append, lay_length]
  exact ⟨h, by simpa [lay] using h2⟩

theorem Inv.put {s s' : St} {H : Nat} {items : List Item} (h : Inv s H items) (data : List W)
    (junk : Nat → W) (hok : (Op.put data junk).Ok s.width) (hp : step s (.put data junk) = some s') :
    Inv s' H (items ++ (Op.put data junk).items s.cur) ∧ Eof s'.d s'.cur ∧ s'.cur + 2 ≤ s'.fsize ∧
      s'.hdr.lprm = s.hdr.lprm ∧ s'.bof = s.bof ∧ s'.head = s.head ∧ s'.hdr.rwflg = s.hdr.rwflg ∧
      s'.cur = s.cur + (padded s.cur data junk).length + 6 ∧
      (∀ b vs, Has s.d b vs → b + vs.length ≤ s.cur → Has s'.d b vs) := by
  obtain ⟨o1, o2, o3, o4⟩ := hok
  have hev := h.even
  have hwd := h.width
  simp only [step] at hp
  split at hp
  case h_2 => exact absurd hp (by simp)
  case h_1 s1 hput =>
  simp only [Option.some.injEq] at hp
  subst hp
  unfold XdfSeq.put at hput
  by_cases h2 : data.length % 2 ≠ 0
  · rw [if_pos h2] at hput; simp at hput
  rw [if_neg h2, if_neg h.rw] at hput
  split at hput
  · exact absurd hput (by simp)
  case isFalse hsz =>
  obtain ⟨c1, c2, c3, -⟩ := nextCluster_props (s.cur + data.length + 4) (by omega)
  dsimp only at hput
  simp only [Option.some.injEq, Prod.mk.injEq, and_true] at hput
  -- the words of the record
  have hbl : (padded s.cur data junk).length + 2 = nextCluster (s.cur + data.length + 4) - s.cur - 4 := by
    simp only [padded, List.length_append, List.length_drop, List.length_map, List.length_range]
    omega
  generalize hN : nextCluster (s.cur + data.length + 4) - s.cur - 4 = N at hput hbl
  have hpad : data.drop 2 ++ (List.range (N - data.length)).map junk = padded s.cur data junk := by
    rw [padded, hN]
  rw [hpad] at hput
  have hmod : N / 2 % 2 ^ 24 = N / 2 := Nat.mod_eq_of_lt (by omega)
  rw [hmod] at hput
  rw [show (Op.put data junk).items s.cur = [.record (idtyp (data.getD 0 0#32)) (padded s.cur data junk)]
    from rfl]
  clear hpad
  generalize padded s.cur data junk = body at hput hbl ⊢
  generalize idtyp (data.getD 0 0#32) = id at hput o1 o2 ⊢
  have hN2 : N / 2 = (body.length + 2) / 2 := by omega
  obtain ⟨a1, a2, -, a4, a5, a6⟩ := wawrit_props (ws := word0 id (N / 2) ::
    BitVec.ofNat 32 (s.cur / 2 + 1) :: body) h.fs h.fd
  generalize hs1 : s.wawrit s.cur (word0 id (N / 2) :: BitVec.ofNat 32 (s.cur / 2 + 1) :: body) = s1
    at hput a1 a2 a4 a5 a6
  have hl1 : (word0 id (N / 2) :: BitVec.ofNat 32 (s.cur / 2 + 1) :: body : List W).length = N := by
    simp; omega
  rw [hl1] at a4
  obtain ⟨b1, b2, -, b4, b5, b6⟩ := wawrit_props (s := s1) (a := s.cur + N)
    (ws := postfix_ id (N / 2) (s.cur / 2 + 1)) (by omega) a5
  generalize hs2 : s1.wawrit (s.cur + N) (postfix_ id (N / 2) (s.cur / 2 + 1)) = s2
    at hput b1 b2 b4 b5 b6
  have hl2 : (postfix_ id (N / 2) (s.cur / 2 + 1)).length = 4 := rfl
  rw [hl2] at b4
  obtain ⟨c1', c2', -, c4, c5, c6⟩ := wawrit_props (s := s2) (a := s.cur + N + 4)
    (ws := [word0 127 1, BitVec.ofNat 32 ((s.cur + N + 4) / 2 + 1)]) (by omega) b5
  generalize hs3 : s2.wawrit (s.cur + N + 4) [word0 127 1, BitVec.ofNat 32 ((s.cur + N + 4) / 2 + 1)] = s3
    at hput c1' c2' c4 c5 c6
  simp only [List.length_cons, List.length_nil] at c4
  have hbof : s3.bof = s.bof := by rw [c6, b6, a6]
  have hhead : s3.head = s.head := by rw [c6, b6, a6]
  subst hput
  have hwords : Item.words s.cur (.record id body) =
      (word0 id (N / 2) :: BitVec.ofNat 32 (s.cur / 2 + 1) :: body) ++
        postfix_ id (N / 2) (s.cur / 2 + 1) := by rw [hN2]; simp [Item.words]
  have hrec : Has s3.d s.cur (Item.words s.cur (.record id body)) := by
    rw [hwords, has_append, hl1]
    exact ⟨c2' _ _ (b2 _ _ a1 (by omega)) (by omega), c2' _ _ b1 (by omega)⟩
  have hold : Has s3.d H (lay H items) :=
    c2' _ _ (b2 _ _ (a2 _ _ h.has (by rw [lay_length, h.cur]; exact Nat.le_refl _)) (by rw [lay_length, ← h.cur]; omega))
      (by rw [lay_length, ← h.cur]; omega)
  have hhok := h.hok
  have hsm : s.cur + N + 4 < 2 ^ 31 := by omega
  have hfz := h.fsiz
  have hnb := h.nbig
  refine ⟨⟨⟨hhok.idtyp, hhok.lng, ?_, hhok.nbd, ?_, hhok.lprm, ?_, hhok.rwflg, hhok.keys⟩, h.hlng, h.rw,
    h.vrsn, h.nbd, h.sign, ?_, ?_, ?_, ?_, ?_, ?_, ?_, hsm, hwd⟩, ⟨1, _, c1'⟩, ?_, rfl, hbof, hhead, rfl, ?_, ?_⟩
  · dsimp only; omega
  · dsimp only; split <;> omega
  · dsimp only; omega
  · exact has_add hold (by rw [← h.cur]; exact hrec)
  · dsimp only
    have hc := h.cur
    rw [sizes_append]; simp only [sizes, Item.size]; omega
  · dsimp only; omega
  · dsimp only; omega
  · intro i hi
    rw [List.mem_append] at hi
    rcases hi with hi | hi
    · exact h.ok i hi
    · simp only [List.mem_singleton] at hi
      subst hi
      have hw : St.width _ = s.width := (rfl : 2 * s.hdr.lprm = 2 * s.hdr.lprm)
      exact ⟨o1, o2, by omega, by
        have : s.width ≤ body.length + 2 := by omega
        exact this, by omega⟩
  · dsimp only; omega
  · dsimp only; split <;> omega
  · dsimp only; omega
  · dsimp only; omega
  · intro b vs hv hb
    exact c2' _ _ (b2 _ _ (a2 _ _ hv hb) (by omega)) (by omega)

theorem Inv.weo {s s' : St} {H : Nat} {items : List Item} (h : Inv s H items) (level junk : Nat)
    (hok : (Op.weo level junk).Ok s.width) (hp : step s (.weo level junk) = some s') :
    Inv s' H (items ++ (Op.weo level junk).items s.cur) ∧ Eof s'.d s'.cur ∧ s'.cur + 2 ≤ s'.fsize ∧
      s'.hdr = s.hdr ∧ s'.bof = s.bof ∧ s'.head = s.head ∧
      s'.cur = s.cur + sizes ((Op.weo level junk).items s.cur) ∧
      (∀ b vs, Has s.d b vs → b + vs.length ≤ s.cur → Has s'.d b vs) := by
  obtain ⟨o1, o2⟩ := hok
  simp only [step, XdfSeq.weo] at hp
  split at hp
  · exact absurd hp (by simp)
  case isFalse hsz =>
  have hfs := h.fs
  have hfd := h.fd
  split at hp
  case isTrue hl =>
    simp only [Option.some.injEq] at hp
    obtain ⟨a1, a2, -, a4, a5, a6⟩ := wawrit_props
      (ws := [word0 (112 + level) 1, BitVec.ofNat 32 (s.cur + 1)]) h.fs h.fd
    generalize s.wawrit s.cur [word0 (112 + level) 1, BitVec.ofNat 32 (s.cur + 1)] = s1
      at hp a1 a2 a4 a5 a6
    simp only [List.length_cons, List.length_nil] at a4
    obtain ⟨b1, b2, -, b4, b5, b6⟩ := wawrit_props (s := { s1 with cur := s.cur + 2 }) (a := s.cur + 2)
      (ws := [word0 127 1, BitVec.ofNat 32 (s.cur + 2 + 1)]) (by dsimp only; omega) (by exact a5)
    rw [hp] at b1 b2 b4 b5 b6
    simp only [List.length_cons, List.length_nil] at b4
    have hcur : s'.cur = s.cur + 2 := by rw [b6]
    have hhdr : s'.hdr = s.hdr := by rw [b6, a6]
    have hit : (Op.weo level junk).items s.cur = [.mark level] := by simp [Op.items, hl]
    rw [hit]
    have hw : s'.width = s.width := by simp only [St.width, hhdr]
    have hc := h.cur
    have hsmall := h.small
    refine ⟨⟨by rw [hhdr]; exact h.hok, by rw [hhdr]; exact h.hlng, by rw [hhdr]; exact h.rw,
      by rw [hhdr]; exact h.vrsn, by rw [hhdr]; exact h.nbd, by rw [hhdr]; exact h.sign, ?_, ?_, ?_, ?_,
      ?_, ?_, by rw [hhdr]; exact h.nbig, ?_, by rw [hw]; exact h.width⟩, ?_, ?_, hhdr, by rw [b6, a6],
      by rw [b6, a6], ?_,
      fun b vs hv hb => b2 _ _ (a2 _ _ hv hb) (by omega)⟩
    · apply has_add
      · exact b2 _ _ (a2 _ _ h.has (by rw [lay_length]; omega)) (by rw [lay_length]; omega)
      · rw [← h.cur]; exact b2 _ _ a1 (by simp [Item.words])
    · rw [sizes_append, hcur]; simp only [sizes, Item.size]; omega
    · rw [hcur, b4]; omega
    · exact b5
    · intro i hi
      rw [List.mem_append] at hi
      rw [hw]
      rcases hi with hi | hi
      · exact h.ok i hi
      · simp only [List.mem_singleton] at hi
        subst hi
        exact ⟨o1, by omega⟩
    · rw [hhdr, hcur]; have := h.fsiz; omega
    · rw [hcur]; omega
    · exact ⟨1, _, by rw [hcur]; exact b1⟩
    · rw [hcur, b4]; omega
    · rw [hcur]; rfl
  case isFalse hl =>
    simp only [Option.some.injEq] at hp
    obtain ⟨a1, a2, -, a4, a5, a6⟩ := wawrit_props
      (ws := [word0 127 junk, BitVec.ofNat 32 (s.cur + 1)]) h.fs h.fd
    rw [hp] at a1 a2 a4 a5 a6
    simp only [List.length_cons, List.length_nil] at a4
    have hcur : s'.cur = s.cur := by rw [a6]
    have hhdr : s'.hdr = s.hdr := by rw [a6]
    have hit : (Op.weo level junk).items s.cur = [] := by simp [Op.items, hl]
    rw [hit, List.append_nil]
    have hw : s'.width = s.width := by simp only [St.width, hhdr]
    refine ⟨⟨by rw [hhdr]; exact h.hok, by rw [hhdr]; exact h.hlng, by rw [hhdr]; exact h.rw,
      by rw [hhdr]; exact h.vrsn, by rw [hhdr]; exact h.nbd, by rw [hhdr]; exact h.sign, ?_, ?_, ?_, ?_,
      ?_, ?_, by rw [hhdr]; exact h.nbig, ?_, by rw [hw]; exact h.width⟩, ?_, ?_, hhdr, by rw [a6],
      by rw [a6], ?_, fun b vs hv hb => a2 _ _ hv hb⟩
    · exact a2 _ _ h.has (by rw [lay_length, h.cur]; exact Nat.le_refl _)
    · rw [hcur, h.cur]
    · rw [hcur, a4]; omega
    · exact a5
    · intro i hi; rw [hw]; exact h.ok i hi
    · rw [hhdr, hcur]; exact h.fsiz
    · rw [hcur]; exact h.small
    · exact ⟨junk, _, by rw [hcur]; exact a1⟩
    · rw [hcur, a4]; omega
    · rw [hcur]; simp [sizes]

/-- What is known once something is written. -/
structure Done (s : St) (H : Nat) (items : List Item) : Prop extends Inv s H items where
  eof : Eof s.d s.cur
  room : s.cur + 2 ≤ s.fsize

theorem Inv.step {s s' : St} {H : Nat} {items : List Item} (h : Inv s H items) (op : Op)
    (hok : op.Ok s.width) (hp : XdfSeq.step s op = some s') :
    Done s' H (items ++ op.items s.cur) ∧ s'.width = s.width ∧ s'.bof = s.bof ∧ s'.head = s.head ∧
      s'.hdr.rwflg = s.hdr.rwflg ∧ s'.cur = s.cur + sizes (op.items s.cur) ∧
      (∀ b vs, Has s.d b vs → b + vs.length ≤ s.cur → Has s'.d b vs) ∧ s'.hdr.lng = s.hdr.lng := by
  cases op with
  | put data junk =>
    have hl := h.hlng
    obtain ⟨a, b, c, e, f, g, h, i, j⟩ := h.put data junk hok hp
    have hl' := a.hlng
    refine ⟨⟨a, b, c⟩, ?_, f, g, h, ?_, j, by omega⟩
    · simp only [St.width, e]
    · rw [i]; simp only [Op.items, sizes, Item.size]; omega
  | weo level junk =>
    obtain ⟨a, b, c, e, f, g, h, j⟩ := h.weo level junk hok hp
    exact ⟨⟨a, b, c⟩, by simp only [St.width, e], f, g, by rw [e], h, j, by rw [e]⟩

theorem Inv.run {H : Nat} (ops : List Op) : ∀ (s s' : St) (items : List Item), Inv s H items →
    (∀ op ∈ ops, op.Ok s.width) → XdfSeq.run s ops = some s' →
    Inv s' H (items ++ itemsOf s.cur ops) ∧ (ops ≠ [] → Done s' H (items ++ itemsOf s.cur ops)) ∧
      s'.width = s.width ∧ s'.bof = s.bof ∧ s'.head = s.head ∧ s'.hdr.rwflg = s.hdr.rwflg ∧
      (∀ b vs, Has s.d b vs → b + vs.length ≤ s.cur → Has s'.d b vs) ∧
      s'.cur = s.cur + sizes (itemsOf s.cur ops) ∧ s'.hdr.lng = s.hdr.lng := by
  induction ops with
  | nil =>
    intro s s' items h _ hr
    simp only [XdfSeq.run, Option.some.injEq] at hr
    subst hr
    simp only [itemsOf, List.append_nil, ne_eq, not_true_eq_false, false_implies, sizes, Nat.add_zero,
      and_true, true_and]
    exact ⟨h, fun b vs hv _ => hv⟩
  | cons op ops ih =>
    intro s s' items h hok hr
    simp only [XdfSeq.run] at hr
    split at hr
    · exact absurd hr (by simp)
    case h_2 s1 hs =>
    obtain ⟨a, b, c, e, f, g, p, q⟩ := h.step op (hok op (by simp)) hs
    obtain ⟨i, j, k, l, m, n, x, y, z⟩ := ih s1 s' _ a.toInv (fun o ho => by rw [b]; exact hok o (by simp [ho])) hr
    rw [g, List.append_assoc] at i j
    refine ⟨i, fun _ => ?_, by rw [k, b], by rw [l, c], by rw [m, e], by rw [n, f],
      fun b vs hv hb => x _ _ (p _ _ hv hb) (by omega), ?_, by rw [z, q]⟩
    rotate_left
    · rw [y, g]; simp only [itemsOf, sizes_append]; omega
    cases ops with
    | nil =>
      simp only [XdfSeq.run, Option.some.injEq] at hr
      subst hr
      simpa [itemsOf] using a
    | cons o os => exact j (by simp)

/-- `fsiz` grows by no more than the position. -/
theorem step_fsiz {s s' : St} {op : Op} (h : XdfSeq.step s op = some s') :
    2 * s'.hdr.fsiz + s.cur ≤ 2 * s.hdr.fsiz + s'.cur := by
  have hw : ∀ (s : St) a ws, (s.wawrit a ws).hdr = s.hdr ∧ (s.wawrit a ws).cur = s.cur := by
    intro s a ws; unfold St.wawrit; split <;> exact ⟨rfl, rfl⟩
  cases op with
  | put data junk =>
    simp only [XdfSeq.step] at h
    split at h
    case h_2 => exact absurd h (by simp)
    case h_1 s1 hput =>
    simp only [Option.some.injEq] at h
    subst h
    unfold XdfSeq.put at hput
    split at hput
    · simp at hput
    split at hput
    · simp at hput
    split at hput
    · simp at hput
    · dsimp only at hput
      simp only [Option.some.injEq, Prod.mk.injEq, and_true] at hput
      subst hput
      dsimp only
      omega
  | weo level junk =>
    simp only [XdfSeq.step, XdfSeq.weo] at h
    split at h
    · exact absurd h (by simp)
    split at h
    · simp only [Option.some.injEq] at h
      subst h
      simp only [(hw _ _ _).1, (hw _ _ _).2]; omega
    · simp only [Option.some.injEq] at h
      subst h
      simp only [(hw _ _ _).1, (hw _ _ _).2]; omega

theorem run_fsiz (ops : List Op) : ∀ (s s' : St), XdfSeq.run s ops = some s' →
    2 * s'.hdr.fsiz + s.cur ≤ 2 * s.hdr.fsiz + s'.cur := by
  induction ops with
  | nil =>
    intro s s' h
    simp only [XdfSeq.run, Option.some.injEq] at h
    subst h; exact Nat.le_refl _
  | cons op ops ih =>
    intro s s' h
    simp only [XdfSeq.run] at h
    split at h
    · exact absurd h (by simp)
    case h_2 s1 hs =>
    have := step_fsiz hs
    have := ih s1 s' h
    omega

/-- The header of a closed file can be read. -/
theorem Done.close {s : St} {H : Nat} {items : List Item} (h : Done s H items) :
    Has (XdfSeq.close s) 0 { s.hdr with rwflg := 0 }.words ∧ Has (XdfSeq.close s) H (lay H items) ∧
      Eof (XdfSeq.close s) s.cur := by
  have hcur := h.cur
  have hroom := h.room
  have hfd := h.fd
  have hl : s.hdr.words.length = H := by rw [Header.words_length h.hok, h.hlng]
  have hok' : ({ s.hdr with rwflg := 0 } : Header).Ok :=
    ⟨h.hok.idtyp, h.hok.lng, h.hok.fsiz, h.hok.nbd, h.hok.nbig, h.hok.lprm, h.hok.nrec, by simp,
      h.hok.keys⟩
  have hl' : ({ s.hdr with rwflg := 0 } : Header).words.length = H := by
    rw [Header.words_length hok', ← h.hlng]
  obtain ⟨n, x, he⟩ := h.eof
  unfold XdfSeq.close
  dsimp only
  rw [if_pos h.rw, if_pos h.rw]
  obtain ⟨a1, a2, a3, a4, a5, a6⟩ := wawrit_props (s := s) (a := 0) (ws := s.hdr.words) (by omega) hfd
  generalize s.wawrit 0 s.hdr.words = s1 at a1 a2 a3 a4 a5 a6
  have b2 := a3 _ _ h.has (by omega) (by rw [lay_length]; omega)
  have b3 := a3 _ _ he (by omega) (by simp; omega)
  obtain ⟨s2, hs2, c1, c2, c3, c4⟩ : ∃ s2, s2 = (if s.modified then { s1 with d := s1.d.take s1.fsize } else s1) ∧
      Has s2.d H (lay H items) ∧ Has s2.d s.cur [word0 127 n, x] ∧ s2.fsize = s1.fsize ∧
      s2.fsize ≤ s2.d.length := by
    by_cases hm : s.modified = true
    · rw [if_pos hm]
      refine ⟨_, rfl, ?_, ?_, rfl, ?_⟩
      · intro i hi
        rw [List.getElem?_take_of_lt (by rw [lay_length] at hi; omega)]; exact b2 i hi
      · intro i hi
        rw [List.getElem?_take_of_lt (by simp at hi; omega)]; exact b3 i hi
      · dsimp only; rw [List.length_take]; omega
    · rw [if_neg hm]
      exact ⟨s1, rfl, b2, b3, rfl, a5⟩
  rw [← hs2]
  obtain ⟨d1, d2, d3, d4, d5, d6⟩ := wawrit_props (s := s2) (a := 0)
    (ws := { s.hdr with rwflg := 0 }.words) (by omega) c4
  exact ⟨d1, d3 _ _ c1 (by omega) (by rw [lay_length]; omega), n, x,
    d3 _ _ c2 (by omega) (by simp; omega)⟩

theorem Done.reopen {s : St} {H : Nat} {items : List Item} (h : Done s H items) (mode : Nat) :
    ∃ s0, openFile (XdfSeq.close s) mode = some (.ok s0) ∧ s0.hdr = { s.hdr with rwflg := mode } ∧
      s0.d = XdfSeq.close s ∧ s0.cur = H ∧ s0.bof = H ∧ s0.width = s.width ∧
      s0.head = List.replicate s.width 0#32 ∧ s0.valid = false ∧ s0.fsize = s0.d.length ∧
      View s0.d H items s.width 127 := by
  obtain ⟨c1, c2, c3⟩ := h.close
  have hok' : ({ s.hdr with rwflg := 0 } : Header).Ok :=
    ⟨h.hok.idtyp, h.hok.lng, h.hok.fsiz, h.hok.nbd, h.hok.nbig, h.hok.lprm, h.hok.nrec, by simp,
      h.hok.keys⟩
  have hl' : ({ s.hdr with rwflg := 0 } : Header).words.length = 2 * s.hdr.lng :=
    Header.words_length hok'
  have hk := h.hok.keys
  have hlg := h.hok.lng
  have r4 : readAt (XdfSeq.close s) 0 4 = some (({ s.hdr with rwflg := 0 } : Header).words.take 4) := by
    rw [← List.take_append_drop 4 ({ s.hdr with rwflg := 0 } : Header).words, has_append] at c1
    refine has_read c1.1 ?_ (by omega)
    rw [List.length_take, hl']; omega
  have rh : readAt (XdfSeq.close s) 0 (2 * s.hdr.lng) = some ({ s.hdr with rwflg := 0 } : Header).words :=
    has_read c1 hl' (by omega)
  have g0 : (({ s.hdr with rwflg := 0 } : Header).words.take 4).getD 0 0#32 =
      word0 s.hdr.idtyp s.hdr.lng := by simp [Header.words, word0]
  have g2 : (({ s.hdr with rwflg := 0 } : Header).words.take 4).getD 2 0#32 = 0x58444630#32 := by
    simp [Header.words, h.vrsn]
  have g3 : (({ s.hdr with rwflg := 0 } : Header).words.take 4).getD 3 0#32 = s.hdr.sign := by
    simp [Header.words]
  refine ⟨{ hdr := { s.hdr with rwflg := mode }, d := XdfSeq.close s, fsize := (XdfSeq.close s).length,
            cur := 2 * s.hdr.lng, bof := 2 * s.hdr.lng, head := List.replicate (2 * s.hdr.lprm) 0#32,
            valid := false, modified := false }, ?_, rfl, rfl, h.hlng, h.hlng, rfl, rfl, rfl, rfl, ?_⟩
  · unfold openFile
    rw [r4]
    dsimp only
    rw [g0, g2, g3, if_pos (Or.inl rfl), lng_word0 hlg, rh]
    dsimp only
    rw [Header.ofWords_words hok']
    dsimp only
    rw [if_neg (by simp), if_neg (by simp [h.nbd]), if_neg (by
      intro hc; rcases hc with hc | hc
      · exact h.sign.1 hc
      · exact h.sign.2 hc)]
  · have hc := h.cur
    have hsm := h.small
    have hh := h.hlng
    refine ⟨c2, ?_, Or.inl rfl, h.ok, by omega, by omega, h.width⟩
    rw [← h.cur]; exact c3

/-- A created file. -/
theorem create_inv (sign : W) (nprm : BitVec 16) (lprm : Nat) (auxw : W) (keys : List W)
    (hl : 1 ≤ lprm) (hl2 : lprm < 2 ^ 16) (hk : keys.length % 2 = 0) (hk2 : keys.length < 2 ^ 20)
    (hs : sign ≠ 0x53544452#32 ∧ sign ≠ 0x73746472#32) :
    Inv (create sign nprm lprm auxw keys) (keys.length + 16) [] := by
  have hw : (create sign nprm lprm auxw keys).d.length = keys.length + 16 := by
    simp [create, Header.words]
  refine ⟨⟨?_, ?_, ?_, ?_, ?_, ?_, ?_, ?_, ?_⟩, ?_, ?_, rfl, rfl, hs, ?_, ?_, ?_, ?_, ?_, ?_, ?_, ?_, ?_⟩
  all_goals try (intro i hi; simp [lay] at hi; done)
  all_goals try (dsimp only [create, sizes, St.width, CREATE, RDMODE]; omega)
  · simp only [create, Header.words, List.length_append, List.length_cons, List.length_nil]; omega

/-! ## Appending to a closed file -/

def Item.isRecord : Item → Bool
  | .record _ _ => true
  | .mark _ => false

theorem appLoop_stop (fuel : Nat) (s : St) (hh : s.head.length = s.width)
    (hw : 2 ≤ s.width) (id n : Nat) (x : W) (h1 : 112 ≤ id) (h2 : id ≤ 127)
    (hd : Has s.d s.cur [word0 id n, x]) :
    ∃ h, appLoop (fuel + 1) s = some { s with head := h } ∧ h.length = s.width := by
  obtain ⟨e1, e2, e3, e4⟩ := readHead_props s hh
  obtain ⟨h0, hl⟩ := waread2_head (n := s.width) hd (by omega)
  have hg : s.readHead.1.head.getD 0 0#32 = word0 id n := by rw [e4]; exact getD_append0 hl h0
  have hlt := has_lt hd (by simp)
  simp only [List.length_cons, List.length_nil] at hlt
  refine ⟨s.readHead.1.head, ?_, e2⟩
  rw [appLoop]
  dsimp only
  rw [hg, idtyp_word0 (by omega), e3,
    if_neg (by simp only [waread2, List.length_take, List.length_drop]; omega), if_pos ⟨h1, h2⟩]
  rw [← e1]

theorem appLoop_go (fuel : Nat) (s : St) (hh : s.head.length = s.width)
    (hw : 2 ≤ s.width) (id n : Nat) (x : W) (h1 : id < 112) (hn : n < 2 ^ 24)
    (hd : Has s.d s.cur [word0 id n, x]) :
    ∃ h, appLoop (fuel + 1) s = appLoop fuel { s with head := h, cur := s.cur + 2 * n } ∧
      h.length = s.width := by
  obtain ⟨e1, e2, e3, e4⟩ := readHead_props s hh
  obtain ⟨h0, hl⟩ := waread2_head (n := s.width) hd (by omega)
  have hg : s.readHead.1.head.getD 0 0#32 = word0 id n := by rw [e4]; exact getD_append0 hl h0
  have hlt := has_lt hd (by simp)
  simp only [List.length_cons, List.length_nil] at hlt
  refine ⟨s.readHead.1.head, ?_, e2⟩
  rw [appLoop]
  dsimp only
  rw [hg, idtyp_word0 (by omega), lng_word0 hn, e3,
    if_neg (by simp only [waread2, List.length_take, List.length_drop]; omega), if_neg (by omega)]
  congr 1

theorem appLoop_view (items : List Item) : ∀ (fuel : Nat) (s : St) (width : Nat), s.width = width →
    s.head.length = width → View s.d s.cur items width 127 → 2 * items.length < fuel →
    ∃ h, appLoop fuel s =
        some { s with head := h, cur := s.cur + sizes (items.takeWhile Item.isRecord) } ∧
      h.length = width := by
  induction items with
  | nil =>
    intro fuel s width hsw hh v hf
    obtain ⟨n, x, he⟩ := v.eof
    simp only [sizes, Nat.add_zero] at he
    obtain ⟨f, rfl⟩ : ∃ f, fuel = f + 1 := ⟨fuel - 1, by simp at hf; omega⟩
    obtain ⟨h, e1, e2⟩ := appLoop_stop f s (by rw [hh, hsw]) (by rw [hsw]; exact v.width)
      127 n x (by omega) (by omega) he
    exact ⟨h, by simpa [sizes] using e1, by rw [e2, hsw]⟩
  | cons i r ih =>
    intro fuel s width hsw hh v hf
    have hi := v.ok i (by simp)
    cases i with
    | mark l =>
      obtain ⟨l1, l2⟩ := hi
      obtain ⟨f, rfl⟩ : ∃ f, fuel = f + 1 := ⟨fuel - 1, by simp at hf; omega⟩
      obtain ⟨h, e1, e2⟩ := appLoop_stop f s (by rw [hh, hsw]) (by rw [hsw]; exact v.width)
        (112 + l) 1 _ (by omega) (by omega) v.head
      exact ⟨h, by simpa [sizes, Item.isRecord] using e1, by rw [e2, hsw]⟩
    | record id body =>
      obtain ⟨o1, o2, o3, o4, o5⟩ := hi
      obtain ⟨f, rfl⟩ : ∃ f, fuel = f + 2 := ⟨fuel - 2, by simp at hf; omega⟩
      obtain ⟨p1, p2⟩ := has_record v.head
      have q1 : Has s.d s.cur [word0 id ((body.length + 2) / 2), BitVec.ofNat 32 (s.cur / 2 + 1)] := by
        rw [show word0 id ((body.length + 2) / 2) :: BitVec.ofNat 32 (s.cur / 2 + 1) :: body =
          [word0 id ((body.length + 2) / 2), BitVec.ofNat 32 (s.cur / 2 + 1)] ++ body from rfl,
          has_append] at p1
        exact p1.1
      have q2 : Has s.d (s.cur + (body.length + 2)) [word0 0 2, BitVec.ofInt 32 (-1)] := by
        rw [show postfix_ id ((body.length + 2) / 2) (s.cur / 2 + 1) =
          [word0 0 2, BitVec.ofInt 32 (-1)] ++ [word0 id ((body.length + 2) / 2),
            BitVec.ofNat 32 (s.cur / 2 + 1)] from rfl, has_append] at p2
        exact p2.1
      obtain ⟨h, e1, e2⟩ := appLoop_go (f + 1) s (by rw [hh, hsw]) (by rw [hsw]; exact v.width)
        id _ _ (by omega) (by omega) q1
      rw [show s.cur + 2 * ((body.length + 2) / 2) = s.cur + (body.length + 2) by omega] at e1
      obtain ⟨h', e3, e4⟩ := appLoop_go f { s with head := h, cur := s.cur + (body.length + 2) }
        e2 (by exact hsw ▸ v.width) 0 2 _ (by omega) (by omega) q2
      obtain ⟨h'', e5, e6⟩ := ih f { s with head := h', cur := s.cur + (body.length + 6) } width hsw
        (by rw [← hsw]; exact e4) (by simpa [Item.size] using v.tail) (by simp at hf; omega)
      refine ⟨h'', ?_, e6⟩
      rw [e1, e3]
      simp only at e5 ⊢
      rw [show s.cur + (body.length + 2) + 2 * 2 = s.cur + (body.length + 6) by omega, e5]
      simp only [List.takeWhile_cons, Item.isRecord, if_true, sizes, Item.size, Nat.add_assoc]

end Verif.XdfSeq
