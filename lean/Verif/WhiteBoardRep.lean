import Mathlib.Data.List.Forall2
import Verif.WhiteBoard

/-!
Representation of whiteboard pages: the memory of a page is the concatenation of the images
of its variables followed by free lines.
-/
namespace WhiteBoard

/-! ### Words, flags -/

theorem rd32_le32 (n : Nat) (r : List Byte) : rd32 (le32 n ++ r) = n % 4294967296 := by
  simp only [le32, rd32, List.cons_append, List.nil_append, BitVec.toNat_ofNat,
    Nat.reducePow]
  omega

theorem le32_length (n : Nat) : (le32 n).length = 4 := rfl

/-- Fields small enough for their bits. -/
def Flags.Valid (f : Flags) : Prop := f.type < 8 ∧ f.elementsize < 1024 ∧ f.lines < 1024

theorem bitAt_eq {n k : Nat} {b : Bool} (h : n / k % 2 = b.toNat) : bitAt n k = b := by
  unfold bitAt
  cases b <;> simp_all

theorem pack_lt (f : Flags) : f.pack < 4294967296 := by
  unfold Flags.pack
  have h1 := Bool.toNat_lt f.array
  have h2 := Bool.toNat_lt f.fromrestart
  have h3 := Bool.toNat_lt f.readonly
  have h4 := Bool.toNat_lt f.badval
  have h5 := Bool.toNat_lt f.islocal
  have h6 := Bool.toNat_lt f.resetuntil
  have h7 := Bool.toNat_lt f.resetmany
  have h8 := Bool.toNat_lt f.noreset
  have h9 := Bool.toNat_lt f.initialized
  omega

theorem unpack_pack {f : Flags} (h : f.Valid) : Flags.unpack f.pack = f := by
  obtain ⟨ht, he, hl⟩ := h
  have h1 := Bool.toNat_lt f.array
  have h2 := Bool.toNat_lt f.fromrestart
  have h3 := Bool.toNat_lt f.readonly
  have h4 := Bool.toNat_lt f.badval
  have h5 := Bool.toNat_lt f.islocal
  have h6 := Bool.toNat_lt f.resetuntil
  have h7 := Bool.toNat_lt f.resetmany
  have h8 := Bool.toNat_lt f.noreset
  have h9 := Bool.toNat_lt f.initialized
  cases f
  simp only [Flags.unpack, Flags.pack, Flags.mk.injEq] at *
  refine ⟨by omega, ?_, ?_, ?_, by omega, ?_, ?_, ?_, ?_, ?_, ?_, by omega⟩ <;>
    (apply bitAt_eq; omega)

/-! ### Writes -/

theorem write_mid (A x B y : List Byte) (h : y.length = x.length) :
    write (A ++ (x ++ B)) A.length y = some (A ++ (y ++ B)) := by
  unfold write
  rw [if_pos (by simp; omega)]
  congr 1
  rw [List.take_left, List.append_assoc, ← List.drop_drop, List.drop_left, h, List.drop_left]

theorem write_length {m m' bs : List Byte} {o : Nat} (h : write m o bs = some m') :
    m'.length = m.length := by
  unfold write at h
  split at h
  · injection h with h
    subst h
    simp
    omega
  · cases h

theorem write_in {m m' bs : List Byte} {o : Nat} (A B : List Byte)
    (h : write m o bs = some m') :
    write (A ++ (m ++ B)) (A.length + o) bs = some (A ++ (m' ++ B)) := by
  unfold write at h ⊢
  split at h
  · rename_i hl
    injection h with h
    subst h
    rw [if_pos (by simp; omega)]
    congr 1
    rw [List.take_append, List.take_of_length_le (by omega), Nat.add_sub_cancel_left,
      List.take_append_of_le_length (by omega), Nat.add_assoc, List.drop_length_add_append,
      List.drop_append_of_le_length hl]
    simp [List.append_assoc]
  · cases h

theorem write_some {m bs : List Byte} {o : Nat} (h : o + bs.length ≤ m.length) :
    ∃ m', write m o bs = some m' := by
  unfold write
  exact ⟨_, if_pos h⟩

/-- Bytes read back from where they were written. -/
theorem write_read {m m' bs : List Byte} {o : Nat} (h : write m o bs = some m') :
    (m'.drop o).take bs.length = bs := by
  unfold write at h
  split at h
  · injection h with h
    subst h
    rw [List.append_assoc, List.drop_append_of_le_length (by simp; omega),
      List.drop_of_length_le (by simp; omega), List.nil_append, List.take_left]
  · cases h

/-- Bytes before the written ones are kept. -/
theorem write_take {m m' bs : List Byte} {o : Nat} (h : write m o bs = some m') (k : Nat)
    (hk : k ≤ o) : m'.take k = m.take k := by
  unfold write at h
  split at h
  · injection h with h
    subst h
    rw [List.append_assoc, List.take_append_of_le_length (by simp; omega), List.take_take,
      Nat.min_eq_left hk]
  · cases h

/-- Bytes after the written ones are kept. -/
theorem write_drop {m m' bs : List Byte} {o : Nat} (h : write m o bs = some m') (k : Nat)
    (hk : o + bs.length ≤ k) : m'.drop k = m.drop k := by
  unfold write at h
  split at h
  · injection h with h
    subst h
    rw [List.drop_append, List.drop_of_length_le (by simp; omega), List.nil_append,
      List.drop_drop]
    congr 1
    simp
    omega
  · cases h

/-! ### Names -/

theorem up_up (c : Byte) : up (up c) = up c := by
  unfold up
  by_cases h : 97 ≤ c.toNat ∧ c.toNat ≤ 122
  · rw [if_pos h, if_neg]
    have : (c - 32#8).toNat = c.toNat - 32 := by
      rw [BitVec.toNat_sub]
      simp only [BitVec.toNat_ofNat, Nat.reducePow, Nat.reduceMod]
      omega
    omega
  · rw [if_neg h, if_neg h]

theorem up_zero {c : Byte} (h : c ≠ 0#8) : up c ≠ 0#8 := by
  unfold up
  by_cases hc : 97 ≤ c.toNat ∧ c.toNat ≤ 122
  · rw [if_pos hc]
    intro h0
    have : (c - 32#8).toNat = 0 := by rw [h0]; rfl
    rw [BitVec.toNat_sub] at this
    simp only [BitVec.toNat_ofNat, Nat.reducePow, Nat.reduceMod] at this
    omega
  · rw [if_neg hc]
    exact h

theorem matchName_eq (a b x y : List Byte) (hl : a.length = b.length) (ha : 0#8 ∉ a)
    (hb : 0#8 ∉ b) :
    matchName (a ++ x) (b ++ y) a.length = decide (a.map up = b.map up) := by
  induction a generalizing b with
  | nil =>
    cases b with
    | nil => simp [matchName]
    | cons _ _ => simp at hl
  | cons c a ih =>
    cases b with
    | nil => simp at hl
    | cons d b =>
      simp only [List.length_cons, Nat.add_right_cancel_iff, List.mem_cons, not_or] at hl ha hb
      simp only [List.cons_append, List.length_cons, matchName]
      rw [if_neg (by rintro (h | h); exact ha.1 h.symm; exact hb.1 h.symm)]
      by_cases hcd : up c = up d
      · rw [if_neg (by simp [hcd]), ih b hl ha.2 hb.2]
        simp [hcd]
      · rw [if_pos hcd]
        simp [hcd]

/-- The 27 characters that identify a variable. -/
def keyOf (name : List Byte) : List Byte :=
  (((trim name).take 27) ++ List.replicate (27 - (trim name).length) blank).map up

theorem fillLine_key (name : List Byte) : fillLine (trim name) = keyOf name ++ [0#8] := rfl

theorem keyOf_length (name : List Byte) : (keyOf name).length = 27 := by
  unfold keyOf
  simp
  omega

theorem mem_trim {c : Byte} {s : List Byte} (h : c ∈ trim s) : c ∈ s := by
  unfold trim at h
  rw [List.mem_reverse] at h
  exact List.mem_reverse.1 ((List.dropWhile_sublist _).mem h)

theorem keyOf_nonul {name : List Byte} (h : 0#8 ∉ name) : 0#8 ∉ keyOf name := by
  unfold keyOf
  rw [List.mem_map]
  rintro ⟨c, hc, h0⟩
  have : c ≠ 0#8 := by
    rintro rfl
    rw [List.mem_append] at hc
    rcases hc with hc | hc
    · exact h (mem_trim (List.mem_of_mem_take hc))
    · have := List.eq_of_mem_replicate hc
      exact absurd this (by decide)
  exact up_zero this h0

theorem keyOf_up (name : List Byte) : (keyOf name).map up = keyOf name := by
  unfold keyOf
  rw [List.map_map]
  apply List.map_congr_left
  intro c _
  exact up_up c

/-! ### Variables in a page -/

/-- A variable: name, flags, and the bytes after the flags (value or array description,
then the following lines). -/
structure Ent where
  key : List Byte
  fl : Flags
  area : List Byte

/-- The image of a variable in memory. -/
def Ent.enc (e : Ent) : List Byte := e.key ++ ([0#8] ++ (le32 e.fl.pack ++ e.area))

/-- The number of lines taken. -/
def Ent.span (e : Ent) : Nat := (e.area.length + 32) / 40

/-- `maxElements`. -/
def Ent.max (e : Ent) : Int := int32 (rd32 (e.area.drop 4))

structure EntOk (e : Ent) : Prop where
  key : e.key.length = 27
  nonul : 0#8 ∉ e.key
  upper : e.key.map up = e.key
  valid : e.fl.Valid
  area : e.area.length + 32 = 40 * e.span
  lines : e.fl.lines = if e.span > 32 then 0 else e.span
  size : e.fl.type ≠ WB_CHAR → e.fl.elementsize = 4 ∨ e.fl.elementsize = 8
  bool : e.fl.type = WB_BOOL → e.fl.elementsize = 4
  scalar : e.fl.array = false → e.fl.elementsize ≤ e.area.length
  four : e.fl.array = false → e.fl.type ≠ WB_CHAR → e.fl.elementsize = 4 → e.max = 0
  array : e.fl.array = true → 1 ≤ e.max ∧ 8 + e.max.toNat * e.fl.elementsize ≤ e.area.length

theorem EntOk.span_pos {e : Ent} (h : EntOk e) : 1 ≤ e.span := by
  have := h.area
  omega

theorem EntOk.area_ge {e : Ent} (h : EntOk e) : 8 ≤ e.area.length := by
  have := h.area
  have := h.span_pos
  omega

theorem EntOk.enc_length {e : Ent} (h : EntOk e) : e.enc.length = 40 * e.span := by
  unfold Ent.enc
  simp only [List.length_append, h.key, le32_length, List.length_singleton]
  have := h.area
  omega

/-- The variable `e` lies in page `p` at line `i`. -/
structure At (p : Page) (i : Nat) (e : Ent) (A B : List Byte) : Prop where
  mem : p.mem = A ++ (e.enc ++ B)
  pos : A.length = 40 * i
  key : e.key.length = 27

section at_line
variable {p : Page} {i : Nat} {e : Ent} {A B : List Byte}

theorem At.nameAt (h : At p i e A B) : p.nameAt i = e.key ++ [0#8] := by
  unfold Page.nameAt
  rw [h.mem, ← h.pos, List.drop_left]
  unfold Ent.enc
  rw [List.append_assoc, ← List.append_assoc e.key, ← List.append_assoc e.key]
  rw [show (28 : Nat) = (e.key ++ [0#8]).length by simp [h.key]]
  rw [List.append_assoc, List.append_assoc, ← List.append_assoc e.key, List.take_left]

theorem At.drop28 (h : At p i e A B) :
    p.mem.drop (40 * i + 28) = le32 e.fl.pack ++ (e.area ++ B) := by
  rw [h.mem, ← h.pos, ← List.drop_drop, List.drop_left]
  unfold Ent.enc
  rw [show e.key ++ ([0#8] ++ (le32 e.fl.pack ++ e.area)) ++ B =
    (e.key ++ [0#8]) ++ (le32 e.fl.pack ++ (e.area ++ B)) by simp [List.append_assoc]]
  rw [show (28 : Nat) = (e.key ++ [0#8]).length by simp [h.key], List.drop_left]

theorem At.drop32 (h : At p i e A B) : p.mem.drop (40 * i + 32) = e.area ++ B := by
  rw [show 40 * i + 32 = 40 * i + 28 + 4 by omega, ← List.drop_drop, h.drop28]
  rw [show (4 : Nat) = (le32 e.fl.pack).length from rfl, List.drop_left]

theorem At.drop40 (h : At p i e A B) (ha : 8 ≤ e.area.length) :
    p.mem.drop (40 * (i + 1)) = e.area.drop 8 ++ B := by
  rw [show 40 * (i + 1) = 40 * i + 32 + 8 by omega, ← List.drop_drop, h.drop32,
    List.drop_append_of_le_length ha]

theorem At.flagsAt (h : At p i e A B) (hv : e.fl.Valid) : p.flagsAt i = e.fl := by
  unfold Page.flagsAt
  rw [h.drop28, rd32_le32, Nat.mod_eq_of_lt (pack_lt _), unpack_pack hv]

theorem rd32_append {l r : List Byte} (h : 4 ≤ l.length) : rd32 (l ++ r) = rd32 l := by
  match l with
  | a :: b :: c :: d :: l => rfl
  | [] => simp at h
  | [_] => simp at h
  | [_, _] => simp at h
  | [_, _, _] => simp at h

theorem At.maxAt (h : At p i e A B) (ha : 8 ≤ e.area.length) : p.maxAt i = e.max := by
  unfold Page.maxAt Ent.max
  rw [show 40 * i + 36 = 40 * i + 32 + 4 by omega, ← List.drop_drop, h.drop32,
    List.drop_append_of_le_length (by omega), rd32_append]
  rw [List.length_drop]
  omega

/-- The page with another variable in the place of this one. -/
def put_at (p : Page) (A B : List Byte) (e : Ent) : Page := { p with mem := A ++ (e.enc ++ B) }

theorem At.setFlags (h : At p i e A B) (f : Flags) :
    p.setFlags i f = some (put_at p A B { e with fl := f }) := by
  unfold Page.setFlags
  have : write p.mem (40 * i + 28) (le32 f.pack) =
      some (A ++ (Ent.enc { e with fl := f } ++ B)) := by
    rw [h.mem]
    unfold Ent.enc
    rw [show A ++ (e.key ++ ([0#8] ++ (le32 e.fl.pack ++ e.area)) ++ B) =
      (A ++ (e.key ++ [0#8])) ++ (le32 e.fl.pack ++ (e.area ++ B)) by simp [List.append_assoc]]
    rw [show 40 * i + 28 = (A ++ (e.key ++ [0#8])).length by simp [h.key, h.pos]]
    rw [write_mid _ (le32 e.fl.pack) _ (le32 f.pack) rfl]
    simp [List.append_assoc]
  rw [this]
  rfl

theorem At.write (h : At p i e A B) {o : Nat} {bs area' : List Byte}
    (hw : write e.area o bs = some area') :
    write p.mem (40 * i + 32 + o) bs =
      some (put_at p A B { e with area := area' }).mem := by
  rw [h.mem]
  unfold Ent.enc put_at
  rw [show A ++ (e.key ++ ([0#8] ++ (le32 e.fl.pack ++ e.area)) ++ B) =
    (A ++ (e.key ++ ([0#8] ++ le32 e.fl.pack))) ++ (e.area ++ B) by simp [List.append_assoc]]
  rw [show 40 * i + 32 + o = (A ++ (e.key ++ ([0#8] ++ le32 e.fl.pack))).length + o by
    simp [h.key, h.pos, le32_length]]
  rw [write_in _ _ hw]
  simp [List.append_assoc, Ent.enc]

end at_line

/-! ### Pages -/

/-- The free memory of a page after its variables. -/
structure Rep (p : Page) (es : List Ent) : Prop where
  mem : ∃ free, p.mem = es.flatMap Ent.enc ++ free
  len : p.mem.length = 40 * p.nbLines
  used : p.firstFree = (es.map Ent.span).sum
  ok : ∀ e ∈ es, EntOk e
  big : p.nbLines ≤ 32 ∨ (∃ e, es = [e]) ∧ p.firstFree = p.nbLines
  bound : p.nbLines < 2147483648
  pos : 1 ≤ p.nbLines

theorem enc_sum {es : List Ent} (h : ∀ e ∈ es, EntOk e) :
    (es.flatMap Ent.enc).length = 40 * (es.map Ent.span).sum := by
  induction es with
  | nil => rfl
  | cons e es ih =>
    rw [List.flatMap_cons, List.length_append, (h e (by simp)).enc_length,
      ih (fun e he => h e (by simp [he])), List.map_cons, List.sum_cons]
    omega

theorem Rep.fits {p : Page} {es : List Ent} (h : Rep p es) : p.firstFree ≤ p.nbLines := by
  obtain ⟨free, hf⟩ := h.mem
  have h1 := enc_sum h.ok
  have h2 := h.len
  rw [hf, List.length_append, h1] at h2
  have := h.used
  omega

/-- Lines at which the variables begin. -/
def offs : Nat → List Ent → List Nat
  | _, [] => []
  | i, e :: es => i :: offs (i + e.span) es

theorem startsFrom_small (p : Page) (es : List Ent) (A free : List Byte) (i fuel : Nat)
    (hm : p.mem = A ++ (es.flatMap Ent.enc ++ free)) (hA : A.length = 40 * i)
    (hff : p.firstFree = i + (es.map Ent.span).sum) (hok : ∀ e ∈ es, EntOk e)
    (hs : ∀ e ∈ es, e.span ≤ 32) (hfuel : es.length ≤ fuel) :
    startsFrom p fuel i = offs i es := by
  induction es generalizing A i fuel with
  | nil =>
    cases fuel with
    | zero => rfl
    | succ fuel =>
      unfold startsFrom
      rw [if_neg (by simp at hff; omega)]
      rfl
  | cons e es ih =>
    cases fuel with
    | zero => simp at hfuel
    | succ fuel =>
      have he := hok e (by simp)
      have hat : At p i e A (es.flatMap Ent.enc ++ free) :=
        ⟨by rw [hm, List.flatMap_cons, List.append_assoc], hA, he.key⟩
      have hsp := he.span_pos
      unfold startsFrom
      have hl : e.fl.lines = e.span := by
        rw [he.lines, if_neg (by have := hs e (by simp); omega)]
      rw [if_pos (by rw [hff]; simp; omega), hat.flagsAt he.valid, hl, if_neg (by omega)]
      rw [ih (A ++ e.enc) (i + e.span) fuel]
      · rfl
      · rw [hm, List.flatMap_cons]
        simp [List.append_assoc]
      · rw [List.length_append, hA, he.enc_length]
        omega
      · rw [hff, List.map_cons, List.sum_cons]
        omega
      · exact fun e h => hok e (by simp [h])
      · exact fun e h => hs e (by simp [h])
      · simpa using hfuel

theorem span_le_sum {es : List Ent} {e : Ent} (h : e ∈ es) :
    e.span ≤ (es.map Ent.span).sum := by
  induction es with
  | nil => cases h
  | cons a es ih =>
    rw [List.map_cons, List.sum_cons]
    rcases List.mem_cons.1 h with rfl | h
    · omega
    · have := ih h
      omega

theorem length_le_sum {es : List Ent} (h : ∀ e ∈ es, EntOk e) :
    es.length ≤ (es.map Ent.span).sum := by
  induction es with
  | nil => simp
  | cons a es ih =>
    rw [List.map_cons, List.sum_cons, List.length_cons]
    have := ih (fun e he => h e (by simp [he]))
    have := (h a (by simp)).span_pos
    omega

theorem Rep.starts {p : Page} {es : List Ent} (h : Rep p es) : p.starts = offs 0 es := by
  obtain ⟨free, hf⟩ := h.mem
  have hfit := h.fits
  unfold Page.starts
  by_cases hs : ∀ e ∈ es, e.span ≤ 32
  · refine startsFrom_small p es [] free 0 _ (by simpa using hf) rfl (by simp [h.used]) h.ok hs ?_
    rw [h.used]
    exact length_le_sum h.ok
  · rcases h.big with hb | ⟨⟨e, rfl⟩, hb⟩
    · exfalso
      apply hs
      intro e he
      have := span_le_sum he
      have := h.used
      omega
    · have he := h.ok e (by simp)
      have hsp : 32 < e.span := by
        refine Nat.lt_of_not_le fun hc => ?_
        apply hs
        intro e' he'
        rw [List.mem_singleton] at he'
        rw [he']
        exact hc
      have hat : At p 0 e [] free := ⟨by simpa using hf, rfl, he.key⟩
      have hu := h.used
      simp only [List.map_cons, List.map_nil, List.sum_cons, List.sum_nil] at hu
      obtain ⟨m, hm⟩ : ∃ m, p.firstFree = m + 1 := ⟨p.firstFree - 1, by omega⟩
      rw [hm]
      unfold startsFrom
      have hl : e.fl.lines = 0 := by rw [he.lines, if_pos (by omega)]
      rw [if_pos (by omega), hat.flagsAt he.valid, hl, if_pos rfl]
      rfl

/-- Splitting a page at one of its variables. -/
theorem Rep.at {p : Page} {es₁ es₂ : List Ent} {e : Ent} (h : Rep p (es₁ ++ e :: es₂)) :
    ∃ A B, At p ((es₁.map Ent.span).sum) e A B ∧ A = es₁.flatMap Ent.enc ∧
      ∃ free, B = es₂.flatMap Ent.enc ++ free := by
  obtain ⟨free, hf⟩ := h.mem
  refine ⟨es₁.flatMap Ent.enc, es₂.flatMap Ent.enc ++ free, ⟨?_, ?_, (h.ok e (by simp)).key⟩, rfl,
    free, rfl⟩
  · rw [hf, List.flatMap_append, List.flatMap_cons]
    simp [List.append_assoc]
  · exact enc_sum (fun e he => h.ok e (by simp [he]))

theorem find_offs_none {p : Page} (k : List Byte) (es : List Ent) (A free : List Byte) (i : Nat)
    (hm : p.mem = A ++ (es.flatMap Ent.enc ++ free)) (hA : A.length = 40 * i)
    (hok : ∀ e ∈ es, EntOk e) (hk : k.length = 27) (hk0 : 0#8 ∉ k) (hku : k.map up = k)
    (hn : ∀ e ∈ es, e.key ≠ k) :
    (offs i es).find? (fun i => matchName (p.nameAt i) (k ++ [0#8]) 27) = none := by
  induction es generalizing A i with
  | nil => rfl
  | cons e es ih =>
    have he := hok e (by simp)
    have hat : At p i e A (es.flatMap Ent.enc ++ free) :=
      ⟨by rw [hm, List.flatMap_cons, List.append_assoc], hA, he.key⟩
    unfold offs
    rw [List.find?_cons_of_neg]
    · apply ih (A ++ e.enc) (i + e.span)
      · rw [hm, List.flatMap_cons]
        simp [List.append_assoc]
      · rw [List.length_append, hA, he.enc_length]
        omega
      · exact fun e h => hok e (by simp [h])
      · exact fun e h => hn e (by simp [h])
    · rw [hat.nameAt]
      have := matchName_eq e.key k [0#8] [0#8] (by rw [he.key, hk]) he.nonul hk0
      rw [he.key, he.upper, hku] at this
      rw [this]
      simpa using hn e (by simp)

theorem find_offs_some {p : Page} (k : List Byte) (es₁ : List Ent) (e : Ent) (es₂ : List Ent)
    (A free : List Byte) (i : Nat)
    (hm : p.mem = A ++ ((es₁ ++ e :: es₂).flatMap Ent.enc ++ free)) (hA : A.length = 40 * i)
    (hok : ∀ x ∈ es₁ ++ e :: es₂, EntOk x) (hk : k.length = 27) (hk0 : 0#8 ∉ k)
    (hku : k.map up = k) (hn : ∀ e ∈ es₁, e.key ≠ k) (hek : e.key = k) :
    (offs i (es₁ ++ e :: es₂)).find? (fun i => matchName (p.nameAt i) (k ++ [0#8]) 27) =
      some (i + (es₁.map Ent.span).sum) := by
  induction es₁ generalizing A i with
  | nil =>
    have he := hok e (by simp)
    have hat : At p i e A (es₂.flatMap Ent.enc ++ free) :=
      ⟨by rw [hm]; simp [List.append_assoc], hA, he.key⟩
    simp only [List.nil_append]
    unfold offs
    rw [List.find?_cons_of_pos]
    · simp
    · rw [hat.nameAt]
      have := matchName_eq e.key k [0#8] [0#8] (by rw [he.key, hk]) he.nonul hk0
      rw [he.key, he.upper, hku] at this
      rw [this]
      simpa using hek
  | cons a es ih =>
    have ha := hok a (by simp)
    have hat : At p i a A ((es ++ e :: es₂).flatMap Ent.enc ++ free) :=
      ⟨by rw [hm, List.cons_append, List.flatMap_cons, List.append_assoc], hA, ha.key⟩
    rw [List.cons_append]
    unfold offs
    rw [List.find?_cons_of_neg]
    · rw [ih (A ++ a.enc) (i + a.span)]
      · simp [Nat.add_assoc]
      · rw [hm, List.cons_append, List.flatMap_cons]
        simp only [List.append_assoc]
      · rw [List.length_append, hA, ha.enc_length]
        omega
      · intro x hx
        exact hok x (by rw [List.cons_append]; exact List.mem_cons_of_mem _ hx)
      · exact fun e h => hn e (by simp [h])
    · rw [hat.nameAt]
      have := matchName_eq a.key k [0#8] [0#8] (by rw [ha.key, hk]) ha.nonul hk0
      rw [ha.key, ha.upper, hku] at this
      rw [this]
      simpa using hn a (by simp)

/-! ### Chains of pages -/

/-- A whiteboard and the variables in its pages. -/
structure R (w : List Page) (ess : List (List Ent)) : Prop where
  pages : List.Forall₂ Rep w ess
  nodup : (ess.flatten.map Ent.key).Nodup

/-- The variable with a given name. -/
def findEnt (es : List Ent) (k : List Byte) : Option Ent := es.find? fun e => decide (e.key = k)

theorem findEnt_none {es : List Ent} {k : List Byte} (h : ∀ e ∈ es, e.key ≠ k) :
    findEnt es k = none := by
  unfold findEnt
  rw [List.find?_eq_none]
  intro e he
  simpa using h e he

theorem findEnt_split {es₁ es₂ : List Ent} {e : Ent} {k : List Byte}
    (h : ∀ e ∈ es₁, e.key ≠ k) (he : e.key = k) :
    findEnt (es₁ ++ e :: es₂) k = some e := by
  unfold findEnt
  rw [List.find?_append, List.find?_eq_none.2 (by intro e he; simpa using h e he)]
  simp [he]

/-- Name made of 27 capital letters or other characters. -/
structure KeyOk (k : List Byte) : Prop where
  length : k.length = 27
  nonul : 0#8 ∉ k
  upper : k.map up = k

theorem keyOf_ok {name : List Byte} (h : 0#8 ∉ name) : KeyOk (keyOf name) :=
  ⟨keyOf_length name, keyOf_nonul h, keyOf_up name⟩

/-- Where a variable is. -/
inductive Where (w : List Page) (ess : List (List Ent)) (k : List Byte) : Prop
  | absent (h : ∀ e ∈ ess.flatten, e.key ≠ k) (hl : lookup w (k ++ [0#8]) = none)
  | found (w₁ w₂ : List Page) (p : Page) (ess₁ ess₂ : List (List Ent)) (es₁ es₂ : List Ent)
      (e : Ent) (hw : w = w₁ ++ p :: w₂) (hess : ess = ess₁ ++ (es₁ ++ e :: es₂) :: ess₂)
      (h₁ : List.Forall₂ Rep w₁ ess₁) (h₂ : List.Forall₂ Rep w₂ ess₂)
      (hp : Rep p (es₁ ++ e :: es₂)) (hk : e.key = k)
      (hn : ∀ e ∈ ess₁.flatten ++ es₁, e.key ≠ k)
      (hl : lookup w (k ++ [0#8]) = some (w₁.length, (es₁.map Ent.span).sum))

theorem split_first {es : List Ent} {k : List Byte} (h : ∃ e ∈ es, e.key = k) :
    ∃ es₁ e es₂, es = es₁ ++ e :: es₂ ∧ e.key = k ∧ ∀ e ∈ es₁, e.key ≠ k := by
  induction es with
  | nil => simp at h
  | cons a es ih =>
    by_cases ha : a.key = k
    · exact ⟨[], a, es, rfl, ha, by simp⟩
    · obtain ⟨es₁, e, es₂, h1, h2, h3⟩ := ih (by
        obtain ⟨e, he, hk⟩ := h
        rcases List.mem_cons.1 he with rfl | he
        · exact absurd hk ha
        · exact ⟨e, he, hk⟩)
      refine ⟨a :: es₁, e, es₂, by rw [h1]; rfl, h2, ?_⟩
      intro x hx
      rcases List.mem_cons.1 hx with rfl | hx
      · exact ha
      · exact h3 x hx

theorem locate {w : List Page} {ess : List (List Ent)} (h : List.Forall₂ Rep w ess)
    {k : List Byte} (hk : KeyOk k) : Where w ess k := by
  induction h with
  | nil => exact .absent (by simp) rfl
  | cons hp hr ih =>
    rename_i p es w ess
    by_cases hex : ∃ e ∈ es, e.key = k
    · obtain ⟨es₁, e, es₂, rfl, hek, hn⟩ := split_first hex
      obtain ⟨free, hf⟩ := hp.mem
      refine .found [] w p [] ess es₁ es₂ e rfl rfl .nil hr hp hek (by simpa using hn) ?_
      have := find_offs_some k es₁ e es₂ [] free 0 (by simpa using hf) rfl hp.ok hk.length hk.nonul
        hk.upper hn hek
      unfold lookup lookupLine
      rw [hp.starts, this]
      simp
    · have hne : ∀ e ∈ es, e.key ≠ k := fun e he hc => hex ⟨e, he, hc⟩
      obtain ⟨free, hf⟩ := hp.mem
      have h0 := find_offs_none k es [] free 0 (by simpa using hf) rfl hp.ok hk.length hk.nonul
        hk.upper hne
      have hl : lookup (p :: w) (k ++ [0#8]) =
          (lookup w (k ++ [0#8])).map fun (k, i) => (k + 1, i) := by
        conv => lhs; unfold lookup lookupLine
        rw [hp.starts, h0]
      cases ih with
      | absent ha hla =>
        refine .absent ?_ (by rw [hl, hla]; rfl)
        intro e he
        rw [List.flatten_cons, List.mem_append] at he
        rcases he with he | he
        · exact hne e he
        · exact ha e he
      | found w₁ w₂ q ess₁ ess₂ es₁ es₂ e hw hess h₁ h₂ hq hek hn hlf =>
        refine .found (p :: w₁) w₂ q (es :: ess₁) ess₂ es₁ es₂ e (by rw [hw]; rfl)
          (by rw [hess]; rfl) (.cons hp h₁) h₂ hq hek ?_ (by rw [hl, hlf]; rfl)
        intro x hx
        rw [List.flatten_cons, List.append_assoc, List.mem_append] at hx
        rcases hx with hx | hx
        · exact hne x hx
        · exact hn x hx

end WhiteBoard
