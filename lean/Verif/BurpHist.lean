import Verif.BurpRep
import Mathlib.Data.List.Forall2

/-! # Histories of operations on a BURP report -/

namespace Verif.Burp

/-- A block as its user sees it. -/
structure Rec where
  nele : Nat
  nval : Nat
  nt : Nat
  fam : Nat
  btyp : Nat
  nbit : Nat
  datyp : Nat
  lst : List W
  vals : List W
deriving DecidableEq, Repr

def Rec.n (r : Rec) : Nat := r.nele * r.nval * r.nt

/-- The number of 32-bit words in whole 64-bit units for `n` elements of `w` bits. -/
def units (n w : Nat) : Nat := 2 * ((n * w + 63) / 64)

/-- Code required at place `i` of an element list for the composite types. -/
def slotCode (datyp i : Nat) : Option W :=
  if datyp = 7 then (if i % 2 = 1 then some 14284#32 else none)
  else if datyp = 8 then (if i % 2 = 1 then some 14285#32 else none)
  else if datyp = 9 then
    (if i % 4 = 1 then some 14284#32 else if i % 4 = 2 then some 14286#32 else if i % 4 = 3 then some 14287#32 else none)
  else none

/-- The list with the required codes. -/
def fullList (datyp : Nat) (lst : List W) : List W := lst.mapIdx fun i e => (slotCode datyp i).getD e

/-- The list has the required codes, or zero in their place. -/
def SlotsOK (datyp : Nat) (lst : List W) : Prop :=
  (datyp = 7 ∨ datyp = 8 → lst.length % 2 = 0) ∧ (datyp = 9 → lst.length % 4 = 0) ∧
  ∀ i e c, lst[i]? = some e → slotCode datyp i = some c → e = 0 ∨ e = c

/-- Values that the type and width can carry. -/
inductive ValsOK : Nat → Nat → Nat → List W → Prop
  | ints {datyp nbit n vals} : datyp = 2 ∨ datyp = 4 → 1 ≤ nbit → nbit ≤ 32 → vals.length = n → vals ≠ [] →
      IntOK nbit datyp vals → ValsOK datyp nbit n vals
  | chars {datyp nbit n vals} : datyp = 3 ∨ datyp = 5 → nbit = 8 → vals.length = units n 8 → ValsOK datyp nbit n vals
  | words {datyp nbit n vals} : 6 ≤ datyp → datyp ≤ 9 → vals.length = units n 32 → ValsOK datyp nbit n vals

/-- What a value becomes: upper case for type 5. -/
def asStored (datyp : Nat) (vals : List W) : List W := if datyp = 5 then vals.map upperWord else vals

/-- Arguments within the documented ranges. -/
structure Good (a : AddArgs) : Prop where
  dims : a.nele < 65536 ∧ a.nval < 65536 ∧ a.nt < 65536
  len : a.lst.length = a.nele
  codes : ∀ e ∈ a.lst, e.toNat < 65536
  slots : SlotsOK a.datyp a.lst
  btyp : a.btyp < 32768
  bfam : a.bfam < 4096
  bdesc : a.bdesc < 64 ∧ (a.bdesc ≠ 0 → a.bfam / 64 = 0 ∨ a.bfam / 64 = a.bdesc)
  vals : ValsOK a.datyp a.nbit (a.nele * a.nval * a.nt) a.vals

/-- The record that an addition makes. -/
def AddArgs.toRec (a : AddArgs) : Rec :=
  { nele := a.nele, nval := a.nval, nt := a.nt, fam := if a.bdesc = 0 then a.bfam else a.bfam % 64 + 64 * a.bdesc,
    btyp := a.btyp, nbit := a.nbit, datyp := a.datyp, lst := fullList a.datyp a.lst, vals := asStored a.datyp a.vals }

inductive Op where
  | add (a : AddArgs)
  | del (i : Nat)
  | rep (i : Nat) (vals : List W)

/-- The effect intended. -/
def specStep (s : List Rec) : Op → List Rec
  | .add a => s ++ [a.toRec]
  | .del i => s.eraseIdx (i - 1)
  | .rep i vals => s.modify (i - 1) fun r => { r with vals := asStored r.datyp vals }

/-- The calls. -/
def doOp (u : W) (st : Buf) : Op → Option (Int × Buf)
  | .add a => mrbadd u st a
  | .del i => mrbdel u st i
  | .rep i vals => mrbrep u st i vals

/-- Conditions on a call: no deletion or replacement of a block of type 3. -/
def OpOK (s : List Rec) : Op → Prop
  | .add a => Good a
  | .del i => 1 ≤ i ∧ ∃ r, s[i - 1]? = some r ∧ r.datyp ≠ 3
  | .rep i vals => 1 ≤ i ∧ ∃ r, s[i - 1]? = some r ∧ r.datyp ≠ 3 ∧
      (if r.datyp = 2 ∨ r.datyp = 4 then
        vals.length = r.n ∧ ∀ x ∈ vals, -(2 ^ 30 - 2) ≤ x.toInt ∧ x.toInt ≤ 2 ^ 30 - 2
      else if r.datyp = 5 then vals.length = units r.n 8 else vals.length = units r.n 32)

/-- An upper bound of the words taken by the blocks. -/
def size (s : List Rec) : Nat := (s.map fun r => 4 + units r.nele 16 + units r.n 32).sum

/-- The calls of a history are within the conditions and the report has room for `room` words. -/
def Legal (room : Nat) : List Rec → List Op → Prop
  | _, [] => True
  | s, op :: ops => OpOK s op ∧ size (specStep s op) + 11 ≤ room ∧ size (specStep s op) < 2 ^ 21 ∧
      Legal room (specStep s op) ops

/-- The codes returned and the report at the end. -/
def run (u : W) : Buf → List Op → Option (List Int × Buf)
  | st, [] => some ([], st)
  | st, op :: ops =>
    match doOp u st op with
    | none => none
    | some (e, st') => (run u st' ops).map fun r => (e :: r.1, r.2)

/-! ## Stored block and record -/

/-- Relation of type and width. -/
def Kind (r : Rec) (h : Hdr) : Prop :=
  ((r.datyp = 2 ∨ r.datyp = 4) ∧ (h.datyp = 2 ∨ h.datyp = 4) ∧ r.nbit ≤ h.nbit + 1 ∧ 1 ≤ r.n) ∨
  ((r.datyp = 3 ∨ r.datyp = 5) ∧ h.datyp = r.datyp ∧ h.nbit + 1 = 8) ∨
  ((6 ≤ r.datyp ∧ r.datyp ≤ 9) ∧ h.datyp = r.datyp ∧ h.nbit + 1 = 32)

structure Holds (r : Rec) (b : Blk) : Prop where
  dims : b.hdr.dims = (r.nele, r.nval, r.nt)
  fam : b.hdr.bfamdesc % 64 * 64 + b.hdr.bfamdesc / 64 % 64 = r.fam
  btyp : b.hdr.btyp = r.btyp
  kind : Kind r b.hdr
  lst : ∃ els pad, headerElems b.hdr ++ els = r.lst ∧ els.length = b.hdr.listed ∧ (∀ e ∈ els, e.toNat < 2 ^ 16) ∧
    memBits b.lw = tokBits 16 (els.map (· &&& 0xffff#32)) ++ pad
  vals : Reads b.hdr.datyp b.n (b.hdr.nbit + 1) b.vw r.vals
  room : b.lw.length ≤ units r.nele 16 ∧ b.vw.length ≤ units r.n 32

theorem Holds.shift {r : Rec} {b : Blk} {d : Int} (h : Holds r b) : Holds r (b.shift d) :=
  ⟨h.dims, h.fam, h.btyp, h.kind, h.lst, h.vals, h.room⟩

theorem Holds.n {r : Rec} {b : Blk} (h : Holds r b) : b.n = r.n := by
  unfold Blk.n Rec.n; rw [h.dims]

theorem Forall₂.split {R : Rec → Blk → Prop} {s : List Rec} {bs : List Blk} (h : List.Forall₂ R s bs) :
    ∀ {i r}, s[i]? = some r → ∃ s1 s2 b1 b b2, s = s1 ++ r :: s2 ∧ bs = b1 ++ b :: b2 ∧ s1.length = i ∧ b1.length = i ∧
      List.Forall₂ R s1 b1 ∧ R r b ∧ List.Forall₂ R s2 b2 := by
  induction h with
  | nil => intro i r h; simp at h
  | @cons x y l1 l2 hxy hl ih =>
    intro i r h
    cases i with
    | zero =>
      simp only [List.getElem?_cons_zero, Option.some.injEq] at h
      subst h
      exact ⟨[], l1, [], y, l2, rfl, rfl, rfl, rfl, .nil, hxy, hl⟩
    | succ i =>
      simp only [List.getElem?_cons_succ] at h
      obtain ⟨s1, s2, b1, b, b2, e1, e2, n1, n2, f1, hr, f2⟩ := ih h
      exact ⟨x :: s1, s2, y :: b1, b, b2, by rw [e1]; rfl, by rw [e2]; rfl, by simp [n1], by simp [n2], .cons hxy f1, hr, f2⟩

theorem forall₂_shift {s : List Rec} {bs : List Blk} (d : Int) (h : List.Forall₂ Holds s bs) :
    List.Forall₂ Holds s (bs.map (Blk.shift d)) := by
  induction h with
  | nil => exact .nil
  | cons hxy _ ih => exact .cons hxy.shift ih

theorem forall₂_append' {s t : List Rec} {bs cs : List Blk} (h : List.Forall₂ Holds s bs) (h' : List.Forall₂ Holds t cs) :
    List.Forall₂ Holds (s ++ t) (bs ++ cs) := by
  induction h with
  | nil => exact h'
  | cons hxy _ ih => exact .cons hxy ih

theorem size_append (s t : List Rec) : size (s ++ t) = size s + size t := by simp [size]

theorem used_le {s : List Rec} {bs : List Blk} (h : List.Forall₂ Holds s bs) :
    4 * bs.length + (bodies bs).length ≤ size s := by
  induction h with
  | nil => simp
  | @cons x y l1 l2 hxy _ ih =>
    have := hxy.room
    simp only [List.length_cons, bodies_cons, List.length_append, size, List.map_cons, List.sum_cons] at ih ⊢
    omega

/-! ## Element lists of composite types -/

theorem codeLoop_spec {datyp : Nat} {codes : List W} (hcodes : codes ≠ [])
    (hsl : ∀ i, slotCode datyp i = if i % (codes.length + 1) = 0 then none else codes[i % (codes.length + 1) - 1]?) :
    ∀ (n i : Nat) (lst : List W), lst.length = i + n →
    (∀ j e c, i ≤ j → lst[j]? = some e → slotCode datyp j = some c → e = 0 ∨ e = c) →
    codeLoop codes i n lst = some (0, lst.take i ++ (lst.drop i).mapIdx fun j e => (slotCode datyp (i + j)).getD e) := by
  have hpos : 0 < codes.length := List.length_pos_iff.2 hcodes
  intro n
  induction n with
  | zero =>
    intro i lst hl _
    have : lst.drop i = [] := List.drop_eq_nil_of_le (by omega)
    simp only [codeLoop, this, List.mapIdx_nil, List.append_nil]
    rw [List.take_of_length_le (by omega)]
  | succ n ih =>
    intro i lst hl hok
    unfold codeLoop
    have hm := Nat.mod_lt i (show 0 < codes.length + 1 by omega)
    obtain ⟨c, hc⟩ : ∃ c, codes[i % (codes.length + 1) - 1]? = some c := ⟨_, List.getElem?_eq_getElem (by omega)⟩
    rw [hc]
    simp only
    obtain ⟨e, he⟩ : ∃ e, lst[i]? = some e := ⟨_, List.getElem?_eq_getElem (by omega)⟩
    have hei : lst[i]'(by omega) = e := by rw [List.getElem?_eq_getElem (by omega)] at he; exact Option.some.inj he
    have step : (if i % (codes.length + 1) = 0 then some ((0 : Int), lst) else checkCode c i lst) =
        some (0, lst.set i ((slotCode datyp i).getD e)) := by
      rw [hsl i]
      split
      · simp only [Option.getD_none]
        rw [← hei, List.set_getElem_self]
      · rename_i hz
        rw [hc]
        simp only [Option.getD_some]
        unfold checkCode
        rw [he]
        simp only
        split
        · rename_i h1; rw [← h1, ← hei, List.set_getElem_self]
        · rename_i h1
          have := hok i e c (Nat.le_refl _) he (by rw [hsl i, if_neg hz, hc])
          rw [if_pos (by rcases this with h | h; exact h; exact absurd h h1)]
    rw [step]
    simp only
    rw [ih (i + 1) _ (by simp; omega)]
    · congr 2
      rw [List.drop_set_of_lt (by omega), List.take_set, List.take_succ, he]
      have hd : lst.drop i = e :: lst.drop (i + 1) := by
        rw [← hei]; exact List.drop_eq_getElem_cons (by omega)
      rw [hd, List.mapIdx_cons]
      simp only [Option.toList_some, Nat.add_zero]
      rw [List.set_append_right _ _ (by simp), List.length_take, Nat.min_eq_left (by omega), Nat.sub_self]
      simp only [List.set_cons_zero, List.append_assoc, List.cons_append, List.nil_append, List.append_cancel_left_eq,
        List.cons.injEq, true_and]
      congr 1
      funext j e
      rw [show i + 1 + j = i + (j + 1) by omega]
    · intro j e' c' hj hj' hs
      rw [List.getElem?_set_ne (by omega)] at hj'
      exact hok j e' c' (by omega) hj' hs

theorem valid789_ok {datyp : Nat} {lst : List W} (h7 : 7 ≤ datyp) (h9 : datyp ≤ 9) (hs : SlotsOK datyp lst) :
    valid789 lst lst.length datyp = some (0, fullList datyp lst) := by
  obtain ⟨h1, h2, h3⟩ := hs
  have key : ∀ codes : List W, codes ≠ [] →
      (∀ i, slotCode datyp i = if i % (codes.length + 1) = 0 then none else codes[i % (codes.length + 1) - 1]?) →
      codeLoop codes 0 lst.length lst = some (0, fullList datyp lst) := by
    intro codes hc hsl
    rw [codeLoop_spec hc hsl lst.length 0 lst (by simp) (fun j e c _ => h3 j e c)]
    simp [fullList]
  unfold valid789
  have hcase : datyp = 7 ∨ datyp = 8 ∨ datyp = 9 := by omega
  rcases hcase with rfl | rfl | rfl
  · rw [if_pos (by decide), if_neg (by have := h1 (by decide); omega)]
    apply key _ (by simp)
    intro i
    simp only [slotCode, if_true, List.length_singleton, Nat.reduceAdd]
    rcases (show i % 2 = 0 ∨ i % 2 = 1 by omega) with h | h <;> rw [h] <;> rfl
  · rw [if_pos (by decide), if_neg (by have := h1 (by decide); omega)]
    apply key _ (by simp)
    intro i
    simp only [slotCode, List.length_singleton, Nat.reduceAdd]
    rcases (show i % 2 = 0 ∨ i % 2 = 1 by omega) with h | h <;> rw [h] <;> rfl
  · rw [if_neg (by decide), if_pos rfl, if_neg (by have := h2 rfl; omega)]
    apply key _ (by simp)
    intro i
    simp only [slotCode, List.length_cons, List.length_nil, Nat.reduceAdd]
    rcases (show i % 4 = 0 ∨ i % 4 = 1 ∨ i % 4 = 2 ∨ i % 4 = 3 by omega) with h | h | h | h <;> rw [h] <;> rfl

theorem fullList_small {datyp : Nat} {lst : List W} (h : datyp < 7) : fullList datyp lst = lst := by
  have : ∀ i, slotCode datyp i = none := by
    intro i; unfold slotCode; rw [if_neg (by omega), if_neg (by omega), if_neg (by omega)]
  simp only [fullList, this, Option.getD_none]
  apply List.ext_getElem <;> simp

theorem slotCode_lt {datyp i : Nat} {c : W} (h : slotCode datyp i = some c) : c.toNat < 65536 := by
  unfold slotCode at h
  split at h
  · split at h
    · cases h; decide
    · cases h
  · split at h
    · split at h
      · cases h; decide
      · cases h
    · split at h
      · split at h
        · cases h; decide
        · split at h
          · cases h; decide
          · split at h
            · cases h; decide
            · cases h
      · cases h

theorem fullList_length (datyp : Nat) (lst : List W) : (fullList datyp lst).length = lst.length := by simp [fullList]

theorem fullList_codes {datyp : Nat} {lst : List W} (h : ∀ e ∈ lst, e.toNat < 65536) :
    ∀ e ∈ fullList datyp lst, e.toNat < 65536 := by
  intro e he
  obtain ⟨i, hi, rfl⟩ := List.mem_iff_getElem.1 he
  simp only [fullList, List.getElem_mapIdx]
  cases hs : slotCode datyp i with
  | none => simp only [Option.getD_none]; exact h _ (List.getElem_mem _)
  | some c => simp only [Option.getD_some]; exact slotCode_lt hs

/-! ## Values -/

/-- The width and type chosen, and what storing does with them. -/
theorem vals_store (u : W) {datyp nbit n : Nat} {vals : List W} (h : ValsOK datyp nbit n vals) :
    ∃ nb dt, nbitDatyp nbit datyp vals n = some (0, nb, dt) ∧ 1 ≤ nb ∧ nb ≤ 32 ∧ dt < 16 ∧
      (∀ A x C : List W, x.length = nbWords n nb →
        ∃ vw, putWords u vals A.length n nb dt (A ++ x ++ C) = some (0, A ++ vw ++ C) ∧ vw.length = nbWords n nb ∧
          Reads dt n nb vw (asStored datyp vals)) ∧
      (((datyp = 2 ∨ datyp = 4) ∧ (dt = 2 ∨ dt = 4) ∧ nbit ≤ nb ∧ 1 ≤ n) ∨
        ((datyp = 3 ∨ datyp = 5) ∧ dt = datyp ∧ nb = 8) ∨ ((6 ≤ datyp ∧ datyp ≤ 9) ∧ dt = datyp ∧ nb = 32)) := by
  cases h with
  | ints hd h1 h2 hl hne hok =>
    subst hl
    obtain ⟨nb, dt, e⟩ := nbitDatyp_ok hd hne hok
    obtain ⟨hn, hn2, hdt, hfit⟩ := nbitDatyp_spec hd h1 h2 e
    refine ⟨nb, dt, e, by omega, hn2, by omega, ?_, Or.inl ⟨hd, hdt, hn, List.length_pos_iff.2 hne⟩⟩
    intro A x C hx
    obtain ⟨vw, e, hr⟩ := put_ints (u := u) (a := A) (x := x) (c := C) (by omega) hn2 hdt hfit hx
    refine ⟨vw, e, hr.1, ?_⟩
    rw [asStored, if_neg (by omega)]
    exact hr
  | chars hd h8 hl =>
    refine ⟨8, datyp, ?_, by decide, by decide, by omega, ?_, Or.inr (Or.inl ⟨hd, rfl, rfl⟩)⟩
    · unfold nbitDatyp; rw [if_neg (by omega), if_neg (by omega), if_pos hd]
    · intro A x C hx
      obtain ⟨vw, e, hr⟩ := put_words (u := u) (vals := vals) (a := A) (x := x) (c := C) (n := n) (nb := 8) (dt := datyp)
        (by omega) hl hx
      exact ⟨vw, e, hr.1, hr⟩
  | words h6 h9 hl =>
    refine ⟨32, datyp, ?_, by decide, by decide, by omega, ?_, Or.inr (Or.inr ⟨⟨h6, h9⟩, rfl, rfl⟩)⟩
    · unfold nbitDatyp; rw [if_neg (by omega), if_pos (by omega)]
    · intro A x C hx
      obtain ⟨vw, e, hr⟩ := put_words (u := u) (vals := vals) (a := A) (x := x) (c := C) (n := n) (nb := 32) (dt := datyp)
        (by omega) hl hx
      exact ⟨vw, e, hr.1, hr⟩

theorem units_mono {n a b : Nat} (h : a ≤ b) : units n a ≤ units n b := by
  have := Nat.mul_le_mul_left n h
  unfold units; omega

theorem famDesc_split {q r : Nat} (hq : q < 64) (hr : r < 64) :
    (r * 64 + q) % 2 ^ 12 % 64 * 64 + (r * 64 + q) % 2 ^ 12 / 64 % 64 = r + 64 * q := by
  have h0 : (r * 64 + q) % 2 ^ 12 = r * 64 + q := Nat.mod_eq_of_lt (by omega)
  rw [h0]
  have h1 : (r * 64 + q) % 64 = q := by omega
  have h2 : (r * 64 + q) / 64 = r := by omega
  rw [h1, h2]; omega

/-! ## The three operations -/

theorem add_step (u : W) {st : Buf} {keys rest : List W} {s : List Rec} {bs : List Blk} (h : Lay st keys bs rest)
    (hs : List.Forall₂ Holds s bs) {a : AddArgs} (hg : Good a) (hroom : size (s ++ [a.toRec]) + 11 ≤ st.data.length)
    (hbig : size (s ++ [a.toRec]) < 2 ^ 21) :
    ∃ st' rest' bs', mrbadd u st a = some (0, st') ∧ Lay st' keys bs' rest' ∧ List.Forall₂ Holds (s ++ [a.toRec]) bs' ∧
      st'.data.length = st.data.length := by
  obtain ⟨nb, dt, e1, hnb1, hnb2, hdt, hput, hkind⟩ := vals_store u hg.vals
  have hlen : st.data.length = 10 + 4 * bs.length + (bodies bs).length + rest.length := by
    rw [h.data]; have := h.keysLen; simp; omega
  have hused := used_le hs
  have hsz : size (s ++ [a.toRec]) = size s + (4 + units a.nele 16 + units (a.nele * a.nval * a.nt) 32) := by
    rw [size_append]; rfl
  have hu := units_mono (n := a.nele * a.nval * a.nt) hnb2
  have hflen := fullList_length a.datyp a.lst
  obtain ⟨st', rest', b, pad, e, hL, _, hl, hbh, hbd, hbn, hbt, hP, hlis, hlw⟩ := add_lay u h a (fullList a.datyp a.lst) nb dt
    (fun vw => Reads dt (a.nele * a.nval * a.nt) nb vw (asStored a.datyp a.vals)) (by rw [hflen, hg.len])
    hput (by omega) ⟨hnb1, hnb2⟩ hdt hg.dims
    (by change units a.nele 16 + 4 + units (a.nele * a.nval * a.nt) nb < _; omega) (by omega)
  refine ⟨st', rest', bs ++ [b], ?_, hL, forall₂_append' hs (.cons ?_ .nil), hl⟩
  · unfold mrbadd
    rw [if_neg, e1]
    · simp only
      rw [if_neg (by decide)]
      have hv : (if 7 ≤ a.datyp then valid789 a.lst a.nele a.datyp else some (0, a.lst)) =
          some (0, fullList a.datyp a.lst) := by
        split
        · rw [← hg.len]; exact valid789_ok (by omega) (by omega) hg.slots
        · rw [fullList_small (by omega)]
      rw [hv]
      simp only
      rw [if_neg (by decide), if_neg, e]
      have := hg.bdesc
      have := hg.bfam
      omega
    · have := hg.vals
      cases this with
      | ints hd => omega
      | chars hd => omega
      | words h6 => omega
  · have hbN : b.n = a.nele * a.nval * a.nt := by unfold Blk.n; rw [hbd]
    have hwfb := h.wf
    have hcodes := fullList_codes (datyp := a.datyp) hg.codes
    have hszl := hL.szl b (by simp)
    have hszv := hL.szv b (by simp)
    have hlisN : b.hdr.listed ≤ a.nele := by
      rw [List.length_drop, List.length_take, hflen, hg.len] at hlis
      omega
    refine ⟨hbd, ?_, ?_, ?_, ?_, ?_, ?_⟩
    · rw [hbh]
      have h1 := hg.bdesc
      have h2 := hg.bfam
      have : (newHdr a (fullList a.datyp a.lst) nb dt ((bodies bs).length / 2)).bfamdesc = famDesc a.bfam a.bdesc := by
        unfold newHdr; simp only; split <;> rfl
      simp only [Hdr.canon, this, AddArgs.toRec, famDesc]
      by_cases hz : a.bdesc = 0
      · simp only [hz, ne_eq, not_true_eq_false, if_false, if_true]
        rw [famDesc_split (by omega) (by omega)]; omega
      · simp only [hz, ne_eq, not_false_eq_true, if_false, if_true]
        rw [famDesc_split (by omega) (by omega)]; omega
    · rw [hbh]
      have h1 := hg.btyp
      have : (newHdr a (fullList a.datyp a.lst) nb dt ((bodies bs).length / 2)).btyp = a.btyp := by
        unfold newHdr; simp only; split <;> rfl
      simp only [Hdr.canon, this, AddArgs.toRec]
      omega
    · unfold Kind
      rw [hbn, hbt]
      exact hkind
    · refine ⟨_, pad, ?_, ?_, ?_, hlw⟩
      · have htk : (fullList a.datyp a.lst).take a.nele = fullList a.datyp a.lst :=
          List.take_of_length_le (by rw [hflen, hg.len])
        rw [htk]
        simp only [AddArgs.toRec]
        rw [hbh]
        generalize hF : fullList a.datyp a.lst = F at *
        have hFl : F.length = a.nele := by rw [hflen, hg.len]
        by_cases hq : 127 ≤ a.nele ∨ 256 ≤ a.nval ∨ 256 ≤ a.nt
        · rw [if_pos hq]
          simp only [headerElems, Hdr.canon, newHdr, if_pos hq]
          simp
        · rw [if_neg hq]
          simp only [headerElems, Hdr.canon, newHdr, if_neg hq]
          rw [if_neg (by decide), Nat.mod_eq_of_lt (show a.nele < 2 ^ 7 by omega)]
          have hc : ∀ w : W, w.toNat < 65536 → BitVec.ofNat 32 (w.toNat % 65536) = w := by
            intro w hw
            rw [Nat.mod_eq_of_lt (by omega)]; simp
          rw [← hFl]
          match F, hcodes with
          | [], _ => simp
          | [x], hx => simp [hc x (hx x (by simp))]
          | [x, y], hx => simp [hc x (hx x (by simp)), hc y (hx y (by simp))]
          | x :: y :: z :: t, hx => simp [hc x (hx x (by simp)), hc y (hx y (by simp)), hc z (hx z (by simp))]
      · rw [List.length_drop, List.length_take, hflen, hg.len, hbh]
        have := hg.dims
        by_cases hq : 127 ≤ a.nele ∨ 256 ≤ a.nval ∨ 256 ≤ a.nt
        · rw [if_pos hq]
          simp only [Hdr.listed, Hdr.canon, newHdr, if_pos hq]
          rw [if_pos (by decide)]; omega
        · rw [if_neg hq]
          simp only [Hdr.listed, Hdr.canon, newHdr, if_neg hq]
          rw [if_neg (by decide)]; omega
      · intro e he
        exact hcodes e (List.mem_of_mem_take (List.mem_of_mem_drop he))
    · rw [hbN, hbt, hbn]; exact hP
    · constructor
      · rw [hszl]; simp only [AddArgs.toRec]; unfold nbWords units; omega
      · rw [hszv, hbN, hbn]; exact hu

theorem del_step (u : W) {st : Buf} {keys rest : List W} {s : List Rec} {bs : List Blk} (h : Lay st keys bs rest)
    (hs : List.Forall₂ Holds s bs) {i : Nat} (hi : 1 ≤ i) {r : Rec} (hr : s[i - 1]? = some r) (h3 : r.datyp ≠ 3) :
    ∃ st' rest' bs', mrbdel u st i = some (0, st') ∧ Lay st' keys bs' rest' ∧ List.Forall₂ Holds (s.eraseIdx (i - 1)) bs' ∧
      st'.data.length = st.data.length := by
  obtain ⟨s1, s2, b1, b, b2, rfl, rfl, n1, n2, f1, hh, f2⟩ := Forall₂.split hs hr
  have hk := hh.kind
  unfold Kind at hk
  obtain ⟨st', rest', d, e, hL, _, hl⟩ := delete_lay u h (by omega) (by omega)
  rw [show b1.length + 1 = i by omega] at e
  refine ⟨st', rest', _, e, hL, ?_, hl⟩
  rw [← n1, List.eraseIdx_append_of_length_le (Nat.le_refl _), Nat.sub_self]
  exact forall₂_append' f1 (forall₂_shift d f2)

theorem modify_mid {s1 s2 : List Rec} {r : Rec} (f : Rec → Rec) :
    (s1 ++ r :: s2).modify s1.length f = s1 ++ f r :: s2 := by
  induction s1 with
  | nil => rfl
  | cons x s1 ih => simp only [List.cons_append, List.length_cons, List.modify_succ_cons, ih]

set_option maxHeartbeats 1000000 in
theorem rep_step (u : W) {st : Buf} {keys rest : List W} {s : List Rec} {bs : List Blk} (h : Lay st keys bs rest)
    (hs : List.Forall₂ Holds s bs) {i : Nat} {vals : List W} (hok : OpOK s (.rep i vals))
    (hroom : size s + 11 ≤ st.data.length) (hbig : size s < 2 ^ 21) :
    ∃ st' rest' bs', mrbrep u st i vals = some (0, st') ∧ Lay st' keys bs' rest' ∧
      List.Forall₂ Holds (specStep s (.rep i vals)) bs' ∧ st'.data.length = st.data.length := by
  obtain ⟨hi, r, hr, h3, hv⟩ := hok
  have hused := used_le hs
  have hlen : st.data.length = 10 + 4 * bs.length + (bodies bs).length + rest.length := by
    rw [h.data]; have := h.keysLen; simp; omega
  obtain ⟨s1, s2, b1, b, b2, rfl, rfl, n1, n2, f1, hh, f2⟩ := Forall₂.split hs hr
  have hk := hh.kind
  have hn := hh.n
  unfold Kind at hk
  have hwf := h.wf b (by simp)
  have hszv := h.szv b (by simp)
  have hnbit := hwf.nbit
  have hvok : ValsOK b.hdr.datyp (b.hdr.nbit + 1) b.n vals := by
    rcases hk with ⟨k1, k2, k3, k4⟩ | ⟨k1, k2, k3⟩ | ⟨k1, k2, k3⟩
    · rw [if_pos k1] at hv
      refine .ints k2 (by omega) (by omega) (by rw [hn]; exact hv.1) ?_ (Or.inr (Or.inr hv.2))
      intro hz; rw [hz] at hv; simp at hv; omega
    · rw [if_neg (by omega), if_pos (by omega)] at hv
      rw [k2, hn]
      exact .chars k1 k3 hv
    · rw [if_neg (by omega), if_neg (by omega)] at hv
      rw [k2, hn]
      exact .words k1.1 k1.2 hv
  obtain ⟨nb, dt, e1, hnb1, hnb2, hdt, hput, hkind⟩ := vals_store u hvok
  have hu := units_mono (n := b.n) hnb2
  have hrm := hh.room
  have hszb : 4 * (b1.length + (b2.length + 1)) + (bodies (b1 ++ b :: b2)).length + (units b.n 32 - b.vw.length) ≤
      size (s1 ++ r :: s2) := by
    have u1 := used_le f1
    have u2 := used_le f2
    rw [size_append]
    simp only [size, List.map_cons, List.sum_cons, bodies_append, bodies_cons, List.length_append] at u1 u2 ⊢
    rw [hn]
    omega
  have hmono : nbWords b.n (b.hdr.nbit + 1) ≤ nbWords b.n nb := by
    apply units_mono; omega
  have hvl : nbWords b.n nb - b.vw.length ≤ vals.length := by
    rcases hkind with ⟨_, _, _, hn1⟩ | ⟨_, _, k⟩ | ⟨_, _, k⟩
    · have hvlen : vals.length = b.n := by
        cases hvok with
        | ints _ _ _ hl => exact hl
        | chars hd => omega
        | words h6 => omega
      rw [hvlen, hszv]
      change units b.n nb - units b.n (b.hdr.nbit + 1) ≤ b.n
      have q1 : b.n * nb ≤ b.n * 32 := Nat.mul_le_mul_left _ hnb2
      have q2 : b.n * 1 ≤ b.n * (b.hdr.nbit + 1) := Nat.mul_le_mul_left _ (by omega)
      unfold units
      omega
    · rw [hszv, k, show b.hdr.nbit + 1 = 8 by omega]; omega
    · rw [hszv, k, show b.hdr.nbit + 1 = 32 by omega]; omega
  obtain ⟨st', rest', d, vw, e, hL, _, hl, hP⟩ := rep_lay u h vals nb dt
    (fun vw => Reads dt b.n nb vw (asStored b.hdr.datyp vals)) hput (by omega) (by omega) (by omega) hdt hvl
    (by
      change units b.n nb - _ < _
      simp only [List.length_append, List.length_cons] at hlen
      omega)
    (by
      change (_ + (units b.n nb - _)) / 2 < _
      omega)
  refine ⟨st', rest', _, ?_, hL, ?_, hl⟩
  · unfold mrbrep
    have := blockAt_lay h
    rw [if_neg (by rw [h.nblk]; simp; omega), show i - 1 = b1.length by omega, this]
    simp only
    rw [show b.hdr.dims.1 * b.hdr.dims.2.1 * b.hdr.dims.2.2 = b.n from rfl, e1]
    simp only
    rw [if_neg (by decide), show i = b1.length + 1 by omega, e]
  · simp only [specStep]
    rw [← n1, modify_mid]
    refine forall₂_append' f1 (.cons ?_ (forall₂_shift d f2))
    have has : asStored b.hdr.datyp vals = asStored r.datyp vals := by
      unfold asStored
      by_cases h5 : r.datyp = 5
      · rw [if_pos h5, if_pos (by omega)]
      · rw [if_neg h5, if_neg (by omega)]
    refine ⟨hh.dims, hh.fam, hh.btyp, ?_, hh.lst, ?_, ?_⟩
    · have hrn : ∀ v, Rec.n { r with vals := v } = r.n := fun _ => rfl
      unfold Kind
      simp only [hrn]
      clear hput e1 hL hP hvok hh f1 f2 hs h has hszb hvl hmono hu hrm hszv hlen hused hroom hbig hv
      rcases hk with ⟨k1, k2, k3, k4⟩ | ⟨k1, k2, k3⟩ | ⟨k1, k2, k3⟩
      · exact Or.inl ⟨k1, by omega, by omega, k4⟩
      · exact Or.inr (Or.inl ⟨k1, by omega, by omega⟩)
      · exact Or.inr (Or.inr ⟨k1, by omega, by omega⟩)
    · simp only
      rw [← has, show nb - 1 + 1 = nb by omega]
      exact hP
    · refine ⟨hh.room.1, ?_⟩
      change vw.length ≤ units r.n 32
      have hvlen := hP.1
      rw [hvlen, ← hn]
      exact hu

/-! ## Histories -/

theorem run_lay (u : W) : ∀ (ops : List Op) {st : Buf} {keys rest : List W} {s : List Rec} {bs : List Blk},
    Lay st keys bs rest → List.Forall₂ Holds s bs → Legal st.data.length s ops →
    ∃ st' rest' bs', run u st ops = some (ops.map (fun _ => 0), st') ∧ Lay st' keys bs' rest' ∧
      List.Forall₂ Holds (ops.foldl specStep s) bs' := by
  intro ops
  induction ops with
  | nil => intro st keys rest s bs h hs _; exact ⟨st, rest, bs, rfl, h, hs⟩
  | cons op ops ih =>
    intro st keys rest s bs h hs hleg
    obtain ⟨hok, hroom, hbig, hleg⟩ := hleg
    obtain ⟨st1, rest1, bs1, e1, h1, hs1, hl1⟩ : ∃ st' rest' bs', doOp u st op = some (0, st') ∧ Lay st' keys bs' rest' ∧
        List.Forall₂ Holds (specStep s op) bs' ∧ st'.data.length = st.data.length := by
      cases op with
      | add a => exact add_step u h hs hok hroom hbig
      | del i =>
        obtain ⟨hi, r, hr, h3⟩ := hok
        exact del_step u h hs hi hr h3
      | rep i vals =>
        have hsz : size (specStep s (.rep i vals)) = size s := by
          obtain ⟨hi, r, hr, _⟩ := hok
          obtain ⟨s1, s2, b1, b, b2, rfl, rfl, n1, n2, f1, hh, f2⟩ := Forall₂.split hs hr
          simp only [specStep]
          rw [← n1, modify_mid, size_append, size_append]
          rfl
        exact rep_step u h hs hok (by omega) (by omega)
    rw [← hl1] at hleg
    obtain ⟨st', rest', bs', e, hL, hF⟩ := ih h1 hs1 hleg
    refine ⟨st', rest', bs', ?_, hL, hF⟩
    unfold run
    rw [e1]
    simp only
    rw [e]
    rfl

/-- What the calls that read return. -/
theorem reads_lay (u : W) {st : Buf} {keys rest : List W} {s : List Rec} {bs : List Blk} (h : Lay st keys bs rest)
    (hs : List.Forall₂ Holds s bs) {i : Nat} {r : Rec} (hr : s[i]? = some r) :
    (∀ lst0 vals0, r.lst.length ≤ lst0.length → r.vals.length ≤ vals0.length →
      ∃ l v, mrbxtr u st (i + 1) lst0 vals0 = some (0, l, v) ∧ l.take r.lst.length = r.lst ∧ v.take r.vals.length = r.vals) ∧
    ∃ p, mrbprm u st (i + 1) = some p ∧ p.nele = r.nele ∧ p.nval = r.nval ∧ p.nt = r.nt ∧ p.bfam = r.fam ∧
      p.btyp = r.btyp ∧
      ((r.datyp = 2 ∨ r.datyp = 4) ∧ (p.datyp = 2 ∨ p.datyp = 4) ∧ r.nbit ≤ p.nbit ∨
        (r.datyp = 3 ∨ r.datyp = 5) ∧ p.datyp = r.datyp ∧ p.nbit = 8 ∨
        (6 ≤ r.datyp ∧ r.datyp ≤ 9) ∧ p.datyp = r.datyp ∧ p.nbit = 32) := by
  obtain ⟨s1, s2, b1, b, b2, rfl, rfl, n1, n2, f1, hh, f2⟩ := Forall₂.split hs hr
  have hk := hh.kind
  unfold Kind at hk
  constructor
  · intro lst0 vals0 hl0 hv0
    obtain ⟨els, pad, hl, hel, hlt, hb⟩ := hh.lst
    have hll : (headerElems b.hdr).length + els.length = r.lst.length := by rw [← hl]; simp
    obtain ⟨l, v, e, h1, h2⟩ := xtr_lay u h hb hel hlt hh.vals (by omega) (lst0 := lst0) (vals0 := vals0) (by omega) hv0
    rw [n2] at e
    rw [hll, hl] at h1
    exact ⟨l, v, e, h1, h2⟩
  · refine ⟨_, (by unfold mrbprm; rw [← n2, readHdr_lay u h]), ?_⟩
    · have hd := hh.dims
      simp only [hd]
      refine ⟨trivial, trivial, trivial, hh.fam, hh.btyp, by omega⟩

end Verif.Burp
