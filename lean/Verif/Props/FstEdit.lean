import Verif.FstEdit
import Verif.Props.FstKeys

/-! # C94: editing the descriptors of a record; C95: masks of search keys -/

namespace Verif.FstEdit

open Verif.FstKeys
open Verif.Props.FstKeys (nameChar name ofInt_nat ig2_join C34_date_round_trip_partial)
open Verif.Xdf (Mem Page Entry Code setEntry)

/-! ## C94 -/

/-- All characters that count are blank, or there is none. -/
def Blank (n : Nat) (s : List (BitVec 8)) : Prop := ∀ c ∈ s.take n, c = 32#8

instance (n : Nat) (s : List (BitVec 8)) : Decidable (Blank n s) := by unfold Blank; infer_instance

theorem keeps_iff (n : Nat) (s : List C) : keeps n s = true ↔ Blank n s := by
  unfold keeps padTo Blank
  rw [decide_eq_true_eq, List.eq_replicate_iff]
  constructor
  · intro h c hc
    exact h.2 c (List.mem_append_left _ hc)
  · intro h
    refine ⟨by simp; omega, fun c hc => ?_⟩
    rcases List.mem_append.1 hc with hc | hc
    · exact h c hc
    · exact (List.mem_replicate.1 hc).2

/-- A number to be stored in `n` bits, or -1. -/
def Fits (n : Nat) (x : Int) : Prop := x = -1 ∨ 0 ≤ x ∧ x < 2 ^ n

theorem orKeep_nat (n : Nat) (x : Int) (old : BitVec n) (h : Fits n x) :
    ((orKeep x old).toNat : Int) = if x = -1 then (old.toNat : Int) else x := by
  unfold orKeep
  split
  · rfl
  · rename_i hx
    exact ofInt_nat n x (h.resolve_left hx).1 (h.resolve_left hx).2

/-- The numbers of an edit fit in their bit fields (`-1`: keep); dates do not end in 8 or 9. -/
structure Fitting (a : Edit) : Prop where
  deet : Fits 24 a.deet
  npas : Fits 26 a.npas
  ip1 : Fits 28 a.ip1
  ip2 : Fits 28 a.ip2
  ip3 : Fits 28 a.ip3
  ig1 : Fits 24 a.ig1
  ig2 : Fits 24 a.ig2
  ig3 : Fits 24 a.ig3
  ig4 : Fits 24 a.ig4
  date : a.date = BitVec.ofInt 32 (-1) ∨ a.date.toNat % 10 ≤ 7
  typvar : ∀ c ∈ a.typvar, nameChar c
  nomvar : ∀ c ∈ a.nomvar, nameChar c
  etiket : ∀ c ∈ a.etiket, nameChar c

theorem names_of (tv nv et : List (BitVec 8)) (htv : ∀ c ∈ tv, nameChar c) (hnv : ∀ c ∈ nv, nameChar c)
    (het : ∀ c ∈ et, nameChar c) :
    [dec1 (enc2 (padTo 2 tv) 0) 6, dec1 (enc2 (padTo 2 tv) 0) 0] = name 2 tv ∧
    [dec1 (enc4 (padTo 4 nv) 0) 18, dec1 (enc4 (padTo 4 nv) 0) 12, dec1 (enc4 (padTo 4 nv) 0) 6,
      dec1 (enc4 (padTo 4 nv) 0) 0] = name 4 nv ∧
    [dec1 (enc5 (padTo 12 et) 0) 24, dec1 (enc5 (padTo 12 et) 0) 18, dec1 (enc5 (padTo 12 et) 0) 12,
      dec1 (enc5 (padTo 12 et) 0) 6, dec1 (enc5 (padTo 12 et) 0) 0, dec1 (enc5 (padTo 12 et) 5) 24,
      dec1 (enc5 (padTo 12 et) 5) 18, dec1 (enc5 (padTo 12 et) 5) 12, dec1 (enc5 (padTo 12 et) 5) 6,
      dec1 (enc5 (padTo 12 et) 5) 0, dec1 (enc2 (padTo 12 et) 10) 6, dec1 (enc2 (padTo 12 et) 10) 0] =
      name 12 et := by
  obtain ⟨n2, n4, n12⟩ := Props.FstKeys.names_decode (padTo 2 tv) (padTo 4 nv) (padTo 12 et)
  refine ⟨?_, ?_, ?_⟩
  · rw [n2]
    rw [Props.FstKeys.getD_name 2 _ htv 0 (by omega), Props.FstKeys.getD_name 2 _ htv 1 (by omega),
      ← Props.FstKeys.list2_of_getD (name 2 tv) (Props.FstKeys.length_name _ _)]
  · rw [n4]
    rw [Props.FstKeys.getD_name 4 _ hnv 0 (by omega), Props.FstKeys.getD_name 4 _ hnv 1 (by omega),
      Props.FstKeys.getD_name 4 _ hnv 2 (by omega), Props.FstKeys.getD_name 4 _ hnv 3 (by omega),
      ← Props.FstKeys.list4_of_getD (name 4 nv) (Props.FstKeys.length_name _ _)]
  · rw [n12]
    rw [Props.FstKeys.getD_name 12 _ het 0 (by omega), Props.FstKeys.getD_name 12 _ het 1 (by omega),
        Props.FstKeys.getD_name 12 _ het 2 (by omega), Props.FstKeys.getD_name 12 _ het 3 (by omega),
        Props.FstKeys.getD_name 12 _ het 4 (by omega), Props.FstKeys.getD_name 12 _ het 5 (by omega),
        Props.FstKeys.getD_name 12 _ het 6 (by omega), Props.FstKeys.getD_name 12 _ het 7 (by omega),
        Props.FstKeys.getD_name 12 _ het 8 (by omega), Props.FstKeys.getD_name 12 _ het 9 (by omega),
        Props.FstKeys.getD_name 12 _ het 10 (by omega), Props.FstKeys.getD_name 12 _ het 11 (by omega),
        ← Props.FstKeys.list12_of_getD (name 12 et) (Props.FstKeys.length_name _ _)]

/-- **C94, the descriptors.**  What `c_fstprm` tells of a record after an edit: each descriptor of the edit that is
not -1 (names: not blank), and the old value of each other.  Dimensions, number of bits and data type are the old
ones whatever the edit says. -/
theorem C94_descriptors_partial (a : Edit) (h : Fitting a) (k : Keys) :
    let p := fstprm (FstKeys.ofWords (editKeys a k).words)
    let o := fstprm k
    p.dateValid = (if a.date = BitVec.ofInt 32 (-1) then o.dateValid else a.date) ∧
    p.deet = (if a.deet = -1 then (o.deet : Int) else a.deet) ∧
    p.npas = (if a.npas = -1 then (o.npas : Int) else a.npas) ∧
    p.ip1 = (if a.ip1 = -1 then (o.ip1 : Int) else a.ip1) ∧
    p.ip2 = (if a.ip2 = -1 then (o.ip2 : Int) else a.ip2) ∧
    p.ip3 = (if a.ip3 = -1 then (o.ip3 : Int) else a.ip3) ∧
    p.ig1 = (if a.ig1 = -1 then (o.ig1 : Int) else a.ig1) ∧
    p.ig2 = (if a.ig2 = -1 then (o.ig2 : Int) else a.ig2) ∧
    p.ig3 = (if a.ig3 = -1 then (o.ig3 : Int) else a.ig3) ∧
    p.ig4 = (if a.ig4 = -1 then (o.ig4 : Int) else a.ig4) ∧
    p.typvar = (if Blank 2 a.typvar then o.typvar else name 2 a.typvar) ∧
    p.nomvar = (if Blank 4 a.nomvar then o.nomvar else name 4 a.nomvar) ∧
    p.etiket = (if Blank 12 a.etiket then o.etiket else name 12 a.etiket) ∧
    p.grtyp = (if Blank 1 a.grtyp then o.grtyp else a.grtyp.take 1) ∧
    p.ni = o.ni ∧ p.nj = o.nj ∧ p.nk = o.nk ∧ p.nbits = o.nbits ∧ p.datyp = o.datyp := by
  obtain ⟨n2, n4, n12⟩ := names_of a.typvar a.nomvar a.etiket h.typvar h.nomvar h.etiket
  rw [ofWords_words]
  refine ⟨?_, orKeep_nat _ _ _ h.deet, orKeep_nat _ _ _ h.npas, orKeep_nat _ _ _ h.ip1, orKeep_nat _ _ _ h.ip2,
    orKeep_nat _ _ _ h.ip3, orKeep_nat _ _ _ h.ig1, ?_, orKeep_nat _ _ _ h.ig3, orKeep_nat _ _ _ h.ig4,
    ?_, ?_, ?_, ?_, rfl, rfl, rfl, rfl, rfl⟩
  · simp only [fstprm, editKeys]
    split
    · rfl
    · rename_i hd
      exact C34_date_round_trip_partial _ (h.date.resolve_left hd)
  · simp only [fstprm, editKeys]
    by_cases h2 : a.ig2 = -1
    · simp only [if_pos h2]
    · simp only [if_neg h2]
      obtain ⟨h20, h21⟩ := h.ig2.resolve_left h2
      exact ig2_join _ h20 (by omega)
  · simp only [fstprm, editKeys]
    by_cases hb : Blank 2 a.typvar
    · simp only [(keeps_iff 2 a.typvar).2 hb, if_true, if_pos hb]
    · have hk : keeps 2 a.typvar = false := by
        rw [← Bool.not_eq_true, keeps_iff]; exact hb
      simp only [hk, Bool.false_eq_true, if_false, if_neg hb]
      exact n2
  · simp only [fstprm, editKeys]
    by_cases hb : Blank 4 a.nomvar
    · simp only [(keeps_iff 4 a.nomvar).2 hb, if_true, if_pos hb]
    · have hk : keeps 4 a.nomvar = false := by
        rw [← Bool.not_eq_true, keeps_iff]; exact hb
      simp only [hk, Bool.false_eq_true, if_false, if_neg hb]
      exact n4
  · simp only [fstprm, editKeys]
    by_cases hb : Blank 12 a.etiket
    · simp only [(keeps_iff 12 a.etiket).2 hb, if_true, if_pos hb]
    · have hk : keeps 12 a.etiket = false := by
        rw [← Bool.not_eq_true, keeps_iff]; exact hb
      simp only [hk, Bool.false_eq_true, if_false, if_neg hb]
      exact n12
  · simp only [fstprm, editKeys]
    by_cases hb : Blank 1 a.grtyp
    · simp only [(keeps_iff 1 a.grtyp).2 hb, if_true, if_pos hb]
    · have hk : keeps 1 a.grtyp = false := by
        rw [← Bool.not_eq_true, keeps_iff]; exact hb
      simp only [hk, Bool.false_eq_true, if_false, if_neg hb]
      rw [ch_padTo 1 _ 0 (by omega)]
      cases hg : a.grtyp with
      | nil => rw [hg] at hb; exact absurd (by intro c hc; simp at hc) hb
      | cons c s => rfl

/-- An edit that keeps everything. -/
def nothing : Edit :=
  { date := BitVec.ofInt 32 (-1), deet := -1, npas := -1, ni := -1, nj := -1, nk := -1, ip1 := -1, ip2 := -1, ip3 := -1,
    typvar := [32#8], nomvar := [32#8], etiket := [32#8], grtyp := [32#8], ig1 := -1, ig2 := -1, ig3 := -1, ig4 := -1,
    datyp := -1 }

/-- The hypotheses are met, by the edit that keeps everything and by one that changes a name and a level. -/
example : Fitting nothing ∧ Fitting { nothing with nomvar := [116#8, 84#8], ip1 := 93423264, ig2 := 0x123456 } := by
  refine ⟨⟨.inl rfl, .inl rfl, .inl rfl, .inl rfl, .inl rfl, .inl rfl, .inl rfl, .inl rfl, .inl rfl, .inl rfl, ?_, ?_, ?_⟩,
    ⟨.inl rfl, .inl rfl, .inr (by decide), .inl rfl, .inl rfl, .inl rfl, .inr (by decide), .inl rfl, .inl rfl, .inl rfl,
      ?_, ?_, ?_⟩⟩ <;> simp [nothing, nameChar]

/-- The words of an entry of a standard file and its fields are the same thing. -/
theorem words_ofWords (w : List W) (h : w.length = 18) : (FstKeys.ofWords w).words = w := by
  match w, h with
  | [w0, w1, w2, w3, w4, w5, w6, w7, w8, w9, w10, w11, w12, w13, w14, w15, w16, w17], _ =>
    have two : ∀ (n m : Nat) (x : BitVec (n + m)), x.extractLsb' m n ++ x.extractLsb' 0 m = x := by
      intro n m x
      apply BitVec.eq_of_getLsbD_eq
      intro i hi
      simp only [BitVec.getLsbD_append, BitVec.getLsbD_extractLsb']
      by_cases hm : i < m
      · simp [hm]
      · simp [hm, show i - m < n by omega, show m + (i - m) = i by omega]
    have three : ∀ (n m l : Nat) (x : BitVec (n + m + l)),
        x.extractLsb' (m + l) n ++ x.extractLsb' l m ++ x.extractLsb' 0 l = x := by
      intro n m l x
      apply BitVec.eq_of_getLsbD_eq
      intro i hi
      simp only [BitVec.getLsbD_append, BitVec.getLsbD_extractLsb']
      by_cases hl : i < l
      · simp [hl]
      · by_cases hm : i - l < m
        · simp [hl, hm, show l + (i - l) = i by omega]
        · simp [hl, hm, show i - l - m < n by omega, show m + l + (i - l - m) = i by omega]
    simp only [FstKeys.ofWords, Keys.words, List.getD_cons_zero, List.getD_cons_succ]
    rw [three 1 7 24 w0, two 24 8 w2, two 24 8 w3, two 24 8 w4, two 20 12 w5, two 26 6 w6, two 24 8 w7, two 24 8 w8,
      two 24 8 w9, two 30 2 w10, two 30 2 w11, three 12 12 8 w12, two 24 8 w13, two 28 4 w14, two 28 4 w15, two 28 4 w16]

theorem entry_fields (k k' : Keys) (h1 : k'.deleted = k.deleted) (h2 : k'.select = k.select) (h3 : k'.lng = k.lng)
    (h4 : k'.addr = k.addr) : (Entry.ofWords k'.words).idtyp = (Entry.ofWords k.words).idtyp ∧
      (Entry.ofWords k'.words).lng = (Entry.ofWords k.words).lng ∧
      (Entry.ofWords k'.words).addr = (Entry.ofWords k.words).addr := by
  simp only [Entry.ofWords, Keys.words, List.getD_cons_zero, List.getD_cons_succ, h1, h2, h3, h4, and_self]

/-- Entries as they are in memory: numbers within their fields, 18 words. -/
structure EntryOk (e : Entry) : Prop where
  idtyp : e.idtyp < 2 ^ 8
  lng : e.lng < 2 ^ 24
  addr : e.addr < 2 ^ 32
  keys : e.keys.length = 16

theorem ofWords_entry (e : Entry) (h : EntryOk e) : Entry.ofWords e.words = e := by
  obtain ⟨t, l, a, ks⟩ := e
  obtain ⟨h1, h2, h3, h4⟩ := h
  dsimp only at h1 h2 h3 h4
  simp only [Entry.ofWords, Entry.words, List.getD_cons_zero, List.getD_cons_succ, List.drop_succ_cons, List.drop_zero,
    Entry.mk.injEq, and_true]
  refine ⟨?_, ?_, ?_⟩
  · rw [ext_hi, BitVec.toNat_ofNat, Nat.mod_eq_of_lt h1]
  · rw [ext_lo, BitVec.toNat_ofNat, Nat.mod_eq_of_lt h2]
  · rw [BitVec.toNat_ofNat, Nat.mod_eq_of_lt h3]

/-- **C94, the file.**  An edit of an existing record (page `p`, record `r`) keeps the type, the length and the address
of the record, so that its data are found as before, all other entries, the pages otherwise, and the header; it marks
page and file as modified.  The new words of the entry are those of `C94_descriptors_partial`. -/
theorem C94_file_partial (m : Mem) (p r : Nat) (a : Edit) (pg : Page) (e : Entry) (hp : m.pages[p]? = some pg)
    (hr : pg.entries[r]? = some e) (he : EntryOk e) :
    ∃ m' pg' e', editDir m p r a = some (.ok m') ∧ m'.pages[p]? = some pg' ∧ pg'.entries[r]? = some e' ∧
      FstKeys.ofWords e'.words = editKeys a (FstKeys.ofWords e.words) ∧
      e'.idtyp = e.idtyp ∧ e'.lng = e.lng ∧ e'.addr = e.addr ∧ EntryOk e' ∧
      (∀ r', r' ≠ r → pg'.entries[r']? = pg.entries[r']?) ∧
      pg'.nent = pg.nent ∧ pg'.addr = pg.addr ∧ pg'.nxtAddr = pg.nxtAddr ∧ pg'.modified = true ∧
      (∀ p', p' ≠ p → m'.pages[p']? = m.pages[p']?) ∧ m'.pages.length = m.pages.length ∧
      m'.hdr = m.hdr ∧ m'.nxtadr = m.nxtadr ∧ m'.modified = true := by
  have hpl : p < m.pages.length := (List.getElem?_eq_some_iff.1 hp).1
  have hrl : r < pg.entries.length := (List.getElem?_eq_some_iff.1 hr).1
  have hlen : e.words.length = 18 := by simp [Entry.words, he.keys]
  have hw : Entry.ofWords (FstKeys.ofWords e.words).words = e := by
    rw [words_ofWords _ hlen, ofWords_entry e he]
  obtain ⟨f1, f2, f3⟩ := entry_fields (FstKeys.ofWords e.words) (editKeys a (FstKeys.ofWords e.words)) rfl rfl rfl rfl
  rw [hw] at f1 f2 f3
  have hk : EntryOk (Entry.ofWords (editKeys a (FstKeys.ofWords e.words)).words) :=
    ⟨by rw [f1]; exact he.idtyp, by rw [f2]; exact he.lng, by rw [f3]; exact he.addr, rfl⟩
  refine ⟨⟨m.hdr, setEntry m.pages p r (Entry.ofWords (editKeys a (FstKeys.ofWords e.words)).words), m.nxtadr, true⟩,
    { pg with entries := pg.entries.set r (Entry.ofWords (editKeys a (FstKeys.ofWords e.words)).words), modified := true },
    Entry.ofWords (editKeys a (FstKeys.ofWords e.words)).words, ?_, ?_, ?_, ?_, f1, f2, f3, hk, ?_, rfl, rfl, rfl, rfl,
    ?_, ?_, rfl, rfl, rfl⟩
  · unfold editDir
    rw [if_neg (by omega)]
    simp only [hp, hr]
  · simp only [setEntry, hp]
    rw [List.getElem?_set_self hpl]
  · simp only
    rw [List.getElem?_set_self hrl]
  · have : (Entry.ofWords (editKeys a (FstKeys.ofWords e.words)).words).words = (editKeys a (FstKeys.ofWords e.words)).words := by
      generalize editKeys a (FstKeys.ofWords e.words) = k
      have two : ∀ (n m : Nat) (x : BitVec (n + m)), x.extractLsb' m n ++ x.extractLsb' 0 m = x := by
        intro n m x
        apply BitVec.eq_of_getLsbD_eq
        intro i hi
        simp only [BitVec.getLsbD_append, BitVec.getLsbD_extractLsb']
        by_cases hm : i < m
        · simp [hm]
        · simp [hm, show i - m < n by omega, show m + (i - m) = i by omega]
      simp only [Entry.words, Entry.ofWords, BitVec.ofNat_toNat, BitVec.setWidth_eq]
      simp only [Keys.words, List.getD_cons_zero, List.getD_cons_succ, List.drop_succ_cons, List.drop_zero]
      rw [two 8 24]
    rw [this, ofWords_words]
  · intro r' hne
    simp only
    rw [List.getElem?_set_ne (Ne.symm hne)]
  · intro p' hne
    simp only [setEntry, hp]
    rw [List.getElem?_set_ne (Ne.symm hne)]
  · simp [setEntry, hp]

/-- The entry of the record of `Props.FstKeys.exArgs`, at address 9, of 20 units. -/
def sample : Entry := ⟨1, 20, 9, ((fstecrKeys Props.FstKeys.exArgs).getD Keys.zero).words.drop 2⟩

/-- A file with that record only. -/
def sampleFile (rwflg : Nat) : Mem :=
  { hdr := ⟨0, 4, 0#32, 0x58444630#32, 0#32, 29, 1#32, 0#32, 1, 0#32, 0, 0#16, 9, 0#32, 0#32, 1, rwflg, 0#32, []⟩,
    pages := [⟨0#32, 5, 0#32, 0#32, 0, 1, 0#32, 0#32, [sample], false⟩], nxtadr := 59, modified := false }

theorem sample_ok : EntryOk sample := ⟨by decide, by decide, by decide, by decide⟩

/-- The hypotheses of `C94_file_partial` are met. -/
example : ∃ pg e, (sampleFile 3).pages[0]? = some pg ∧ pg.entries[0]? = some e ∧ EntryOk e := ⟨_, _, rfl, rfl, sample_ok⟩

/-- The descriptors of a record after an edit, if the call succeeds. -/
def after (m : Mem) (p r : Nat) (a : Edit) : Option Parms :=
  match editDir m p r a with
  | some (.ok m') => ((m'.pages[p]?).bind fun pg => pg.entries[r]?).map fun e => fstprm (FstKeys.ofWords e.words)
  | _ => none

/-- A name is changed, the rest stays. -/
example : (after (sampleFile 3) 0 0 { nothing with nomvar := [103#8, 122#8] }).map (fun p => (p.nomvar, p.ip2, p.etiket)) =
    some ([71#8, 90#8, 32#8, 32#8], 24, [82#8, 85#8, 78#8, 95#8, 65#8, 49#8, 32#8, 32#8, 32#8, 32#8, 32#8, 32#8]) := by
  decide +kernel

/-- **C94**: a value too large for its field, which `fstecr` refuses, is cut: level 2^28 + 5 becomes 5. -/
theorem C94_range_witness : (after (sampleFile 3) 0 0 { nothing with ip1 := 2 ^ 28 + 5 }).map (·.ip1) = some 5 ∧
    fstecrKeys { Props.FstKeys.exArgs with ip1 := 2 ^ 28 + 5 } = none := by
  constructor <;> decide +kernel

/-- **C94**: dimensions and data type are accepted and not changed. -/
theorem C94_ignored_witness : (after (sampleFile 3) 0 0 { nothing with ni := 7, nj := 8, nk := 9, datyp := 1 }).map
    (fun p => (p.ni, p.nj, p.nk, p.datyp)) = some (360, 180, 1, 134) := by
  decide +kernel

/-- **C94**: a page number one past the last is not refused; the page pointer used is not one of the file. -/
theorem C94_page_witness (m : Mem) (r : Nat) (a : Edit) : editDir m m.pages.length r a = none := by
  unfold editDir
  rw [if_neg (by omega), List.getElem?_eq_none (Nat.le_refl _)]

/-- Larger page numbers are refused. -/
theorem C94_page (m : Mem) (p r : Nat) (a : Edit) (h : m.pages.length < p) : editDir m p r a = some (.error .badPageno) := by
  unfold editDir
  rw [if_pos h]

/-- **C94**: a deleted record is edited, and so is an entry after the last record; neither can be read. -/
theorem C94_deleted_witness : ∃ m m' m'', (m.pages[0]?).map (·.nent) = some 1 ∧
    editDir m 0 0 nothing = some (.ok m') ∧ editDir m 0 1 nothing = some (.ok m'') ∧
    (Verif.Xdf.get m [] 0 0 matches .error .deleted) = true := by
  refine ⟨{ sampleFile 3 with pages := [⟨0#32, 5, 0#32, 0#32, 0, 1, 0#32, 0#32, [{ sample with idtyp := 254 }, sample], false⟩] },
    _, _, rfl, rfl, rfl, ?_⟩
  decide +kernel

/-- **C94**: a file open for reading only is edited in memory, and closing it then writes its directory. -/
theorem C94_readonly_witness : ∃ m', editDir (sampleFile Xdf.RDMODE) 0 0 nothing = some (.ok m') ∧
    m'.hdr.rwflg = Xdf.RDMODE ∧ Xdf.close (sampleFile Xdf.RDMODE) = [] ∧ (Xdf.close m').length = 1 := by
  refine ⟨_, rfl, rfl, by decide +kernel, by decide +kernel⟩

/-- The older call never changes the grid type. -/
theorem C94_old (m : Mem) (p r : Nat) (a : Edit) : editDirOld m p r a = editDir m p r { a with grtyp := [] } := by
  have : ∀ k, editKeys { a with ni := -1, nj := -1, nk := -1, grtyp := [32#8], datyp := -1 } k =
      editKeys { a with grtyp := [] } k := fun k => rfl
  unfold editDirOld editDir
  simp only [this]

end Verif.FstEdit
