import Verif.Xdf
/-! Lemmas about disks, words of entries, pages and headers. -/

namespace Verif.Xdf

/-- The disk holds words `ws` at position `a`. -/
def Has (d : Disk) (a : Nat) (ws : List W) : Prop := ∀ i, i < ws.length → d[a + i]? = ws[i]?

theorem writeAt_get (d : Disk) (a : Nat) (ws : List W) (i : Nat) :
    (writeAt d a ws)[i]? =
      if i < a then (if i < d.length then d[i]? else some 0#32)
      else if i < a + ws.length then ws[i - a]? else d[i]? := by
  unfold writeAt
  simp only [List.append_assoc]
  by_cases h1 : i < a
  · rw [if_pos h1]
    by_cases h2 : i < d.length
    · rw [if_pos h2, List.getElem?_append_left (by simp; omega), List.getElem?_take_of_lt h1]
    · rw [if_neg h2, List.getElem?_append_right (by simp; omega), List.getElem?_append_left (by simp; omega)]
      simp [List.getElem?_replicate]; omega
  · rw [if_neg h1]
    have hl : (d.take a).length + (List.replicate (a - d.length) 0#32 : List W).length = a := by
      simp; omega
    rw [List.getElem?_append_right (by simp; omega), List.getElem?_append_right (by simp; omega)]
    have : i - (d.take a).length - (List.replicate (a - d.length) 0#32 : List W).length = i - a := by
      omega
    rw [this]
    by_cases h2 : i < a + ws.length
    · rw [if_pos h2, List.getElem?_append_left (by omega)]
    · rw [if_neg h2, List.getElem?_append_right (by omega), List.getElem?_drop]
      congr 1; omega

theorem writeAt_length (d : Disk) (a : Nat) (ws : List W) :
    (writeAt d a ws).length = max (max d.length a) (a + ws.length) := by
  unfold writeAt; simp; omega

theorem has_write_self (d : Disk) (a : Nat) (ws : List W) : Has (writeAt d a ws) a ws := by
  intro i hi
  rw [writeAt_get, if_neg (by omega), if_pos (by omega)]; congr 1; omega

theorem has_lt {d : Disk} {a : Nat} {ws : List W} (h : Has d a ws) (hn : ws ≠ []) :
    a + ws.length ≤ d.length := by
  have hp : 0 < ws.length := List.length_pos_iff.2 hn
  have := h (ws.length - 1) (by omega)
  rw [List.getElem?_eq_getElem (l := ws) (by omega)] at this
  have := (List.getElem?_eq_some_iff.1 this).1
  omega

theorem has_write_disj {d : Disk} {b : Nat} {vs : List W} (h : Has d b vs) (a : Nat) (ws : List W)
    (hd : b + vs.length ≤ a ∨ a + ws.length ≤ b) : Has (writeAt d a ws) b vs := by
  intro i hi
  have hl := has_lt h (by intro h; simp [h] at hi)
  rw [writeAt_get]
  by_cases h1 : b + i < a
  · rw [if_pos h1, if_pos (by omega)]; exact h i hi
  · rw [if_neg h1, if_neg (by omega)]; exact h i hi

theorem has_iff_read {d : Disk} {a : Nat} {ws : List W} (hn : ws ≠ []) :
    Has d a ws ↔ readAt d a ws.length = some ws := by
  constructor
  · intro h
    have hl := has_lt h hn
    unfold readAt
    rw [if_pos hl]
    congr 1
    apply List.ext_getElem?
    intro i
    by_cases hi : i < ws.length
    · rw [List.getElem?_take_of_lt hi, List.getElem?_drop]; exact h i hi
    · rw [List.getElem?_eq_none (by simp; omega), List.getElem?_eq_none (by omega)]
  · intro h i hi
    unfold readAt at h
    split at h
    · have h' : List.take ws.length (List.drop a d) = ws := by simpa using h
      have : (List.take ws.length (List.drop a d))[i]? = ws[i]? := by rw [h']
      rwa [List.getElem?_take_of_lt hi, List.getElem?_drop] at this
    · simp at h

theorem has_read {d : Disk} {a : Nat} {ws : List W} (h : Has d a ws) {n : Nat}
    (hn : ws.length = n) (h0 : 0 < n) : readAt d a n = some ws := by
  subst hn
  exact (has_iff_read (by intro h; simp [h] at h0)).1 h

theorem read_has {d : Disk} {a n : Nat} {ws : List W} (h : readAt d a n = some ws) :
    ws.length = n ∧ Has d a ws := by
  unfold readAt at h
  split at h
  case isFalse => simp at h
  case isTrue hh =>
    have h' : List.take n (List.drop a d) = ws := by simpa using h
    have hl : ws.length = n := by rw [← h']; simp; omega
    refine ⟨hl, fun i hi => ?_⟩
    rw [← h', List.getElem?_take_of_lt (by omega), List.getElem?_drop]

theorem has_append {d : Disk} {a : Nat} {u v : List W} :
    Has d a (u ++ v) ↔ Has d a u ∧ Has d (a + u.length) v := by
  constructor
  · intro h
    refine ⟨fun i hi => ?_, fun i hi => ?_⟩
    · rw [h i (by simp; omega), List.getElem?_append_left hi]
    · have := h (u.length + i) (by simp; omega)
      rw [List.getElem?_append_right (by omega)] at this
      rw [Nat.add_assoc, this]; congr 1; omega
  · rintro ⟨h1, h2⟩ i hi
    by_cases hu : i < u.length
    · rw [List.getElem?_append_left hu]; exact h1 i hu
    · rw [List.getElem?_append_right (by omega)]
      rw [← h2 (i - u.length) (by simp at hi; omega)]; congr 1; omega

/-! ## Round trips of words -/

def Entry.Ok (width : Nat) (e : Entry) : Prop :=
  e.idtyp < 2 ^ 8 ∧ e.lng < 2 ^ 24 ∧ e.addr < 2 ^ 32 ∧ e.keys.length + 2 = width

theorem ext_lo {n m : Nat} (a : BitVec n) (b : BitVec m) : (a ++ b).extractLsb' 0 m = b := by
  apply BitVec.eq_of_getLsbD_eq; intro i hi
  simp only [BitVec.getLsbD_extractLsb', BitVec.getLsbD_append]; simp [hi]

theorem ext_hi {n m : Nat} (a : BitVec n) (b : BitVec m) : (a ++ b).extractLsb' m n = a := by
  apply BitVec.eq_of_getLsbD_eq; intro i hi
  simp only [BitVec.getLsbD_extractLsb', BitVec.getLsbD_append]; simp [hi]

theorem ext_top8 (a : BitVec 8) (b : BitVec 24) : ((a ++ b : W).extractLsb' 24 8) = a := ext_hi a b

theorem ext_low24 (a : BitVec 8) (b : BitVec 24) : ((a ++ b : W).extractLsb' 0 24) = b := ext_lo a b

theorem ext_top16 (a b : BitVec 16) : ((a ++ b : W).extractLsb' 16 16) = a := ext_hi a b

theorem ext_low16 (a b : BitVec 16) : ((a ++ b : W).extractLsb' 0 16) = b := ext_lo a b

theorem ofNat_toNat_lt {n k : Nat} (h : k < 2 ^ n) : (BitVec.ofNat n k).toNat = k := by
  rw [BitVec.toNat_ofNat, Nat.mod_eq_of_lt h]

theorem Entry.ofWords_words {width : Nat} {e : Entry} (h : e.Ok width) :
    Entry.ofWords e.words = e := by
  obtain ⟨h1, h2, h3, _⟩ := h
  cases e
  simp only [Entry.ofWords, Entry.words, List.getD_cons_zero, List.getD_cons_succ,
    List.drop_succ_cons, List.drop_zero, ext_top8, ext_low24]
  rw [ofNat_toNat_lt h1, ofNat_toNat_lt h2, ofNat_toNat_lt h3]

theorem Entry.ofWords_ok {width : Nat} {w : List W} (h : w.length = width) (h2 : 2 ≤ width) :
    (Entry.ofWords w).Ok width := by
  refine ⟨BitVec.isLt _, BitVec.isLt _, BitVec.isLt _, ?_⟩
  simp [Entry.ofWords]; omega

theorem Entry.words_length {width : Nat} {e : Entry} (h : e.Ok width) : e.words.length = width := by
  simp [Entry.words, ← h.2.2.2]

theorem flat_length {width : Nat} (es : List Entry) (h : ∀ e ∈ es, e.Ok width) :
    (es.flatMap Entry.words).length = es.length * width := by
  induction es with
  | nil => simp
  | cons e es ih =>
    rw [List.flatMap_cons, List.length_append, ih (fun x hx => h x (by simp [hx])),
      Entry.words_length (h e (by simp)), List.length_cons, Nat.add_mul]
    omega

theorem chunks_flat {width : Nat} (es : List Entry) (h : ∀ e ∈ es, e.Ok width) :
    chunks width es.length (es.flatMap Entry.words) = es.map Entry.words := by
  induction es with
  | nil => rfl
  | cons e es ih =>
    have he := Entry.words_length (h e (by simp))
    rw [List.length_cons, chunks, List.flatMap_cons, List.take_left' he, List.drop_left' he,
      ih (fun x hx => h x (by simp [hx]))]
    rfl

/-- A page whose fields fit their words. -/
structure Page.Ok (width : Nat) (p : Page) : Prop where
  addr : p.addr < 2 ^ 32
  nxt : p.nxtAddr < 2 ^ 32
  nent : p.nent < 2 ^ 32
  len : p.entries.length = perPage
  ents : ∀ e ∈ p.entries, e.Ok width

theorem Page.words_length {width : Nat} {p : Page} (h : p.Ok width) :
    p.words.length = 8 + perPage * width := by
  simp [Page.words, Page.body, flat_length p.entries h.ents, h.len]; omega

theorem Page.ofWords_words {width : Nat} {p : Page} (h : p.Ok width) :
    Page.ofWords width p.words = { p with modified := false } := by
  have hc := chunks_flat p.entries h.ents
  rw [h.len] at hc
  have hm : (p.entries.map Entry.words).map Entry.ofWords = p.entries := by
    rw [List.map_map]
    conv => rhs; rw [← List.map_id p.entries]
    apply List.map_congr_left
    intro e he
    exact Entry.ofWords_words (h.ents e he)
  simp only [Page.ofWords, Page.words, Page.body, List.getD_cons_zero, List.getD_cons_succ,
    List.drop_succ_cons, List.drop_zero]
  rw [ofNat_toNat_lt h.addr, ofNat_toNat_lt h.nxt, ofNat_toNat_lt h.nent, hc, hm]

structure Header.Ok (h : Header) : Prop where
  idtyp : h.idtyp < 2 ^ 8
  lng : h.lng < 2 ^ 24
  fsiz : h.fsiz < 2 ^ 32
  nbd : h.nbd < 2 ^ 32
  nbig : h.nbig < 2 ^ 32
  lprm : h.lprm < 2 ^ 16
  nrec : h.nrec < 2 ^ 32
  rwflg : h.rwflg < 2 ^ 32
  keys : h.keys.length + 16 = 2 * h.lng

theorem Header.words_length {h : Header} (ok : h.Ok) : h.words.length = 2 * h.lng := by
  simp [Header.words, ← ok.keys]

theorem Header.ofWords_words {h : Header} (ok : h.Ok) : Header.ofWords h.words = h := by
  cases h with
  | mk idtyp lng addr vrsn sign fsiz nrwr nxtn nbd plst nbig nprm lprm auxw neff nrec rwflg res keys =>
  obtain ⟨h1, h2, h3, h4, h5, h6, h7, h8, h9⟩ := ok
  simp only at h1 h2 h3 h4 h5 h6 h7 h8 h9
  simp only [Header.ofWords, Header.words, List.cons_append, List.nil_append, List.getD_cons_zero,
    List.getD_cons_succ, List.drop_succ_cons, List.drop_zero, ext_top8, ext_low24, ext_top16,
    ext_low16]
  rw [ofNat_toNat_lt h1, ofNat_toNat_lt h2, ofNat_toNat_lt h3, ofNat_toNat_lt h4,
    ofNat_toNat_lt h5, ofNat_toNat_lt h6, ofNat_toNat_lt h7, ofNat_toNat_lt h8]

end Verif.Xdf
