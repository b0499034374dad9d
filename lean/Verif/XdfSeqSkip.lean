import Verif.XdfSeqWrite
/-! Lemmas about skipping records of a sequential file, and about deleting one. -/

namespace Verif.XdfSeq

open Verif.Xdf

theorem readAt_has {d : List W} {a n : Nat} {ws : List W} (h : Has d a ws) (hn : ws.length = n)
    (h0 : 0 < n) : readAt d a n = some ws := has_read h hn h0

theorem record_head {d : List W} {a id : Nat} {body : List W}
    (h : Has d a (Item.words a (.record id body))) :
    Has d a [word0 id ((body.length + 2) / 2), BitVec.ofNat 32 (a / 2 + 1)] := by
  have p1 := (has_record h).1
  rw [show word0 id ((body.length + 2) / 2) :: BitVec.ofNat 32 (a / 2 + 1) :: body =
    [word0 id ((body.length + 2) / 2), BitVec.ofNat 32 (a / 2 + 1)] ++ body from rfl, has_append] at p1
  exact p1.1

theorem waread2_two {d : List W} {a : Nat} {w x : W} (h : Has d a [w, x]) : waread2 d a 2 = [w, x] := by
  simpa using waread2_has h (n := 2) (by simp) (by simp)

theorem skpBack_one (n : Nat) (s : St) (a id : Nat) (body : List W)
    (h : Has s.d a (Item.words a (.record id body))) (hc : s.cur = a + (body.length + 6))
    (hb : s.bof ≤ a) (he : a % 2 = 0) (hs : a < 2 ^ 31) :
    skpBack (n + 1) s = skpBack n { s with cur := a } := by
  rw [skpBack, if_pos (by omega), show s.cur - 4 = a + (body.length + 2) by omega,
    readAt_has (n := 4) (has_record h).2 rfl (by simp)]
  dsimp only
  rw [isPostfix_postfix, if_pos rfl]
  have h3 : (postfix_ id ((body.length + 2) / 2) (a / 2 + 1)).getD 3 0#32 =
      BitVec.ofNat 32 (a / 2 + 1) := rfl
  rw [h3, ofNat_toNat_lt (by omega), show 2 * (a / 2 + 1 - 1) = a by omega,
    readAt_has (n := 2) (record_head h) rfl (by simp)]
  dsimp only
  rw [if_neg (by simp only [List.getD_cons_succ, List.getD_cons_zero]; rw [ofNat_toNat_lt (by omega)]; simp)]

/-- The two words before the end of an item. -/
theorem item_tail {d : List W} {a width : Nat} {i : Item} (ho : i.Ok width) (h : Has d a (i.words a)) :
    ∃ w x, Has d (a + i.size - 2) [w, x] ∧ idtyp w ≠ 0 := by
  cases i with
  | mark l =>
    obtain ⟨l1, l2⟩ := ho
    refine ⟨word0 (112 + l) 1, BitVec.ofNat 32 (a + 1), ?_, ?_⟩
    · simpa [Item.size, Item.words] using h
    · rw [idtyp_word0 (by omega)]; omega
  | record id body =>
    obtain ⟨o1, o2, -, -, -⟩ := ho
    have h2 := (has_record h).2
    rw [show postfix_ id ((body.length + 2) / 2) (a / 2 + 1) = [word0 0 2, BitVec.ofInt 32 (-1)] ++
      [word0 id ((body.length + 2) / 2), BitVec.ofNat 32 (a / 2 + 1)] from rfl, has_append] at h2
    refine ⟨word0 id ((body.length + 2) / 2), BitVec.ofNat 32 (a / 2 + 1), ?_, ?_⟩
    · have h3 := h2.2
      simp only [List.length_cons, List.length_nil] at h3
      rw [show a + (Item.record id body).size - 2 = a + (body.length + 2) + (0 + 1 + 1) by
        simp only [Item.size]; omega]
      exact h3
    · rw [idtyp_word0 (by omega)]; omega

/-- The words of item `k` of a view. -/
theorem View.at {d : List W} {H k width stop : Nat} {items : List Item} {i : Item}
    (v : View d H items width stop) (hk : items[k]? = some i) :
    Has d (H + sizes (items.take k)) (i.words (H + sizes (items.take k))) ∧ i.Ok width ∧
      sizes (items.take (k + 1)) = sizes (items.take k) + i.size ∧
      sizes (items.take k) + i.size ≤ sizes items ∧ sizes (items.take k) % 2 = 0 := by
  obtain ⟨hkl, hke⟩ := List.getElem?_eq_some_iff.1 hk
  have hsplit : items = items.take k ++ i :: items.drop (k + 1) := by
    rw [← hke, List.getElem_cons_drop, List.take_append_drop]
  have hd := v.has
  rw [hsplit, lay_append, has_append, lay_length] at hd
  have hd2 := hd.2
  simp only [lay] at hd2
  have hsz := congrArg sizes hsplit
  rw [sizes_append] at hsz
  simp only [sizes] at hsz
  refine ⟨(has_append.1 hd2).1, v.ok i (List.mem_iff_getElem?.2 ⟨k, hk⟩), ?_, by omega,
    sizes_even (width := width) _ fun j hj => v.ok j (List.mem_of_mem_take hj)⟩
  rw [List.take_succ_eq_append_getElem hkl, hke, sizes_append]
  simp [sizes]

theorem View.drop {d : List W} {H width stop : Nat} {items : List Item}
    (v : View d H items width stop) (k : Nat) :
    View d (H + sizes (items.take k)) (items.drop k) width stop := by
  have hd := v.has
  have hs := v.small
  have he := v.eof
  have hev := sizes_even (width := width) (items.take k) fun j hj => v.ok j (List.mem_of_mem_take hj)
  have hv := v.even
  rw [← List.take_append_drop k items, lay_append, has_append, lay_length] at hd
  rw [← List.take_append_drop k items, sizes_append, ← Nat.add_assoc] at hs he
  exact ⟨hd.2, he, v.stop, fun j hj => v.ok j (List.mem_of_mem_drop hj), by omega, hs, v.width⟩

theorem skpBack_stay (n : Nat) (s : St) (h : s.cur ≤ s.bof + 4) : skpBack n s = some (s, .ok) := by
  induction n with
  | zero => rfl
  | succ n ih => rw [skpBack, if_neg (by omega), ih]

/-- A position of a reopened file. -/
structure At (s : St) (H : Nat) (items : List Item) (width stop k : Nat) : Prop where
  view : View s.d H items width stop
  cur : s.cur = H + sizes (items.take k)
  bof : s.bof = H
  le : k ≤ items.length
  swidth : s.width = width
  head : s.head.length = width

theorem At.set {s : St} {H width stop k k' : Nat} {items : List Item} (h : At s H items width stop k)
    (hk : k' ≤ items.length) : At { s with cur := H + sizes (items.take k') } H items width stop k' :=
  ⟨h.view, rfl, h.bof, hk, h.swidth, h.head⟩

theorem At.same {s : St} {H width stop k : Nat} {items : List Item} (h : At s H items width stop k) :
    { s with cur := H + sizes (items.take k) } = s := by rw [← h.cur]

theorem skpFwd_step (n : Nat) {s : St} {H width k : Nat} {items : List Item}
    (h : At s H items width 127 k) :
    skpFwd (n + 1) s = match items[k]? with
      | some (.record _ _) => skpFwd n { s with cur := H + sizes (items.take (k + 1)) }
      | _ => some (s, .ok) := by
  rw [skpFwd]
  dsimp only
  cases hk : items[k]? with
  | none =>
    obtain ⟨m, x, he⟩ := h.view.eof
    have hl := List.getElem?_eq_none_iff.1 hk
    have hc := h.cur
    rw [List.take_of_length_le hl] at hc
    rw [← hc] at he
    rw [waread2_two he, if_pos (Or.inr (by simp [idtyp_word0]))]
  | some i =>
    obtain ⟨a1, a2, a3, a4, a5⟩ := h.view.at hk
    rw [← h.cur] at a1
    cases i with
    | mark l =>
      obtain ⟨l1, l2⟩ := a2
      have hd : Has s.d s.cur [word0 (112 + l) 1, BitVec.ofNat 32 (s.cur + 1)] := a1
      rw [waread2_two hd, if_pos (Or.inr (by
        simp only [List.getD_cons_zero, idtyp_word0 (show 112 + l < 256 by omega)]; omega))]
    | record id body =>
      obtain ⟨o1, o2, o3, o4, o5⟩ := a2
      rw [waread2_two (record_head a1)]
      simp only [List.getD_cons_zero]
      rw [idtyp_word0 (by omega), lng_word0 (by omega), if_neg (by simp; omega),
        show s.cur + 2 * ((body.length + 2) / 2) = s.cur + (body.length + 2) by omega,
        readAt_has (n := 4) (has_record a1).2 rfl (by simp)]
      dsimp only
      rw [isPostfix_postfix, if_pos rfl, a3, h.cur]
      simp only [Item.size, Nat.add_assoc]

theorem skpBack_mark (n : Nat) {s : St} {H width stop k l : Nat} {items : List Item}
    (h : At s H items width stop (k + 1)) (hk : items[k]? = some (.mark l)) (hc : 4 < sizes (items.take (k + 1))) :
    skpBack (n + 1) s = some (s, .noPostfix) := by
  obtain ⟨a1, a2, a3, a4, a5⟩ := h.view.at hk
  have hcur := h.cur
  have hbof := h.bof
  simp only [Item.size] at a3
  cases k with
  | zero => simp only [List.take_zero, sizes] at a3; omega
  | succ k =>
    obtain ⟨j, hj⟩ : ∃ j, items[k]? = some j := by
      have := (List.getElem?_eq_some_iff.1 hk).1
      exact ⟨items[k], List.getElem?_eq_getElem _⟩
    obtain ⟨b1, b2, b3, b4, b5⟩ := h.view.at hj
    obtain ⟨w, x, hw, hne⟩ := item_tail b2 b1
    have hm : Has s.d (H + sizes (items.take (k + 1))) [word0 (112 + l) 1,
      BitVec.ofNat 32 (H + sizes (items.take (k + 1)) + 1)] := a1
    have h4 : Has s.d (s.cur - 4) ([w, x] ++ [word0 (112 + l) 1,
        BitVec.ofNat 32 (H + sizes (items.take (k + 1)) + 1)]) := by
      rw [has_append]
      refine ⟨by rw [show s.cur - 4 = H + sizes (items.take k) + j.size - 2 by omega]; exact hw, ?_⟩
      rw [show s.cur - 4 + [w, x].length = H + sizes (items.take (k + 1)) by
        simp only [List.length_cons, List.length_nil]; omega]
      exact hm
    rw [skpBack, if_pos (by omega), readAt_has (n := 4) h4 rfl (by simp)]
    dsimp only
    rw [if_neg (by simp [isPostfix, hne])]

theorem skpBack_record (n : Nat) {s : St} {H width stop k id : Nat} {body : List W} {items : List Item}
    (h : At s H items width stop (k + 1)) (hk : items[k]? = some (.record id body)) :
    skpBack (n + 1) s = skpBack n { s with cur := H + sizes (items.take k) } := by
  obtain ⟨a1, a2, a3, a4, a5⟩ := h.view.at hk
  have hcur := h.cur
  have hbof := h.bof
  have hev := h.view.even
  have hsm := h.view.small
  simp only [Item.size] at a3 a4
  exact skpBack_one n s _ id body a1 (by omega) (by omega) (by omega) (by omega)

/-- Deleting record `k` of a run of records. -/
theorem del_view {s : St} {H k id : Nat} {items : List Item} {body : List W} {width : Nat}
    (v : View s.d H items width 127) (hf : s.fsize = s.d.length)
    (hm : s.hdr.rwflg ≠ RDMODE ∧ s.hdr.rwflg ≠ APPEND)
    (hk : items[k]? = some (.record id body)) :
    ∃ s', del s (H + sizes (items.take k)) = some (s', .ok) ∧ s'.bof = s.bof ∧ s'.width = s.width ∧
      s'.head = s.head ∧ s'.valid = s.valid ∧ View s'.d H (items.take k) width 255 := by
  obtain ⟨hkl, hke⟩ := List.getElem?_eq_some_iff.1 hk
  have hsplit : items = items.take k ++ .record id body :: items.drop (k + 1) := by
    rw [← hke, List.getElem_cons_drop, List.take_append_drop]
  have hok := v.ok (.record id body) (List.mem_iff_getElem?.2 ⟨k, hk⟩)
  obtain ⟨o1, o2, o3, o4, o5⟩ := hok
  have hd := v.has
  have hsm := v.small
  rw [hsplit, lay_append, has_append, lay_length] at hd
  rw [hsplit, sizes_append] at hsm
  obtain ⟨hd1, hd2⟩ := hd
  simp only [lay] at hd2
  have hrec := (has_append.1 hd2).1
  have h2 := record_head hrec
  have hlt := has_lt h2 (by simp)
  simp only [List.length_cons, List.length_nil] at hlt
  generalize hp : H + sizes (items.take k) = p at hrec h2 hlt
  have hn126 : ∀ k, k < 112 → ¬ (k &&& 0x7E = 0x7E) := by decide
  obtain ⟨a1, a2, -, a4, a5, a6⟩ := wawrit_props (s := s) (a := p)
    (ws := [word0 255 ((body.length + 2) / 2), BitVec.ofNat 32 (p / 2 + 1)]) (by omega) (by omega)
  unfold del
  rw [if_neg (by intro h; exact h.elim hm.1 hm.2), readAt_has (n := 2) h2 rfl (by simp)]
  dsimp only
  simp only [List.getD_cons_zero, List.getD_cons_succ]
  rw [idtyp_word0 (by omega), if_neg (by omega), if_neg (hn126 id (by omega)), lng_word0 (by omega)]
  generalize s.wawrit p [word0 255 ((body.length + 2) / 2), BitVec.ofNat 32 (p / 2 + 1)] = s1
    at a1 a2 a4 a5 a6
  refine ⟨_, rfl, by rw [a6], rfl, by rw [a6], by rw [a6], ?_⟩
  refine ⟨a2 _ _ hd1 (by rw [lay_length]; omega), ⟨_, _, by rw [hp]; exact a1⟩, Or.inr rfl,
    fun i hi => v.ok i (List.mem_of_mem_take hi), v.even, by omega, v.width⟩

end Verif.XdfSeq
