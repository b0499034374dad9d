import Verif.XdfSeq
import Verif.XdfDisk
/-! Lemmas about sequential files: the words of records and marks, reading and writing them. -/

namespace Verif.XdfSeq

open Verif.Xdf

/-- What a sequential file holds: records (`body`: all words after the header) and marks. -/
inductive Item
  | record (id : Nat) (body : List W)
  | mark (level : Nat)
deriving DecidableEq, Repr

def Item.size : Item → Nat
  | .record _ body => body.length + 6
  | .mark _ => 2

def Item.words (a : Nat) : Item → List W
  | .record id body =>
    word0 id ((body.length + 2) / 2) :: BitVec.ofNat 32 (a / 2 + 1) ::
      (body ++ postfix_ id ((body.length + 2) / 2) (a / 2 + 1))
  | .mark l => [word0 (112 + l) 1, BitVec.ofNat 32 (a + 1)]

def lay : Nat → List Item → List W
  | _, [] => []
  | a, i :: r => i.words a ++ lay (a + i.size) r

def sizes : List Item → Nat
  | [] => 0
  | i :: r => i.size + sizes r

def Item.Ok (width : Nat) : Item → Prop
  | .record id body => 1 ≤ id ∧ id ≤ 111 ∧ body.length % 2 = 0 ∧ width ≤ body.length + 2 ∧
      body.length + 2 < 2 ^ 25
  | .mark l => 1 ≤ l ∧ l ≤ 14

theorem Item.words_length (a : Nat) (i : Item) : (i.words a).length = i.size := by
  cases i <;> simp [Item.words, Item.size, postfix_]

theorem lay_length (a : Nat) (l : List Item) : (lay a l).length = sizes l := by
  induction l generalizing a with
  | nil => rfl
  | cons i r ih => simp [lay, sizes, ih, Item.words_length]

theorem lay_append (a : Nat) (l m : List Item) : lay a (l ++ m) = lay a l ++ lay (a + sizes l) m := by
  induction l generalizing a with
  | nil => simp [lay, sizes]
  | cons i r ih => simp [lay, sizes, ih, Nat.add_assoc]

theorem sizes_append (l m : List Item) : sizes (l ++ m) = sizes l + sizes m := by
  induction l with
  | nil => simp [sizes]
  | cons i r ih => simp [sizes, ih, Nat.add_assoc]

theorem idtyp_word0 {i n : Nat} (h : i < 256) : idtyp (word0 i n) = i := by
  unfold idtyp word0; rw [ext_top8, ofNat_toNat_lt h]

theorem lng_word0 {i n : Nat} (h : n < 2 ^ 24) : lng (word0 i n) = n := by
  unfold lng word0; rw [ext_low24, ofNat_toNat_lt h]

theorem isPostfix_postfix (id n a : Nat) : isPostfix (postfix_ id n a) = true := by
  simp [isPostfix, postfix_, idtyp_word0, lng_word0]

/-- A header of type `stop` at `e`. -/
def Stop (stop : Nat) (d : List W) (e : Nat) : Prop := ∃ n x, Has d e [word0 stop n, x]

/-- The end of a file: a mark of physical end at `e`. -/
abbrev Eof (d : List W) (e : Nat) : Prop := Stop 127 d e

theorem waread2_has {d : List W} {a n : Nat} {ws : List W} (h : Has d a ws) (hn : n ≤ ws.length)
    (h0 : ws ≠ []) : waread2 d a n = ws.take n := by
  have hl := has_lt h h0
  apply List.ext_getElem?
  intro i
  unfold waread2
  by_cases hi : i < n
  · rw [List.getElem?_take_of_lt hi, List.getElem?_drop, List.getElem?_take_of_lt hi]
    exact h i (by omega)
  · rw [List.getElem?_eq_none (by simp; omega), List.getElem?_eq_none (by simp; omega)]

theorem waread2_head {d : List W} {a n : Nat} {w x : W} (h : Has d a [w, x]) (hn : 1 ≤ n) :
    (waread2 d a n).getD 0 0#32 = w ∧ 1 ≤ (waread2 d a n).length := by
  have hl := has_lt h (by simp)
  have h0 := h 0 (by simp)
  simp only [Nat.add_zero] at h0
  unfold waread2
  constructor
  · rw [List.getD_eq_getElem?_getD, List.getElem?_take_of_lt (by omega), List.getElem?_drop,
      Nat.add_zero, h0]; rfl
  · simp at hl ⊢; omega

theorem getD_append0 {u v : List W} {w : W} (h : 1 ≤ u.length) (h0 : u.getD 0 0#32 = w) :
    (u ++ v).getD 0 0#32 = w := by
  cases u with
  | nil => simp at h
  | cons x r => simpa using h0

/-- The file `d` holds the items from `a` on, then the physical end or a deleted record. -/
structure View (d : List W) (a : Nat) (items : List Item) (width stop : Nat) : Prop where
  has : Has d a (lay a items)
  eof : Stop stop d (a + sizes items)
  stop : stop = 127 ∨ stop = 255
  ok : ∀ i ∈ items, i.Ok width
  even : a % 2 = 0
  small : a + sizes items < 2 ^ 31
  width : 2 ≤ width

theorem Item.Ok.even {width : Nat} {i : Item} (h : i.Ok width) : i.size % 2 = 0 := by
  cases i with
  | record id body => obtain ⟨-, -, h, -, -⟩ := h; simp only [Item.size]; omega
  | mark l => simp [Item.size]

theorem View.tail {d : List W} {a : Nat} {i : Item} {r : List Item} {width : Nat}
    {stop : Nat} (h : View d a (i :: r) width stop) : View d (a + i.size) r width stop := by
  obtain ⟨h1, h2, h0, h3, h4, h5, h6⟩ := h
  have hi := h3 i (by simp)
  simp only [lay, sizes] at h1 h2 h5
  rw [has_append, Item.words_length] at h1
  rw [← Nat.add_assoc] at h2 h5
  have := hi.even
  exact ⟨h1.2, h2, h0, fun j hj => h3 j (by simp [hj]), by omega, h5, h6⟩

theorem View.head {d : List W} {a : Nat} {i : Item} {r : List Item} {width : Nat}
    {stop : Nat} (h : View d a (i :: r) width stop) : Has d a (i.words a) := by
  have h1 := h.has
  simp only [lay] at h1
  exact (has_append.1 h1).1

/-- What a search finds: the record (its position, type and words), the new position, what is left. -/
def look (hit : List W → Bool) : Nat → List Item → Option (Nat × Nat × List W) × Nat × List Item
  | a, [] => (none, a, [])
  | a, .mark _ :: r => (none, a + 2, r)
  | a, .record id body :: r =>
    if hit body then (some (a, id, body), a + (body.length + 6), r) else look hit (a + (body.length + 6)) r

/-- The level of the end met by a search that finds nothing. -/
def level (last : Nat) (hit : List W → Bool) : List Item → Nat
  | [] => last
  | .mark l :: _ => l
  | .record _ body :: r => if hit body then 0 else level last hit r

/-- The test made on a record (`width` words of keys with the header). -/
def hits (width : Nat) (keys mask : List W) (body : List W) : Bool :=
  FstKeys.wordsMatch (body.take (width - 2)) keys mask

/-- The state after a search. -/
structure After (s s' : St) (cur : Nat) : Prop where
  cur : s'.cur = cur
  d : s'.d = s.d
  hdr : s'.hdr = s.hdr
  bof : s'.bof = s.bof
  fsize : s'.fsize = s.fsize
  head : s'.head.length = s'.width

theorem readHead_props (s : St) (hh : s.head.length = s.width) :
    s.readHead.1 = { s with head := s.readHead.1.head } ∧ s.readHead.1.head.length = s.width ∧
    s.readHead.2 = (waread2 s.d s.cur s.width).length ∧
    s.readHead.1.head = waread2 s.d s.cur s.width ++ s.head.drop (waread2 s.d s.cur s.width).length := by
  refine ⟨rfl, ?_, rfl, rfl⟩
  simp only [St.readHead, List.length_append, List.length_drop, hh]
  have : (waread2 s.d s.cur s.width).length ≤ s.width := by simp [waread2]; omega
  omega

/-- `next_match` at a physical or logical end. -/
theorem loop_end (keys mask : List W) (fuel : Nat) (s : St) (hh : s.head.length = s.width)
    (hw : 2 ≤ s.width) (id n : Nat) (x : W) (h1 : 112 ≤ id) (h2 : id < 256)
    (hd : Has s.d s.cur [word0 id n, x]) :
    ∃ s', nextMatchLoop keys mask (fuel + 1) s = some (s', none) ∧
      After s s' (if id < 127 then s.cur + 2 else s.cur) ∧
      eof s' = (if id ≤ 127 then id - 112 else 0) ∧
      s'.valid = s.valid := by
  obtain ⟨e1, e2, e3, e4⟩ := readHead_props s hh
  obtain ⟨h0, hl⟩ := waread2_head (n := s.width) hd (by omega)
  have hg : s.readHead.1.head.getD 0 0#32 = word0 id n := by rw [e4]; exact getD_append0 hl h0
  have hid : idtyp (s.readHead.1.head.getD 0 0#32) = id := by rw [hg, idtyp_word0 (by omega)]
  by_cases h127 : id < 127
  · refine ⟨{ s with head := s.readHead.1.head, cur := s.cur + 2 }, ?_, ?_, ?_, rfl⟩
    · rw [nextMatchLoop]
      dsimp only
      rw [hid, if_pos (Or.inl h1), if_pos ⟨h1, h127⟩]; rfl
    · rw [if_pos h127]; exact ⟨rfl, rfl, rfl, rfl, rfl, e2⟩
    · simp only [eof]; rw [hid, if_pos ⟨h1, by omega⟩, if_pos (by omega)]
  · refine ⟨s.readHead.1, ?_, ?_, ?_, rfl⟩
    · rw [nextMatchLoop]
      dsimp only
      rw [hid, if_pos (Or.inl h1), if_neg (by omega)]
    · rw [if_neg h127]; exact ⟨rfl, rfl, rfl, rfl, rfl, e2⟩
    · simp only [eof]; rw [hid]; split <;> split <;> omega

theorem has_record {d : List W} {a id : Nat} {body : List W} (h : Has d a (Item.words a (.record id body))) :
    Has d a (word0 id ((body.length + 2) / 2) :: BitVec.ofNat 32 (a / 2 + 1) :: body) ∧
    Has d (a + (body.length + 2)) (postfix_ id ((body.length + 2) / 2) (a / 2 + 1)) := by
  have : Item.words a (.record id body) =
      (word0 id ((body.length + 2) / 2) :: BitVec.ofNat 32 (a / 2 + 1) :: body) ++
        postfix_ id ((body.length + 2) / 2) (a / 2 + 1) := by simp [Item.words]
  rw [this, has_append] at h
  exact ⟨h.1, by simpa using h.2⟩

/-- `next_match` on a record. -/
theorem loop_record (keys mask : List W) (fuel : Nat) (s : St) (hh : s.head.length = s.width)
    (hw : 2 ≤ s.width) (id : Nat) (body : List W) (hok : (Item.record id body).Ok s.width)
    (hd : Has s.d s.cur (Item.words s.cur (.record id body))) :
    ∃ h : List W, h = (word0 id ((body.length + 2) / 2) :: BitVec.ofNat 32 (s.cur / 2 + 1) ::
        body.take (s.width - 2)) ∧ h.length = s.width ∧
      nextMatchLoop keys mask (fuel + 1) s =
        if hits s.width keys mask body then
          some ({ s with head := h, valid := true, cur := s.cur + (body.length + 6) }, some s.cur)
        else nextMatchLoop keys mask fuel { s with head := h, cur := s.cur + (body.length + 6) } := by
  obtain ⟨o1, o2, o3, o4, o5⟩ := hok
  obtain ⟨e1, e2, e3, e4⟩ := readHead_props s hh
  have hr := waread2_has (has_record hd).1 (n := s.width) (by simpa using o4) (by simp)
  obtain ⟨w, hwe⟩ : ∃ w, s.width = w + 2 := ⟨s.width - 2, by omega⟩
  have hr' : waread2 s.d s.cur s.width =
      word0 id ((body.length + 2) / 2) :: BitVec.ofNat 32 (s.cur / 2 + 1) ::
        body.take (s.width - 2) := by
    rw [hr, hwe]; simp
  have hlen : (waread2 s.d s.cur s.width).length = s.width := by rw [hr]; simp; omega
  have hhead : s.readHead.1.head = waread2 s.d s.cur s.width := by
    rw [e4, hlen, List.drop_eq_nil_of_le (by omega), List.append_nil]
  refine ⟨waread2 s.d s.cur s.width, hr', hlen, ?_⟩
  rw [nextMatchLoop]
  have hst : s.readHead = ({ s with head := waread2 s.d s.cur s.width }, s.width) := by
    rw [Prod.ext_iff]
    exact ⟨by rw [e1, hhead], by rw [e3, hlen]⟩
  rw [hst]
  dsimp only
  have h0 : (waread2 s.d s.cur s.width).getD 0 0#32 = word0 id ((body.length + 2) / 2) := by
    rw [hr']; rfl
  have hwd : ({ s with head := waread2 s.d s.cur s.width } : St).width = s.width := rfl
  rw [h0, idtyp_word0 (by omega), lng_word0 (by omega), hwd,
    if_neg (by omega), if_neg (by omega)]
  have h2 : FstKeys.wordsMatch ((waread2 s.d s.cur s.width).take s.width) (0#32 :: 0#32 :: keys)
      (0#32 :: 0#32 :: mask) = hits s.width keys mask body := by
    rw [hr', hwe]
    simp [FstKeys.wordsMatch, hits, List.take_take]
  rw [h2, show s.cur + 2 * ((body.length + 2) / 2) + 4 = s.cur + (body.length + 6) by omega]

/-- A search from the position where the items begin. -/
theorem loop_view (keys mask : List W) (stop : Nat) (items : List Item) :
    ∀ (fuel : Nat) (s : St) (width : Nat),
    s.width = width → s.head.length = width → View s.d s.cur items width stop → items.length < fuel →
    s.valid = false →
    ∃ s', nextMatchLoop keys mask fuel s =
        some (s', ((look (hits width keys mask) s.cur items).1).map (·.1)) ∧
      After s s' (look (hits width keys mask) s.cur items).2.1 ∧
      View s.d s'.cur (look (hits width keys mask) s.cur items).2.2 width stop ∧
      (∀ a id body, (look (hits width keys mask) s.cur items).1 = some (a, id, body) →
        get s' a = .ok (word0 id ((body.length + 2) / 2) :: BitVec.ofNat 32 (a / 2 + 1) :: body) ∧
          id < 256 ∧ id ≠ 0) ∧
      ((look (hits width keys mask) s.cur items).1 = none →
        eof s' = level (if stop = 127 then 15 else 0) (hits width keys mask) items) := by
  induction items with
  | nil =>
    intro fuel s width hsw hh v hf hv
    obtain ⟨n, x, he⟩ := v.eof
    simp only [sizes, Nat.add_zero] at he
    obtain ⟨f, rfl⟩ : ∃ f, fuel = f + 1 := ⟨fuel - 1, by simp at hf; omega⟩
    obtain ⟨s', e1, e2, e3, e4⟩ := loop_end keys mask f s (by rw [hh, hsw]) (by rw [hsw]; exact v.width)
      stop n x (by rcases v.stop with h | h <;> omega) (by rcases v.stop with h | h <;> omega) he
    rw [if_neg (by rcases v.stop with h | h <;> omega)] at e2
    refine ⟨s', by simpa [look] using e1, by simpa [look] using e2, ?_, ?_, ?_⟩
    · rw [e2.cur]; simpa [look] using v
    · simp [look]
    · intro _; rw [e3]; rcases v.stop with h | h <;> simp [level, h]
  | cons i r ih =>
    intro fuel s width hsw hh v hf hv
    obtain ⟨f, rfl⟩ : ∃ f, fuel = f + 1 := ⟨fuel - 1, by simp at hf; omega⟩
    have hi := v.ok i (by simp)
    cases i with
    | mark l =>
      obtain ⟨l1, l2⟩ := hi
      obtain ⟨s', e1, e2, e3, e4⟩ := loop_end keys mask f s (by rw [hh, hsw])
        (by rw [hsw]; exact v.width) (112 + l) 1 _ (by omega) (by omega) v.head
      rw [if_pos (by omega)] at e2
      refine ⟨s', by simpa [look] using e1, by simpa [look] using e2, ?_, ?_, ?_⟩
      · rw [e2.cur]; simpa [look, Item.size] using v.tail
      · simp [look]
      · intro _; rw [e3, if_pos (by omega)]; simp only [level]; omega
    | record id body =>
      obtain ⟨h, h1, h2, h3⟩ := loop_record keys mask f s (by rw [hh, hsw])
        (by rw [hsw]; exact v.width) id body (by rw [hsw]; exact hi) v.head
      rw [hsw] at h1 h2 h3
      by_cases hit : hits width keys mask body = true
      · rw [if_pos hit] at h3
        simp only [look, hit, if_true]
        refine ⟨_, h3, ⟨rfl, rfl, rfl, rfl, rfl, by rw [h2, ← hsw]; rfl⟩, by simpa [Item.size] using v.tail, ?_, by simp⟩
        intro a id' body' he
        simp only [Option.some.injEq, Prod.mk.injEq] at he
        obtain ⟨rfl, rfl, rfl⟩ := he
        obtain ⟨o1, o2, o3, o4, o5⟩ := hi
        refine ⟨?_, by omega, by omega⟩
        have hsm := v.small
        have hev := v.even
        have hg0 : h.getD 0 0#32 = word0 id ((body.length + 2) / 2) := by rw [h1]; rfl
        have hg1 : h.getD 1 0#32 = BitVec.ofNat 32 (s.cur / 2 + 1) := by rw [h1]; rfl
        have hn126 : ∀ k, k < 112 → ¬ (k &&& 0x7E = 0x7E) := by decide
        unfold get
        dsimp only
        rw [hg0, hg1, idtyp_word0 (by omega), lng_word0 (by omega),
          ofNat_toNat_lt (by omega), if_neg (by simp), if_neg (by omega), if_neg (by omega),
          if_neg (hn126 id (by omega))]
        have hr := waread2_has (has_record v.head).1 (n := 2 * ((body.length + 2) / 2))
          (by simp; omega) (by simp)
        rw [List.take_of_length_le (by simp; omega)] at hr
        rw [hr, if_neg (by simp; omega)]
      · rw [if_neg hit] at h3
        simp only [look, level, hit, Bool.false_eq_true, if_false]
        obtain ⟨s', e1, e2, e3, e4, e5⟩ := ih f { s with head := h, cur := s.cur + (body.length + 6) }
          width hsw h2 (by simpa [Item.size] using v.tail) (by simpa using hf) hv
        refine ⟨s', h3.trans e1, ⟨e2.cur, e2.d, e2.hdr, e2.bof, e2.fsize, e2.head⟩, e3, e4, e5⟩

end Verif.XdfSeq
