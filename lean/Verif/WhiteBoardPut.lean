import Verif.WhiteBoardRep

/-!
`c_wb_put` and `c_wb_get` act on single variables: what they do to the memory of the pages is
what `putOldE`, `putCopyE` and `getE` do to one variable.
-/
namespace WhiteBoard

/-! ### Strings -/

/-- A string padded with blanks. -/
def padTo (s : List Byte) (n : Nat) : List Byte := s ++ List.replicate (n - s.length) blank

theorem padTo_length {s : List Byte} {n : Nat} (h : s.length ≤ n) : (padTo s n).length = n := by
  unfold padTo
  simp
  omega

/-- Element `i` of an array of elements of `size` bytes. -/
def elem (src : List Byte) (size i : Nat) : List Byte := (src.drop (i * size)).take size

theorem elem_drop (src : List Byte) (size i : Nat) :
    elem (src.drop size) size i = elem src size (i + 1) := by
  unfold elem
  rw [List.drop_drop]
  congr 2
  rw [Nat.add_mul]
  omega

theorem elem_zero (src : List Byte) (size : Nat) : elem src size 0 = src.take size := by
  unfold elem
  simp

/-- What was stored. -/
def Stored (m' : List Byte) (off stored size n : Nat) (src : List Byte) : Prop :=
  ∀ i < n, (significant (elem src size i)).length ≤ stored ∧
    (m'.drop (off + i * stored)).take stored = padTo (significant (elem src size i)) stored

theorem putStrings_spec (size stored n : Nat) (m : List Byte) (off : Nat) (src : List Byte)
    (res : Int) (h : off + n * stored ≤ m.length) :
    ∃ m' c, putStrings size stored n m off src res = some (m', c) ∧ m'.length = m.length ∧
      m'.take off = m.take off ∧
      ((c = -1010 ∧ ∃ i < n, stored < (significant (elem src size i)).length) ∨
       ((n = 0 → c = res) ∧ (0 < n → 0 ≤ c) ∧ Stored m' off stored size n src)) := by
  induction n generalizing m off src res with
  | zero =>
    exact ⟨m, res, rfl, rfl, rfl, .inr ⟨fun _ => rfl, by simp, by intro i hi; omega⟩⟩
  | succ n ih =>
    unfold putStrings copyString
    rw [← elem_zero]
    by_cases hl : (significant (elem src size 0)).length > stored
    · simp only [if_pos hl]
      exact ⟨m, -1010, rfl, rfl, rfl, .inl ⟨rfl, 0, by omega, hl⟩⟩
    · simp only [if_neg hl]
      rw [Nat.add_mul] at h
      have hle : (significant (elem src size 0)).length ≤ stored := by omega
      have hpl := padTo_length hle
      obtain ⟨m1, hm1⟩ := write_some (m := m) (o := off)
        (bs := padTo (significant (elem src size 0)) stored) (by omega)
      have hlen1 := write_length hm1
      obtain ⟨m', c, he, hlen, htake, hcase⟩ := ih m1 (off + stored) (src.drop size)
        ((significant (elem src size 0)).length) (by omega)
      refine ⟨m', c, ?_, by omega, ?_, ?_⟩
      · show (write m off (padTo (significant (elem src size 0)) stored)).bind _ = _
        rw [hm1]
        exact he
      · have h1 := write_take hm1 off (Nat.le_refl _)
        have : m'.take off = (m'.take (off + stored)).take off := by
          rw [List.take_take, Nat.min_eq_left (by omega)]
        rw [this, htake, List.take_take, Nat.min_eq_left (by omega), h1]
      · rcases hcase with ⟨hc, i, hi, hbad⟩ | ⟨h0, hp, hst⟩
        · refine .inl ⟨hc, i + 1, by omega, ?_⟩
          rw [elem_drop] at hbad
          exact hbad
        · refine .inr ⟨by omega, fun _ => ?_, ?_⟩
          · cases n with
            | zero => rw [h0 rfl]; omega
            | succ n => exact hp (by omega)
          · intro i hi
            cases i with
            | zero =>
              refine ⟨hle, ?_⟩
              have h1 := write_read hm1
              rw [hpl] at h1
              have : (m'.drop off).take stored = ((m'.take (off + stored)).drop off).take stored := by
                rw [List.drop_take, Nat.add_sub_cancel_left, List.take_take, Nat.min_self]
              rw [Nat.zero_mul, Nat.add_zero, this, htake, List.drop_take,
                Nat.add_sub_cancel_left, List.take_take, Nat.min_self, h1]
            | succ i =>
              have := hst i (by omega)
              rw [elem_drop] at this
              rw [show off + (i + 1) * stored = off + stored + i * stored by
                rw [Nat.add_mul]; omega]
              exact this

theorem putStrings_in {size stored n : Nat} {m m' : List Byte} {off : Nat} {src : List Byte}
    {res c : Int} (A B : List Byte) (h : putStrings size stored n m off src res = some (m', c)) :
    putStrings size stored n (A ++ (m ++ B)) (A.length + off) src res =
      some (A ++ (m' ++ B), c) := by
  induction n generalizing m off src res with
  | zero =>
    unfold putStrings at h ⊢
    injection h with h
    injection h with h1 h2
    rw [h1, h2]
  | succ n ih =>
    unfold putStrings at h ⊢
    cases hc : copyString (src.take size) stored with
    | none =>
      rw [hc] at h
      injection h with h
      injection h with h1 h2
      simp only
      rw [h1, h2]
    | some r =>
      obtain ⟨bs, len⟩ := r
      rw [hc] at h
      simp only at h ⊢
      cases hw : write m off bs with
      | none => rw [hw] at h; cases h
      | some m1 =>
        rw [hw] at h
        rw [write_in A B hw]
        show putStrings size stored n (A ++ (m1 ++ B)) (A.length + off + stored) _ _ = _
        rw [Nat.add_assoc]
        exact ih h

theorem putValues_in {m m' : List Byte} {off stored : Nat} {r : Req} {size n : Nat}
    {res c : Int} (A B : List Byte) (h : putValues m off stored r size n res = some (m', c)) :
    putValues (A ++ (m ++ B)) (A.length + off) stored r size n res =
      some (A ++ (m' ++ B), c) := by
  unfold putValues at h ⊢
  split at h
  · rename_i ht
    rw [if_pos ht]
    exact putStrings_in A B h
  · rename_i ht
    rw [if_neg ht]
    rw [Option.map_eq_some_iff] at h
    obtain ⟨m1, hw, he⟩ := h
    injection he with h1 h2
    subst h1 h2
    rw [write_in A B hw]
    rfl

/-! ### One variable -/

/-- `putCopy` on one variable. -/
def putCopyE (e : Ent) (stored : Nat) (r : Req) (size n : Nat) (array : Bool) :
    Option (Ent × Int) :=
  if array && decide ((n : Int) > e.max) then some (e, -1004)
  else
    (putValues e.area (if array then 8 else 0) stored r size n
      (if array then e.max else 0)).map fun (area, res) =>
    if res < 0 then ({ e with area := area }, res)
    else ({ e with area := area, fl := { e.fl with initialized := true, badval := false } }, res)

theorem putCopy_at {p : Page} {i : Nat} {e e' : Ent} {A B : List Byte} (h : At p i e A B)
    (ha : 8 ≤ e.area.length) {stored : Nat} {r : Req} {size n : Nat} {array : Bool} {c : Int}
    (he : putCopyE e stored r size n array = some (e', c)) :
    putCopy p i e.fl stored r size n array = some (put_at p A B e', c) := by
  unfold putCopyE at he
  unfold putCopy
  rw [h.maxAt ha]
  split at he
  · rename_i hc
    rw [if_pos hc]
    injection he with he
    injection he with h1 h2
    subst h1 h2
    unfold put_at
    rw [← h.mem]
  · rename_i hc
    rw [if_neg hc]
    rw [Option.map_eq_some_iff] at he
    obtain ⟨⟨area, res⟩, hv, he⟩ := he
    have hin := putValues_in (A ++ (e.key ++ ([0#8] ++ le32 e.fl.pack))) B hv
    have hpos : (A ++ (e.key ++ ([0#8] ++ le32 e.fl.pack))).length = 40 * i + 32 := by
      simp [h.key, h.pos, le32_length]
    have hmem : (A ++ (e.key ++ ([0#8] ++ le32 e.fl.pack))) ++ (e.area ++ B) = p.mem := by
      rw [h.mem]
      simp [Ent.enc, List.append_assoc]
    have hmem' : (A ++ (e.key ++ ([0#8] ++ le32 e.fl.pack))) ++ (area ++ B) =
        (put_at p A B { e with area := area }).mem := by
      simp [put_at, Ent.enc, List.append_assoc]
    rw [hmem, hpos, hmem'] at hin
    have hoff : 40 * i + 32 + (if array = true then 8 else 0) =
        if array = true then 40 * (i + 1) else 40 * i + 32 := by
      cases array
      · simp
      · simp; omega
    rw [hoff] at hin
    rw [hin]
    simp only [Option.bind_some] at he ⊢
    by_cases hr : res < 0
    · rw [if_pos hr] at he ⊢
      injection he with h1 h2
      subst h1 h2
      rfl
    · rw [if_neg hr] at he ⊢
      injection he with h1 h2
      subst h1 h2
      have hat : At (put_at p A B { e with area := area }) i { e with area := area } A B :=
        ⟨rfl, h.pos, h.key⟩
      have := hat.setFlags { e.fl with initialized := true, badval := false }
      show (Page.setFlags (put_at p A B { e with area := area }) i _).map _ = _
      rw [this]
      rfl

/-- The part of `c_wb_put` for a variable that exists, on the variable. -/
def putOldE (e : Ent) (r : Req) (size n : Nat) (array : Bool) : Option (Ent × Int) :=
  let e' := { e with fl := { e.fl with badval := true } }
  if r.createOnly then some (e, -1012)
  else if e.fl.readonly && e.fl.initialized then some (e, -1002)
  else if e.fl.array && !array then some (e', -1004)
  else if e.fl.type ≠ r.type then some (e', -1003)
  else if e.fl.type ≠ WB_CHAR ∧ e.fl.elementsize ≠ size then some (e', -1003)
  else if array && decide (e.max < n) then some (e', -1004)
  else putCopyE e' e.fl.elementsize r size n array

theorem putOld_at {p : Page} {i : Nat} {e e' : Ent} {A B : List Byte} (h : At p i e A B)
    (ha : 8 ≤ e.area.length) (hv : e.fl.Valid) {r : Req} {size n : Nat} {array : Bool} {c : Int}
    (he : putOldE e r size n array = some (e', c)) :
    putOld p i r size n array = some (put_at p A B e', c) := by
  unfold putOldE at he
  unfold putOld
  have hself : put_at p A B e = p := by
    unfold put_at
    rw [← h.mem]
  have hat : At (put_at p A B { e with fl := { e.fl with badval := true } }) i
      { e with fl := { e.fl with badval := true } } A B := ⟨rfl, h.pos, h.key⟩
  rw [h.flagsAt hv]
  simp only [] at he ⊢
  by_cases h1 : r.createOnly = true
  · rw [if_pos h1] at he ⊢
    cases he
    rw [hself]
  rw [if_neg h1] at he ⊢
  by_cases h2 : (e.fl.readonly && e.fl.initialized) = true
  · rw [if_pos h2] at he ⊢
    cases he
    rw [hself]
  rw [if_neg h2] at he ⊢
  rw [h.setFlags]
  simp only [Option.bind_some]
  by_cases h3 : (e.fl.array && !array) = true
  · rw [if_pos h3] at he ⊢
    cases he
    rfl
  rw [if_neg h3] at he ⊢
  by_cases h4 : e.fl.type ≠ r.type
  · rw [if_pos h4] at he ⊢
    cases he
    rfl
  rw [if_neg h4] at he ⊢
  by_cases h5 : e.fl.type ≠ WB_CHAR ∧ e.fl.elementsize ≠ size
  · rw [if_pos h5] at he ⊢
    cases he
    rfl
  rw [if_neg h5] at he ⊢
  rw [hat.maxAt ha]
  rw [show Ent.max { e with fl := { e.fl with badval := true } } = e.max from rfl]
  by_cases h6 : (array && decide (e.max < n)) = true
  · rw [if_pos h6] at he ⊢
    cases he
    rfl
  rw [if_neg h6] at he ⊢
  exact putCopy_at hat ha he

/-- A request whose source holds the values it announces. -/
structure Sized (r : Req) (size n : Nat) : Prop where
  type : typeOk r.type size size = true
  pos : 1 ≤ n
  full : n * size ≤ r.src.length
  small : n * size < 2147483648

theorem Sized.cases {r : Req} {size n : Nat} (h : Sized r size n) :
    ((r.type = WB_REAL ∨ r.type = WB_INT) ∧ (size = 4 ∨ size = 8)) ∨
    (r.type = WB_BOOL ∧ size = 4) ∨ (r.type = WB_CHAR ∧ 0 < size ∧ size ≤ 520) := by
  have := h.type
  unfold typeOk at this
  simp only [Bool.or_eq_true, decide_eq_true_eq] at this
  omega

theorem logicals_length (n : Nat) (s : List Byte) : (logicals n s).length = n * 4 := by
  induction n generalizing s with
  | zero => rw [logicals]; simp
  | succ n ih => rw [logicals, List.length_append, ih, le32_length]; omega

/-- The bytes of a value that is not a string. -/
def plain (r : Req) (size n : Nat) : List Byte :=
  if r.type = WB_BOOL then logicals n r.src else r.src.take (n * size)

theorem plain_length {r : Req} {size n : Nat} (h : Sized r size n) (_hc : r.type ≠ WB_CHAR) :
    (plain r size n).length = n * size := by
  unfold plain
  split
  · rw [logicals_length]
    have := h.cases
    simp only [WB_REAL, WB_INT, WB_CHAR, WB_BOOL] at *
    have : size = 4 := by omega
    rw [this]
  · rw [List.length_take]
    have := h.full
    omega

/-- Storing values in memory of sufficient size. -/
theorem putValues_spec {m : List Byte} {off stored : Nat} {r : Req} {size n : Nat} {res : Int}
    (h : Sized r size n) (hfit : off + n * stored ≤ m.length)
    (hs : r.type ≠ WB_CHAR → stored = size) (_hres : 0 ≤ res) :
    ∃ m' c, putValues m off stored r size n res = some (m', c) ∧ m'.length = m.length ∧
      m'.take off = m.take off ∧
      (r.type ≠ WB_CHAR → c = res ∧ (m'.drop off).take (n * size) = plain r size n ∧
        m'.drop (off + n * size) = m.drop (off + n * size)) ∧
      (r.type = WB_CHAR →
        (c = -1010 ∧ ∃ i < n, stored < (significant (elem r.src size i)).length) ∨
        (0 ≤ c ∧ Stored m' off stored size n r.src)) := by
  unfold putValues
  by_cases hc : r.type = WB_CHAR
  · rw [if_pos hc]
    obtain ⟨m', c, h1, h2, h3, h4⟩ := putStrings_spec size stored n m off r.src res hfit
    refine ⟨m', c, h1, h2, h3, fun hn => absurd hc hn, fun _ => ?_⟩
    rcases h4 with h4 | ⟨_, h5, h6⟩
    · exact .inl h4
    · exact .inr ⟨h5 (by have := h.pos; omega), h6⟩
  · rw [if_neg hc]
    have hl := plain_length h hc
    have hst := hs hc
    subst hst
    obtain ⟨m', hm⟩ := write_some (m := m) (o := off) (bs := plain r stored n) (by omega)
    refine ⟨m', res, ?_, write_length hm, write_take hm off (Nat.le_refl _), fun _ => ⟨rfl, ?_, ?_⟩,
      fun hn => absurd hn hc⟩
    · have : (if r.type = WB_BOOL then logicals n r.src else r.src.take (n * stored)) =
          plain r stored n := rfl
      rw [this, hm]
      rfl
    · have := write_read hm
      rw [hl] at this
      exact this
    · apply write_drop hm
      omega

/-- `Ent.max` depends on the first eight bytes only. -/
theorem max_of_take {e e' : Ent} (h : e'.area.take 8 = e.area.take 8)
    (hl : e'.area.length = e.area.length) (ha : 8 ≤ e.area.length) : e'.max = e.max := by
  have key : ∀ a : List Byte, 8 ≤ a.length → rd32 (a.drop 4) = rd32 ((a.take 8).drop 4) := by
    intro a ha
    conv => lhs; rw [← List.take_append_drop 8 a]
    rw [List.drop_append_of_le_length (by rw [List.length_take]; omega), rd32_append]
    rw [List.length_drop, List.length_take]
    omega
  unfold Ent.max
  rw [key _ (by omega), key _ ha, h]

/-- Only the flags and the value change. -/
structure Same (e e' : Ent) : Prop where
  key : e'.key = e.key
  len : e'.area.length = e.area.length
  type : e'.fl.type = e.fl.type
  arr : e'.fl.array = e.fl.array
  size : e'.fl.elementsize = e.fl.elementsize
  lines : e'.fl.lines = e.fl.lines
  max : (e.fl.array = true ∨ e.fl.type ≠ WB_CHAR ∧ e.fl.elementsize = 4) → e'.max = e.max

theorem Same.refl (e : Ent) : Same e e := ⟨rfl, rfl, rfl, rfl, rfl, rfl, fun _ => rfl⟩

theorem Same.flags (e : Ent) (f : Flags) (h : f.type = e.fl.type ∧ f.array = e.fl.array ∧
    f.elementsize = e.fl.elementsize ∧ f.lines = e.fl.lines) : Same e { e with fl := f } :=
  ⟨rfl, rfl, h.1, h.2.1, h.2.2.1, h.2.2.2, fun _ => rfl⟩

theorem Same.span {e e' : Ent} (h : Same e e') : e'.span = e.span := by
  unfold Ent.span
  rw [h.len]

theorem Same.ok {e e' : Ent} (h : Same e e') (ho : EntOk e) : EntOk e' := by
  have hs := h.span
  refine ⟨by rw [h.key]; exact ho.key, by rw [h.key]; exact ho.nonul,
    by rw [h.key]; exact ho.upper, ?_, by rw [h.len, hs]; exact ho.area,
    by rw [h.lines, hs]; exact ho.lines, by rw [h.type, h.size]; exact ho.size,
    by rw [h.type, h.size]; exact ho.bool, by rw [h.arr, h.size, h.len]; exact ho.scalar, ?_, ?_⟩
  · have := ho.valid
    unfold Flags.Valid at *
    rw [h.type, h.size, h.lines]
    exact this
  · rw [h.arr, h.type, h.size]
    intro h1 h2 h3
    rw [h.max (.inr ⟨h2, h3⟩)]
    exact ho.four h1 h2 h3
  · rw [h.arr, h.size, h.len]
    intro h1
    rw [h.max (.inl h1)]
    exact ho.array h1

theorem Same.trans {e e' e'' : Ent} (h : Same e e') (h' : Same e' e'') : Same e e'' :=
  ⟨h'.key.trans h.key, h'.len.trans h.len, h'.type.trans h.type, h'.arr.trans h.arr,
    h'.size.trans h.size, h'.lines.trans h.lines, fun hm => by
      rw [h'.max (by rw [h.arr, h.type, h.size]; exact hm), h.max hm]⟩

/-- Where the value of a variable is. -/
def Ent.value (e : Ent) : List Byte := if e.fl.array then e.area.drop 8 else e.area

/-- The value of variable `e` is the one of request `r`. -/
structure Holds (e : Ent) (r : Req) (size n : Nat) : Prop where
  type : e.fl.type = r.type
  arr : e.fl.array = decide (r.nbelem > 0)
  init : e.fl.initialized = true
  good : e.fl.badval = false
  room : e.fl.array = true → (n : Int) ≤ e.max
  plain : r.type ≠ WB_CHAR → e.fl.elementsize = size ∧ e.value.take (n * size) = plain r size n
  string : r.type = WB_CHAR → Stored e.value 0 e.fl.elementsize size n r.src

/-- Outcome of a put that reaches the copy. -/
theorem putCopyE_spec {e : Ent} (ho : EntOk e) {r : Req} {size n : Nat} (h : Sized r size n)
    (ht : e.fl.type = r.type) (ha : e.fl.array = decide (r.nbelem > 0))
    (h1 : e.fl.array = false → n = 1)
    (hsz : r.type ≠ WB_CHAR → e.fl.elementsize = size)
    (hroom : e.fl.array = true → (n : Int) ≤ e.max) :
    ∃ e' c, putCopyE e e.fl.elementsize r size n (decide (r.nbelem > 0)) = some (e', c) ∧
      Same e e' ∧
      ((c < 0 ∧ e'.fl = e.fl ∧ c = -1010 ∧
          ∃ i < n, e.fl.elementsize < (significant (elem r.src size i)).length) ∨
       (0 ≤ c ∧ e'.fl = { e.fl with initialized := true, badval := false } ∧
        (r.type ≠ WB_CHAR → c = if e.fl.array then e.max else 0) ∧ Holds e' r size n)) := by
  unfold putCopyE
  rw [← ha]
  have hnot : ¬ ((e.fl.array && decide ((n : Int) > e.max)) = true) := by
    simp only [Bool.and_eq_true, decide_eq_true_eq, not_and]
    intro hx
    have := hroom hx
    omega
  rw [if_neg hnot]
  have h8 := ho.area_ge
  have hfit : (if e.fl.array = true then 8 else 0) + n * e.fl.elementsize ≤ e.area.length := by
    cases hb : e.fl.array with
    | true =>
      have h2 := ho.array hb
      have h3 := hroom hb
      have h4 : n * e.fl.elementsize ≤ e.max.toNat * e.fl.elementsize :=
        Nat.mul_le_mul_right _ (by omega)
      simp only [if_true]
      omega
    | false =>
      have h2 := ho.scalar hb
      rw [h1 hb]
      simp only [Bool.false_eq_true, if_false]
      omega
  obtain ⟨m', c, hv, hlen, htake, hpl, hstr⟩ := putValues_spec (m := e.area)
    (off := if e.fl.array = true then 8 else 0) (stored := e.fl.elementsize)
    (res := if e.fl.array = true then e.max else 0) h hfit hsz (by
      split
      · rename_i hb
        have := ho.array hb
        omega
      · omega)
  rw [hv]
  have hmax : (e.fl.array = true ∨ e.fl.type ≠ WB_CHAR ∧ e.fl.elementsize = 4) →
      ∀ f, Ent.max ⟨e.key, f, m'⟩ = e.max := by
    intro hcase f
    by_cases hb : e.fl.array = true
    · refine max_of_take (e := e) ?_ hlen h8
      rw [if_pos hb] at htake
      exact htake
    · have hb' : e.fl.array = false := by simpa using hb
      rcases hcase with hc | ⟨hc, h4⟩
      · exact absurd hc hb
      · have hd := (hpl (by rw [← ht]; exact hc)).2.2
        have hs4 := hsz (by rw [← ht]; exact hc)
        rw [if_neg hb, h1 hb', ← hs4, h4] at hd
        unfold Ent.max
        simp only
        rw [show (0 + 1 * 4 : Nat) = 4 from rfl] at hd
        rw [hd]
  have hsame : ∀ f : Flags, f.type = e.fl.type ∧ f.array = e.fl.array ∧
      f.elementsize = e.fl.elementsize ∧ f.lines = e.fl.lines → Same e ⟨e.key, f, m'⟩ :=
    fun f hf => ⟨rfl, hlen, hf.1, hf.2.1, hf.2.2.1, hf.2.2.2, fun hc => hmax hc f⟩
  have hholds : (r.type ≠ WB_CHAR ∨ Stored m' (if e.fl.array = true then 8 else 0)
      e.fl.elementsize size n r.src) →
      Holds ⟨e.key, { e.fl with initialized := true, badval := false }, m'⟩ r size n := by
    intro hst
    refine ⟨ht, ha, rfl, rfl, ?_, ?_, ?_⟩
    · intro hb
      rw [hmax (.inl hb)]
      exact hroom hb
    · intro hc
      refine ⟨hsz hc, ?_⟩
      have := (hpl hc).2.1
      unfold Ent.value
      simp only
      cases hb : e.fl.array <;> simpa [hb] using this
    · intro hc
      have hst := hst.resolve_left (by simp [hc])
      intro i hi
      have := hst i hi
      refine ⟨this.1, ?_⟩
      rw [← this.2]
      unfold Ent.value
      simp only
      cases hb : e.fl.array
      · simp
      · simp only [if_true, List.drop_drop]
        congr 2
        omega
  by_cases hc : r.type = WB_CHAR
  · rcases hstr hc with ⟨hneg, hbad⟩ | ⟨hpos, hst⟩
    · refine ⟨_, c, ?_, hsame e.fl ⟨rfl, rfl, rfl, rfl⟩, .inl ⟨by omega, rfl, hneg, hbad⟩⟩
      simp only [Option.map_some]
      rw [if_pos (by omega)]
    · refine ⟨_, c, ?_, hsame { e.fl with initialized := true, badval := false }
        ⟨rfl, rfl, rfl, rfl⟩, .inr ⟨hpos, rfl, fun hn => absurd hc hn, hholds (.inr hst)⟩⟩
      simp only [Option.map_some]
      rw [if_neg (by omega)]
  · have hcv := (hpl hc).1
    have hpos : 0 ≤ c := by
      rw [hcv]
      split
      · rename_i hb
        have := ho.array hb
        omega
      · omega
    refine ⟨_, c, ?_, hsame { e.fl with initialized := true, badval := false }
      ⟨rfl, rfl, rfl, rfl⟩, .inr ⟨hpos, rfl, fun _ => hcv, hholds (.inl hc)⟩⟩
    simp only [Option.map_some]
    rw [if_neg (by omega)]

/-- An array of strings or of eight byte numbers put on a single string or number. -/
def Clash (r : Req) (e : Ent) : Prop :=
  r.nbelem > 0 ∧ e.fl.array = false ∧ e.fl.type = r.type ∧
    (r.type = WB_CHAR ∨ e.fl.elementsize = 8) ∧
    (e.fl.readonly && e.fl.initialized) = false ∧ r.createOnly = false

/-- Outcome of a put on a variable that exists. -/
theorem putOldE_spec {e : Ent} (ho : EntOk e) {r : Req} {size n : Nat} (h : Sized r size n)
    (hn : r.nbelem = 0 → n = 1) (hn0 : 0 ≤ r.nbelem) (hcl : ¬ Clash r e) :
    ∃ e' c, putOldE e r size n (decide (r.nbelem > 0)) = some (e', c) ∧ Same e e' ∧
      ((c < 0 ∧ ((e' = e ∧ (c = -1012 ∧ r.createOnly = true ∨
            c = -1002 ∧ e.fl.readonly = true ∧ e.fl.initialized = true)) ∨
          ((e.fl.readonly && e.fl.initialized) = false ∧ r.createOnly = false ∧
            e'.fl = { e.fl with badval := true }))) ∨
       (0 ≤ c ∧ (e.fl.readonly && e.fl.initialized) = false ∧
        e'.fl = { e.fl with initialized := true, badval := false } ∧
        (r.type ≠ WB_CHAR → c = if e.fl.array then e.max else 0) ∧ Holds e' r size n)) := by
  unfold putOldE
  simp only []
  have hbad : Same e { e with fl := { e.fl with badval := true } } :=
    Same.flags e _ ⟨rfl, rfl, rfl, rfl⟩
  by_cases h1 : r.createOnly = true
  · rw [if_pos h1]
    exact ⟨e, _, rfl, Same.refl e, .inl ⟨by decide, .inl ⟨rfl, .inl ⟨rfl, h1⟩⟩⟩⟩
  rw [if_neg h1]
  have h1' : r.createOnly = false := by simpa using h1
  by_cases h2 : (e.fl.readonly && e.fl.initialized) = true
  · rw [if_pos h2]
    rw [Bool.and_eq_true] at h2
    exact ⟨e, _, rfl, Same.refl e, .inl ⟨by decide, .inl ⟨rfl, .inr ⟨rfl, h2.1, h2.2⟩⟩⟩⟩
  rw [if_neg h2]
  have h2' : (e.fl.readonly && e.fl.initialized) = false := by
    cases hb : (e.fl.readonly && e.fl.initialized) with
    | true => exact absurd hb h2
    | false => rfl
  by_cases h3 : (e.fl.array && !decide (r.nbelem > 0)) = true
  · rw [if_pos h3]
    exact ⟨_, _, rfl, hbad, .inl ⟨by decide, .inr ⟨h2', h1', rfl⟩⟩⟩
  rw [if_neg h3]
  by_cases h4 : e.fl.type ≠ r.type
  · rw [if_pos h4]
    exact ⟨_, _, rfl, hbad, .inl ⟨by decide, .inr ⟨h2', h1', rfl⟩⟩⟩
  rw [if_neg h4]
  have h4' : e.fl.type = r.type := Decidable.not_not.1 h4
  by_cases h5 : e.fl.type ≠ WB_CHAR ∧ e.fl.elementsize ≠ size
  · rw [if_pos h5]
    exact ⟨_, _, rfl, hbad, .inl ⟨by decide, .inr ⟨h2', h1', rfl⟩⟩⟩
  rw [if_neg h5]
  have h5' : r.type ≠ WB_CHAR → e.fl.elementsize = size := by
    intro hc
    by_cases hh : e.fl.elementsize = size
    · exact hh
    · exact absurd ⟨by rw [h4']; exact hc, hh⟩ h5
  by_cases h6 : (decide (r.nbelem > 0) && decide (e.max < n)) = true
  · rw [if_pos h6]
    exact ⟨_, _, rfl, hbad, .inl ⟨by decide, .inr ⟨h2', h1', rfl⟩⟩⟩
  rw [if_neg h6]
  have harr : e.fl.array = decide (r.nbelem > 0) := by
    by_cases hp : r.nbelem > 0
    · simp only [hp, decide_true]
      by_cases hb : e.fl.array = true
      · exact hb
      · exfalso
        have hb' : e.fl.array = false := by simpa using hb
        simp only [hp, decide_true, Bool.true_and, decide_eq_true_eq] at h6
        have hcl' : ¬ (r.type = WB_CHAR ∨ e.fl.elementsize = 8) :=
          fun hc => hcl ⟨hp, hb', h4', hc, h2', h1'⟩
        rw [not_or] at hcl'
        have h8 := ho.size (by rw [h4']; exact hcl'.1)
        have := ho.four hb' (by rw [h4']; exact hcl'.1) (h8.resolve_right hcl'.2)
        have := h.pos
        omega
    · simp only [hp, decide_false, Bool.not_false, Bool.and_true, Bool.not_eq_true] at h3 ⊢
      exact h3
  obtain ⟨e', c, he, hsame, hcase⟩ := putCopyE_spec (e := { e with fl := { e.fl with badval := true } })
    (hbad.ok ho) h h4' harr (by
      intro hb
      apply hn
      have : e.fl.array = false := hb
      rw [harr] at this
      simp at this
      omega) h5' (by
      intro hb
      have hb' : e.fl.array = true := hb
      rw [← harr, hb'] at h6
      simp only [Bool.true_and, decide_eq_true_eq] at h6
      show (n : Int) ≤ e.max
      omega)
  refine ⟨e', c, he, hbad.trans hsame, ?_⟩
  rcases hcase with ⟨hneg, hf, _⟩ | ⟨hpos, hf, hcv, hh⟩
  · exact .inl ⟨hneg, .inr ⟨h2', h1', hf⟩⟩
  · exact .inr ⟨hpos, h2', hf, hcv, hh⟩

end WhiteBoard
