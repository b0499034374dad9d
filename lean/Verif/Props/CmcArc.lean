import Verif.CmcArc

/-! C91: the parts of archives. -/
namespace Verif.CmcArc

/-- The `n` bytes of a number, in order of decreasing weight. -/
def toBe : Nat → Nat → List Byte
  | 0, _ => []
  | n + 1, v => toBe n (v / 256) ++ [UInt8.ofNat v]

/-- A part of an archive.  Old parts have sizes of 32 bits, new ones (`wide`) of 64. -/
structure Part where
  wide : Bool
  code : Byte
  name : List Byte
  pad : List Byte
  data : List Byte
  tail : List Byte
deriving DecidableEq, Repr

/-- The name, with its code, terminator and filling. -/
def Part.head (p : Part) : List Byte := p.code :: (p.name ++ 0 :: p.pad)

/-- Sizes in units of 8 bytes: the data, and the whole part. -/
def Part.nd (p : Part) : Nat := p.data.length / 8
@[inherit_doc Part.nd]
def Part.nt (p : Part) : Nat := p.head.length / 8 + p.nd + (if p.wide then 4 else 2)

/-- The sizes as written. -/
def Part.sizes (p : Part) : List Byte := if p.wide then toBe 8 p.nt ++ toBe 8 p.nd else toBe 4 p.nt ++ toBe 4 p.nd

/-- The part in the file. -/
def Part.bytes (p : Part) : List Byte := p.sizes ++ p.head ++ p.data ++ p.tail

/-- A well formed part: whole units, a name of 16 to 256 bytes in all, sizes that fit.  Sizes of 64 bits are recognised by their upper
half, which is smaller than 4 more than the lower half. -/
structure Part.Ok (p : Part) : Prop where
  name : 0 ∉ p.name
  head : p.head.length % 8 = 0 ∧ 16 ≤ p.head.length ∧ p.head.length ≤ 256
  data : p.data.length % 8 = 0
  tail : p.tail.length = if p.wide then 16 else 8
  size : if p.wide then p.nt < 2 ^ 63 ∧ p.nt / 2 ^ 32 < (p.nt % 2 ^ 32 + 4) % 2 ^ 32 else p.nt < 2 ^ 32

theorem toBe_length : ∀ n v, (toBe n v).length = n
  | 0, _ => rfl
  | n + 1, v => by rw [toBe, List.length_append, toBe_length n]; rfl

theorem be_snoc (bs : List Byte) (b : Byte) : be (bs ++ [b]) = be bs * 256 + b.toNat := by
  unfold be; rw [List.foldl_append]; rfl

theorem be_toBe : ∀ n v, be (toBe n v) = v % 256 ^ n
  | 0, v => by rw [Nat.pow_zero, Nat.mod_one]; rfl
  | n + 1, v => by
    rw [toBe, be_snoc, be_toBe n, Nat.pow_succ, Nat.mul_comm (256 ^ n) 256, Nat.mod_mul]
    have : (UInt8.ofNat v).toNat = v % 256 := by simp
    omega

theorem toBe_split (n m v : Nat) : toBe (n + m) v = toBe n (v / 256 ^ m) ++ toBe m v := by
  induction m generalizing v with
  | zero => simp [toBe]
  | succ m ih =>
    rw [← Nat.add_assoc, toBe, ih, toBe, List.append_assoc, Nat.div_div_eq_div_mul, Nat.pow_succ, Nat.mul_comm 256]

theorem readAt_mid (a b c : List Byte) (k n : Nat) (hk : k = a.length) (hn : n = b.length) : readAt (a ++ (b ++ c)) k n = b := by
  subst hk hn
  unfold readAt
  rw [List.drop_left, List.take_left]

theorem fill_all {mem got : List Byte} (h : mem.length = got.length) : fill mem got = got := by
  unfold fill
  rw [List.drop_of_length_le (by omega), List.append_nil]

theorem strEq_spec : ∀ (sub name rest : List Byte), 0 ∉ sub → 0 ∉ name → strEq sub (name ++ 0 :: rest) = some (decide (name = sub))
  | [], [], rest, _, _ => rfl
  | [], b :: n, rest, _, hn => by
    have : b ≠ 0 := fun h => hn (by simp [h])
    simp [strEq, this]
  | a :: s, [], rest, hs, _ => by
    have : a ≠ 0 := fun h => hs (by simp [h])
    simp [strEq, this]
  | a :: s, b :: n, rest, hs, hn => by
    rw [List.cons_append, strEq]
    by_cases c : a = b
    · rw [if_pos c, strEq_spec s n rest (fun h => hs (.tail _ h)) (fun h => hn (.tail _ h))]
      simp [c]
    · rw [if_neg c]
      simp [Ne.symm c]

/-- Sizes of the memory. -/
def Mem (c : Cm) : Prop := c.hdr.length = 8 ∧ c.name.length = 256

/-- The first 8 bytes. -/
def Part.first (p : Part) : List Byte := toBe 4 (if p.wide then p.nt / 2 ^ 32 else p.nt) ++ toBe 4 (if p.wide then p.nt else p.nd)

theorem first_length (p : Part) : p.first.length = 8 := by
  unfold Part.first; rw [List.length_append, toBe_length, toBe_length]

/-- The others, if any. -/
def Part.second (p : Part) : List Byte := if p.wide then toBe 8 p.nd else []

theorem sizes_eq (p : Part) : p.sizes = p.first ++ p.second := by
  unfold Part.sizes Part.first Part.second
  cases p.wide
  · simp
  · simp only [if_true]
    rw [show (8 : Nat) = 4 + 4 from rfl, toBe_split 4 4 p.nt]

theorem first_be (p : Part) : be (p.first.take 4) = (if p.wide then p.nt / 2 ^ 32 else p.nt) % 2 ^ 32 ∧
    be ((p.first.drop 4).take 4) = (if p.wide then p.nt else p.nd) % 2 ^ 32 := by
  unfold Part.first
  rw [List.take_left' (toBe_length 4 _), List.drop_left' (toBe_length 4 _), List.take_of_length_le (by rw [toBe_length]; exact Nat.le_refl _), be_toBe, be_toBe]
  exact ⟨rfl, rfl⟩

theorem sizes_spec (a rest : List Byte) (p : Part) (c : Cm) (hp : p.Ok) (hc : Mem c) (hpos : c.pos = a.length + 8) (hh : c.hdr = p.first) :
    ∃ c', Mem c' ∧ sizes (a ++ (p.sizes ++ rest)) c = .ok (c', p.head.length, p.nd, if p.wide then 2 else 1) ∧
      c'.pos = a.length + p.sizes.length := by
  obtain ⟨b1, b2⟩ := first_be p
  obtain ⟨e1, e2, e3⟩ := hp.head
  have hsz := hp.size
  unfold sizes
  rw [hh, b1, b2]
  cases hw : p.wide with
  | false =>
    rw [hw] at hsz
    simp only [Bool.false_eq_true, if_false] at hsz ⊢
    have hnt : p.nt = p.head.length / 8 + p.nd + 2 := by unfold Part.nt; rw [hw]; rfl
    have h1 : p.nd % 2 ^ 32 = p.nd := Nat.mod_eq_of_lt (by omega)
    have h2 : p.nt % 2 ^ 32 = p.nt := Nat.mod_eq_of_lt hsz
    rw [h1, h2, if_pos (by omega)]
    refine ⟨c, hc, ?_, ?_⟩
    · congr 3
      rw [hnt]; omega
    · rw [hpos]; unfold Part.sizes; rw [hw]; simp [toBe_length]
  | true =>
    rw [hw] at hsz
    simp only [if_true] at hsz ⊢
    obtain ⟨s1, s2⟩ := hsz
    have hnt : p.nt = p.head.length / 8 + p.nd + 4 := by unfold Part.nt; rw [hw]; rfl
    have h1 : p.nt / 2 ^ 32 % 2 ^ 32 = p.nt / 2 ^ 32 := Nat.mod_eq_of_lt (by omega)
    rw [h1, if_neg (by omega)]
    have h3 : readAt (a ++ (p.sizes ++ rest)) c.pos 8 = toBe 8 p.nd := by
      rw [sizes_eq, Part.second, hw, if_pos rfl]
      rw [show a ++ (p.first ++ toBe 8 p.nd ++ rest) = (a ++ p.first) ++ (toBe 8 p.nd ++ rest) by simp]
      exact readAt_mid _ _ _ _ _ (by rw [hpos, List.length_append, first_length]) (toBe_length _ _).symm
    rw [h3]
    have h4 : fill p.first (toBe 8 p.nd) = toBe 8 p.nd := fill_all (by rw [first_length, toBe_length])
    simp only [h4]
    rw [List.take_of_length_le (by rw [toBe_length]; exact Nat.le_refl _), be_toBe]
    have h5 : p.nd % 256 ^ 8 = p.nd := Nat.mod_eq_of_lt (by omega)
    have h6 : p.nt / 2 ^ 32 * 2 ^ 32 + p.nt % 2 ^ 32 = p.nt := by omega
    rw [h5, h6]
    have h7 : s64 p.nt = p.nt := if_pos s1
    have h8 : s64 p.nd = p.nd := if_pos (by omega)
    rw [h7, h8, if_neg (by omega)]
    refine ⟨{ c with pos := c.pos + (toBe 8 p.nd).length, hdr := toBe 8 p.nd }, ⟨toBe_length _ _, hc.2⟩, ?_, ?_⟩
    · congr 3
      rw [hnt]; omega
    · show c.pos + _ = _
      rw [hpos]; unfold Part.sizes; rw [hw]; simp [toBe_length]

theorem record_spec (a rest sub : List Byte) (p : Part) (c : Cm) (hp : p.Ok) (hs : 0 ∉ sub) (hc : Mem c) (hpos : c.pos = a.length) :
    ∃ c', Mem c' ∧ record (a ++ (p.bytes ++ rest)) sub c =
      .ok (if p.name = sub then (c', .here ((if p.wide then p.nt else p.nd) % 2 ^ 32)) else ({ c' with pos := a.length + p.bytes.length }, .next)) ∧
      c'.pos = a.length + p.sizes.length + p.head.length := by
  obtain ⟨e1, e2, e3⟩ := hp.head
  have hf : a ++ (p.bytes ++ rest) = a ++ (p.first ++ (p.second ++ p.head ++ p.data ++ p.tail ++ rest)) := by
    unfold Part.bytes; rw [sizes_eq]; simp
  have hf2 : a ++ (p.bytes ++ rest) = a ++ (p.sizes ++ (p.head ++ p.data ++ p.tail ++ rest)) := by
    unfold Part.bytes; simp
  have hf3 : a ++ (p.bytes ++ rest) = (a ++ p.sizes) ++ (p.head ++ (p.data ++ p.tail ++ rest)) := by
    unfold Part.bytes; simp
  have r1 : readAt (a ++ (p.bytes ++ rest)) c.pos 8 = p.first := by
    rw [hf]; exact readAt_mid _ _ _ _ _ hpos (first_length p).symm
  unfold record
  rw [r1]
  have f1 : fill c.hdr p.first = p.first := fill_all (by rw [hc.1, first_length])
  simp only [f1, first_length, ne_eq, not_true, if_false]
  obtain ⟨c2, m2, hz, hp2⟩ := sizes_spec a (p.head ++ p.data ++ p.tail ++ rest) p { c with pos := c.pos + 8, hdr := p.first } hp
    ⟨first_length p, hc.2⟩ (by show c.pos + 8 = _; rw [hpos]) rfl
  rw [← hf2] at hz
  rw [hz]
  dsimp only
  rw [if_neg (by omega)]
  have r2 : readAt (a ++ (p.bytes ++ rest)) c2.pos ((p.head.length : Int)).toNat = p.head := by
    rw [hf3]; exact readAt_mid _ _ _ _ _ (by rw [hp2, List.length_append]) (by omega)
  rw [r2, if_neg (by omega), if_neg (by omega)]
  have hd : (fill c2.name p.head).drop 1 = p.name ++ 0 :: (p.pad ++ c2.name.drop p.head.length) := by
    unfold fill Part.head; simp
  rw [hd, strEq_spec _ _ _ hs hp.name, (first_be p).2]
  refine ⟨{ c2 with pos := c2.pos + p.head.length, name := fill c2.name p.head }, ⟨m2.1, ?_⟩, ?_, ?_⟩
  · show (fill c2.name p.head).length = 256
    unfold fill
    rw [List.length_append, List.length_drop, m2.2]; omega
  · by_cases hn : p.name = sub
    · simp only [hn, decide_true, if_true]
    · simp only [hn, decide_false, if_false]
      have ht := hp.tail
      have hdt := hp.data
      have hb : p.bytes.length = p.sizes.length + p.head.length + p.data.length + p.tail.length := by
        unfold Part.bytes; simp [Nat.add_assoc]
      have hnd : p.nd * 8 = p.data.length := by unfold Part.nd; omega
      have hP : (((c2.pos + p.head.length : Nat) : Int) + ((p.nd : Int) + if p.wide = true then 2 else 1) * 8) = ((a.length + p.bytes.length : Nat) : Int) := by
        rw [hp2, hb, ← hnd, ht]
        split <;> omega
      rw [hP, if_neg (by omega)]
      rfl
  · show c2.pos + _ = _
    rw [hp2]

/-- The three forms of the beginning of an archive: the signature alone, or a part whose size is given first, with the signature in place
of its name (version 4: size and 0; version 5: two sizes of 64 bits). -/
inductive Lead : List Byte → Prop
  | old : Lead sign4
  | v4 (n : Nat) (code : Byte) (rest : List Byte) (hn : 4 ≤ n ∧ n < 2 ^ 28) (hl : rest.length + 17 = 8 * n) :
    Lead (toBe 4 n ++ toBe 4 0 ++ code :: (sign4 ++ rest))
  | v5 (n m : Nat) (code : Byte) (rest : List Byte) (hn : n < 2 ^ 28) (hm : m < 2 ^ 48) (hl : rest.length + 25 = 8 * n) :
    Lead (toBe 8 n ++ toBe 8 m ++ code :: (sign5 ++ rest))

theorem lead_second (F G r junk : List Byte) (hF : F.length = 8) (hG : G.length = 17) (hj : junk.length = 25) (hne : F ≠ sign4) :
    lead (F ++ (G ++ r)) junk =
      if (G.drop 1).take 8 = sign4 then
        if be (F.drop 4) ≠ 0 then .error (-1)
        else if (25 : Int) + s32 ((be (F.take 4) * 8 + (2 ^ 32 - 25)) % 2 ^ 32) < 0 then .error (-1)
        else .ok ((25 : Int) + s32 ((be (F.take 4) * 8 + (2 ^ 32 - 25)) % 2 ^ 32)).toNat
      else if (G.drop 9).take 8 = sign5 then
        if (25 : Int) + s32 ((be (F.drop 4) * 8 + (2 ^ 32 - 25)) % 2 ^ 32) < 0 then .error (-1)
        else .ok ((25 : Int) + s32 ((be (F.drop 4) * 8 + (2 ^ 32 - 25)) % 2 ^ 32)).toNat
      else .error (-1) := by
  have r1 : readAt (F ++ (G ++ r)) 0 8 = F := readAt_mid [] F (G ++ r) 0 8 rfl hF.symm
  have r2 : readAt (F ++ (G ++ r)) 8 17 = G := readAt_mid F G r 8 17 hF.symm hG.symm
  have r3 : (fill junk F).take 8 = F := List.take_left' hF
  have r4 : fill ((fill junk F).drop 8) G = G := fill_all (by
    unfold fill; rw [List.length_drop, List.length_append, List.length_drop]; omega)
  have d1 : (F ++ G).take 4 = F.take 4 := List.take_append_of_le_length (by omega)
  have d2 : ((F ++ G).drop 4).take 4 = F.drop 4 := by
    rw [List.drop_append_of_le_length (by omega), List.take_left' (by rw [List.length_drop]; omega)]
  have d3 : (F ++ G).drop 9 = G.drop 1 := by
    rw [show 9 = F.length + 1 by omega, ← List.drop_drop, List.drop_left]
  have d4 : (F ++ G).drop 17 = G.drop 9 := by
    rw [show 17 = F.length + 9 by omega, ← List.drop_drop, List.drop_left]
  unfold lead
  simp only [r1, hF, r2, hG, r3, r4, if_neg hne, d1, d2, d3, d4]
  rfl

theorem skip_spec {n : Nat} (h : 4 ≤ n ∧ n < 2 ^ 28) : (25 : Int) + s32 ((n * 8 + (2 ^ 32 - 25)) % 2 ^ 32) = ((8 * n : Nat) : Int) := by
  unfold s32
  split <;> omega

theorem lead_spec {l : List Byte} (hl : Lead l) (r junk : List Byte) (hj : junk.length = 25) : lead (l ++ r) junk = .ok l.length := by
  cases hl with
  | old =>
    have r1 : readAt (sign4 ++ r) 0 8 = sign4 := readAt_mid [] sign4 r 0 8 rfl rfl
    unfold lead
    simp only [r1]
    rw [if_pos (show (fill junk sign4).take 8 = sign4 from List.take_left' rfl)]
  | v4 n code rest hn hl =>
    have hG : (code :: (sign4 ++ rest.take 8)).length = 17 := by simp [sign4]; omega
    rw [show toBe 4 n ++ toBe 4 0 ++ code :: (sign4 ++ rest) ++ r =
      (toBe 4 n ++ toBe 4 0) ++ ((code :: (sign4 ++ rest.take 8)) ++ (rest.drop 8 ++ r)) by
        rw [← List.append_assoc (code :: (sign4 ++ rest.take 8))]
        simp,
      lead_second _ _ _ _ (by simp [toBe_length]) hG hj ?_]
    · rw [List.drop_left' (toBe_length 4 _), List.take_left' (toBe_length 4 _), be_toBe, be_toBe]
      rw [show ((code :: (sign4 ++ rest.take 8)).drop 1).take 8 = sign4 from List.take_left' rfl, if_pos rfl, if_neg (by decide),
        Nat.mod_eq_of_lt (a := n) (by omega), skip_spec hn, if_neg (by omega)]
      simp [toBe_length, sign4]
      omega
    · intro h
      have := congrArg (List.drop 4) h
      rw [List.drop_left' (toBe_length 4 _)] at this
      exact absurd this (by decide)
  | v5 n m code rest hn hm hl =>
    have hG : (toBe 8 m ++ code :: sign5).length = 17 := by simp [toBe_length, sign5]
    rw [show toBe 8 n ++ toBe 8 m ++ code :: (sign5 ++ rest) ++ r = toBe 8 n ++ ((toBe 8 m ++ code :: sign5) ++ (rest ++ r)) by simp,
      lead_second _ _ _ _ (toBe_length 8 _) hG hj ?_]
    · have h8 : toBe 8 n = toBe 4 (n / 256 ^ 4) ++ toBe 4 n := toBe_split 4 4 n
      rw [h8, List.drop_left' (toBe_length 4 _), be_toBe, if_neg, if_pos, Nat.mod_eq_of_lt (a := n) (by omega), skip_spec ⟨by omega, hn⟩, if_neg (by omega)]
      · rw [← h8]
        simp [toBe_length, sign5]
        omega
      · rw [show 9 = 8 + 1 from rfl, ← List.drop_drop, List.drop_left' (toBe_length 8 _)]
        rfl
      · intro h
        have h2 := congrArg (List.take 1) h
        rw [show toBe 8 m = toBe 1 (m / 256 ^ 7) ++ (toBe 1 (m / 256 ^ 6) ++ toBe 6 m) by
          rw [show 8 = 1 + 7 from rfl, toBe_split 1 7 m, show 7 = 1 + 6 from rfl, toBe_split 1 6 m]] at h2
        have hm6 : m / 256 ^ 6 = 0 := Nat.div_eq_of_lt (by omega)
        rw [hm6, List.append_assoc, List.append_assoc, List.drop_left' (toBe_length 1 _)] at h2
        exact absurd (show [(0 : Byte)] = [67] from h2) (by decide)
    · intro h
      have h2 := congrArg (List.take 4) h
      rw [show 8 = 4 + 4 from rfl, toBe_split 4 4 n, List.take_left' (toBe_length 4 _), Nat.div_eq_of_lt (by omega)] at h2
      exact absurd h2 (by decide)

/-- The parts one after the other. -/
def all (ps : List Part) : List Byte := (ps.map Part.bytes).flatten

theorem search_found (sub : List Byte) (hs : 0 ∉ sub) (p : Part) (hp : p.Ok) (hn : p.name = sub) (rest : List Byte) :
    ∀ (pre : List Part) (a : List Byte) (n : Nat) (c : Cm), (∀ q ∈ pre, q.Ok ∧ q.name ≠ sub) → pre.length < n → Mem c → c.pos = a.length →
      ∃ c', search (a ++ (all pre ++ (p.bytes ++ rest))) sub n c = .ok (c', .here ((if p.wide then p.nt else p.nd) % 2 ^ 32)) ∧
        c'.pos = a.length + (all pre).length + p.sizes.length + p.head.length
  | [], a, n + 1, c, _, _, hc, ha => by
    obtain ⟨c', -, h, hp'⟩ := record_spec a rest sub p c hp hs hc ha
    refine ⟨c', ?_, by simpa [all] using hp'⟩
    rw [show all [] ++ (p.bytes ++ rest) = p.bytes ++ rest from rfl, search, h, if_pos hn]
  | q :: pre, a, n + 1, c, hq, hl, hc, ha => by
    obtain ⟨c', hc', h, -⟩ := record_spec a (all pre ++ (p.bytes ++ rest)) sub q c (hq q (.head _)).1 hs hc ha
    obtain ⟨c2, h2, h3⟩ := search_found sub hs p hp hn rest pre (a ++ q.bytes) n { c' with pos := a.length + q.bytes.length }
      (fun x hx => hq x (.tail _ hx)) (by simpa using hl) hc' (by simp)
    refine ⟨c2, ?_, ?_⟩
    · rw [show all (q :: pre) ++ (p.bytes ++ rest) = q.bytes ++ (all pre ++ (p.bytes ++ rest)) by simp [all], search, h,
        if_neg (hq q (.head _)).2]
      dsimp only
      rw [← h2, List.append_assoc]
    · rw [h3, List.length_append, show all (q :: pre) = q.bytes ++ all pre by simp [all], List.length_append]; omega

theorem search_absent (sub : List Byte) (hs : 0 ∉ sub) :
    ∀ (ps : List Part) (a : List Byte) (n : Nat) (c : Cm), (∀ q ∈ ps, q.Ok ∧ q.name ≠ sub) → ps.length < n → Mem c → c.pos = a.length →
      ∃ c', search (a ++ all ps) sub n c = .ok (c', .ret (-2))
  | [], a, n + 1, c, _, _, hc, ha => by
    refine ⟨{ c with pos := c.pos + 0, hdr := fill c.hdr [] }, ?_⟩
    rw [search, record]
    have : readAt (a ++ all []) c.pos 8 = [] := by
      unfold readAt all; rw [ha]; simp
    rw [this]
    rfl
  | q :: pre, a, n + 1, c, hq, hl, hc, ha => by
    obtain ⟨c', hc', h, -⟩ := record_spec a (all pre) sub q c (hq q (.head _)).1 hs hc ha
    obtain ⟨c2, h2⟩ := search_absent sub hs pre (a ++ q.bytes) n { c' with pos := a.length + q.bytes.length }
      (fun x hx => hq x (.tail _ hx)) (by simpa using hl) hc' (by simp)
    refine ⟨c2, ?_⟩
    rw [show all (q :: pre) = q.bytes ++ all pre by simp [all], search, h, if_neg (hq q (.head _)).2]
    dsimp only
    rw [← h2, List.append_assoc]

theorem all_length : ∀ ps : List Part, ps.length ≤ (all ps).length
  | [] => Nat.zero_le _
  | q :: ps => by
    have := all_length ps
    rw [show all (q :: ps) = q.bytes ++ all ps by simp [all], List.length_append, List.length_cons]
    have : 1 ≤ q.bytes.length := by unfold Part.bytes Part.head; simp; omega
    omega

/-- C91.  A part that is not in the archive is not found, in archives of any form. -/
theorem C91_absent (l : List Byte) (ps : List Part) (sub junk hdr name : List Byte) (hl : Lead l) (hs : 0 ∉ sub)
    (hp : ∀ q ∈ ps, q.Ok ∧ q.name ≠ sub) (hj : junk.length = 25) (hh : hdr.length = 8) (hm : name.length = 256) :
    filepos (l ++ all ps) sub junk hdr name = .ok (-2, 0) := by
  unfold filepos
  rw [lead_spec hl _ _ hj]
  obtain ⟨c, h⟩ := search_absent sub hs ps l ((l ++ all ps).length + 1) ⟨l.length, hdr, name⟩ hp
    (by have := all_length ps; rw [List.length_append]; omega) ⟨hh, hm⟩ rfl
  dsimp only
  rw [h]

/-- C91, the search: the first part of the name is found, and the file is then positioned at its data.
Missing: `filepos` moves to the end of the file before it takes the position (see the witness). -/
theorem C91_search_partial (l : List Byte) (pre : List Part) (p : Part) (rest sub junk hdr name : List Byte) (hl : Lead l) (hs : 0 ∉ sub)
    (hpre : ∀ q ∈ pre, q.Ok ∧ q.name ≠ sub) (hp : p.Ok) (hn : p.name = sub) (hj : junk.length = 25) (hh : hdr.length = 8) (hm : name.length = 256) :
    lead (l ++ (all pre ++ (p.bytes ++ rest))) junk = .ok l.length ∧
    ∃ c nd, search (l ++ (all pre ++ (p.bytes ++ rest))) sub ((l ++ (all pre ++ (p.bytes ++ rest))).length + 1) ⟨l.length, hdr, name⟩ = .ok (c, .here nd) ∧
      (l ++ (all pre ++ (p.bytes ++ rest))).drop c.pos = p.data ++ p.tail ++ rest ∧
      (p.wide = false → nd * 8 = p.data.length) := by
  refine ⟨lead_spec hl _ _ hj, ?_⟩
  obtain ⟨c, h, hc⟩ := search_found sub hs p hp hn rest pre l ((l ++ (all pre ++ (p.bytes ++ rest))).length + 1) ⟨l.length, hdr, name⟩ hpre
    (by have := all_length pre; simp only [List.length_append]; omega) ⟨hh, hm⟩ rfl
  refine ⟨c, _, h, ?_, fun hw => ?_⟩
  · rw [hc, show l ++ (all pre ++ (p.bytes ++ rest)) = (l ++ all pre ++ p.sizes ++ p.head) ++ (p.data ++ p.tail ++ rest) by
      unfold Part.bytes; simp]
    exact List.drop_left' (by simp [Nat.add_assoc])
  · have hz := hp.size
    have hd := hp.data
    have : p.nt = p.head.length / 8 + p.nd + 2 := by unfold Part.nt; rw [hw]; rfl
    rw [hw] at hz ⊢
    simp only [Bool.false_eq_true, if_false] at hz ⊢
    rw [Nat.mod_eq_of_lt (by omega)]
    unfold Part.nd
    omega

/-- C91 is false: for every part found, the offset returned is the end of the file.  The data of the part are elsewhere, and
there is no word to read at this offset. -/
theorem C91_end_witness (l : List Byte) (pre : List Part) (p : Part) (rest sub junk hdr name : List Byte) (hl : Lead l) (hs : 0 ∉ sub)
    (hpre : ∀ q ∈ pre, q.Ok ∧ q.name ≠ sub) (hp : p.Ok) (hn : p.name = sub) (hj : junk.length = 25) (hh : hdr.length = 8) (hm : name.length = 256) :
    ∃ (off len : Nat), filepos (l ++ (all pre ++ (p.bytes ++ rest))) sub junk hdr name = .ok ((off : Int), len) ∧
      ((l ++ (all pre ++ (p.bytes ++ rest))).drop (4 * off)).length < 4 ∧
      4 * off ≠ l.length + (all pre).length + p.sizes.length + p.head.length := by
  obtain ⟨h1, c, nd, h2, h3, -⟩ := C91_search_partial l pre p rest sub junk hdr name hl hs hpre hp hn hj hh hm
  refine ⟨(l ++ (all pre ++ (p.bytes ++ rest))).length / 4, nd * 8 % 2 ^ 32 / 4, ?_, ?_, ?_⟩
  · unfold filepos
    rw [h1]
    dsimp only
    rw [h2]
  · rw [List.length_drop]; omega
  · have ht := hp.tail
    have : 8 ≤ p.tail.length := by rw [ht]; split <;> omega
    unfold Part.bytes
    simp only [List.length_append]
    omega

/-- A part in the old form. -/
def partA : Part := ⟨false, 0, [97], List.replicate 13 0, List.replicate 24 7, List.replicate 8 1⟩
/-- A part in the new form. -/
def partB : Part := ⟨true, 0, [98], List.replicate 13 0, List.replicate 32 9, List.replicate 16 2⟩
/-- An archive of both. -/
def archive : List Byte := toBe 4 4 ++ toBe 4 0 ++ 0 :: (sign4 ++ List.replicate 15 0) ++ (all [partA] ++ (partB.bytes ++ []))

theorem partA_ok : partA.Ok := ⟨by decide, by decide, by decide, by decide, by decide⟩
theorem partB_ok : partB.Ok := ⟨by decide, by decide, by decide, by decide, by decide⟩

example : ∃ c nd, search archive [98] (archive.length + 1) ⟨32, List.replicate 8 0, List.replicate 256 0⟩ = .ok (c, .here nd) ∧
    archive.drop c.pos = List.replicate 32 9 ++ List.replicate 16 2 := by
  obtain ⟨-, c, nd, h1, h2, -⟩ := C91_search_partial _ [partA] partB [] [98] (List.replicate 25 0) (List.replicate 8 0) (List.replicate 256 0)
    (Lead.v4 4 0 (List.replicate 15 0) (by decide) (by decide)) (by decide)
    (fun q hq => by rw [List.mem_singleton.1 hq]; exact ⟨partA_ok, by decide⟩) partB_ok rfl List.length_replicate List.length_replicate List.length_replicate
  exact ⟨c, nd, h1, h2⟩

deriving instance DecidableEq for Except

/-- The length taken for a part in the new form is not that of its data (8 words) but the one of the whole part: it comes from the
first 8 bytes of the record, which hold the total size. -/
theorem C91_length_witness : ∃ off, filepos archive [98] (List.replicate 25 0) (List.replicate 8 0) (List.replicate 256 0) = .ok (off, 20) ∧
    partB.data.length / 4 = 8 := ⟨42, by decide +kernel, by decide⟩

/-- A damaged archive on which the search never ends: a record in the new form with a negative size of data. -/
def endless : List Byte := sign4 ++ List.replicate 8 0 ++ [255, 255, 255, 255, 255, 255, 255, 250] ++ 0 :: 97 :: List.replicate 14 0

theorem C91_loop_witness (n : Nat) : ∀ c : Cm, Mem c → c.pos = 8 → search endless [98] n c = .error .loop := by
  induction n with
  | zero => intros; rfl
  | succ n ih =>
    rintro ⟨pos, hdr, name⟩ ⟨h1, h2⟩ rfl
    dsimp only at h1 h2
    have r1 : readAt endless 8 8 = List.replicate 8 0 := by decide +kernel
    have r2 : readAt endless 16 8 = [255, 255, 255, 255, 255, 255, 255, 250] := by decide +kernel
    have r3 : readAt endless 24 16 = 0 :: 97 :: List.replicate 14 0 := by decide +kernel
    have f1 : fill hdr (List.replicate 8 0) = List.replicate 8 0 := fill_all (by rw [h1]; rfl)
    have hz : sizes endless ⟨16, List.replicate 8 0, name⟩ = .ok (⟨24, [255, 255, 255, 255, 255, 255, 255, 250], name⟩, 16, -6, 2) := by
      unfold sizes
      have b1 : be ((List.replicate 8 (0 : Byte)).take 4) = 0 := by decide
      have b2 : be (((List.replicate 8 (0 : Byte)).drop 4).take 4) = 0 := by decide
      have b3 : fill (List.replicate 8 0) [255, 255, 255, 255, 255, 255, 255, 250] = [255, 255, 255, 255, 255, 255, 255, 250] := by decide
      have b4 : s64 (be (([255, 255, 255, 255, 255, 255, 255, 250] : List Byte).take 8)) = -6 := by decide +kernel
      have b5 : s64 (0 * 2 ^ 32 + 0) = 0 := by decide
      simp only [r2, b1, b2, b3, b4, b5]
      rw [if_neg (by decide), if_neg (by decide)]
      rfl
    have hr : record endless [98] ⟨8, hdr, name⟩ =
        .ok (⟨8, [255, 255, 255, 255, 255, 255, 255, 250], fill name (0 :: 97 :: List.replicate 14 0)⟩, .next) := by
      unfold record
      simp only [r1, f1, List.length_replicate, ne_eq, not_true, if_false, hz]
      rw [if_neg (by decide)]
      rw [show ((16 : Int)).toNat = 16 from rfl, r3]
      rfl
    rw [search, hr]
    refine ih _ ⟨rfl, ?_⟩ rfl
    show (fill name _).length = 256
    unfold fill
    rw [List.length_append, List.length_drop, h2]
    rfl

/-- A name of more than 256 bytes overflows `cmcarc_name`. -/
theorem C91_name_witness : filepos (sign4 ++ (⟨false, 0, List.replicate 262 97, [], [], List.replicate 8 0⟩ : Part).bytes) [98]
    (List.replicate 25 0) (List.replicate 8 0) (List.replicate 256 0) = .error .outside := by decide +kernel

end Verif.CmcArc
