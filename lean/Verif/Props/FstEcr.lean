import Verif.FstEcr
import Verif.Props.XdfSearch
import Verif.Props.FstKeys

/-! # Property C27: rewriting a standard record -/

namespace Verif.Xdf
open FstKeys Props.FstKeys

/-! ## Reading the fields of arbitrary directory words -/

theorem split2 (x : W) (n k : Nat) (h : n + k = 32) :
    (x.extractLsb' k n ++ x.extractLsb' 0 k).cast h = x := by
  apply BitVec.eq_of_getLsbD_eq; intro i hi
  simp only [BitVec.getLsbD_cast, BitVec.getLsbD_append, BitVec.getLsbD_extractLsb']
  split
  · rename_i h1; simp [h1]
  · rename_i h1
    simp [show i - k < n by omega, show k + (i - k) = i by omega]

theorem words_ofWords {w : List W} (h : w.length = 18) : (ofWords w).words.drop 2 = w.drop 2 := by
  match w, h with
  | [w0, w1, w2, w3, w4, w5, w6, w7, w8, w9, w10, w11, w12, w13, w14, w15, w16, w17], _ =>
    simp only [ofWords, Keys.words, List.getD_cons_zero, List.getD_cons_succ, List.drop_succ_cons,
      List.drop_zero]
    have h3 : w12.extractLsb' 20 12 ++ w12.extractLsb' 8 12 ++ w12.extractLsb' 0 8 = w12 := by
      apply BitVec.eq_of_getLsbD_eq; intro i hi
      simp only [BitVec.getLsbD_append, BitVec.getLsbD_extractLsb']
      grind
    rw [h3]
    have s := fun x => split2 x 24 8 rfl
    have s1 := fun x => split2 x 20 12 rfl
    have s2 := fun x => split2 x 26 6 rfl
    have s3 := fun x => split2 x 30 2 rfl
    have s4 := fun x => split2 x 28 4 rfl
    simp only [BitVec.cast_eq] at s s1 s2 s3 s4
    rw [s, s, s, s1, s2, s, s, s, s3, s3, s, s4, s4, s4]

theorem slices24 {x y : BitVec 24} (h : ∀ k ∈ [18, 12, 6, 0], (x >>> k).setWidth 6 = (y >>> k).setWidth 6) :
    x = y := by
  apply BitVec.eq_of_getLsbD_eq; intro i hi
  have := congrArg (fun z => z.getLsbD (i % 6)) (h (6 * (i / 6)) (by
    have : i / 6 = 0 ∨ i / 6 = 1 ∨ i / 6 = 2 ∨ i / 6 = 3 := by omega
    rcases this with h | h | h | h <;> rw [h] <;> simp))
  simp only [BitVec.getLsbD_setWidth, BitVec.getLsbD_ushiftRight] at this
  simpa [show i % 6 < 6 by omega, show 6 * (i / 6) + i % 6 = i by omega] using this

theorem slices12 {x y : BitVec 12} (h : ∀ k ∈ [6, 0], (x >>> k).setWidth 6 = (y >>> k).setWidth 6) :
    x = y := by
  apply BitVec.eq_of_getLsbD_eq; intro i hi
  have := congrArg (fun z => z.getLsbD (i % 6)) (h (6 * (i / 6)) (by
    have : i / 6 = 0 ∨ i / 6 = 1 := by omega
    rcases this with h | h <;> rw [h] <;> simp))
  simp only [BitVec.getLsbD_setWidth, BitVec.getLsbD_ushiftRight] at this
  simpa [show i % 6 < 6 by omega, show 6 * (i / 6) + i % 6 = i by omega] using this

theorem slices30 {x y : BitVec 30} (h : ∀ k ∈ [24, 18, 12, 6, 0], (x >>> k).setWidth 6 = (y >>> k).setWidth 6) :
    x = y := by
  apply BitVec.eq_of_getLsbD_eq; intro i hi
  have := congrArg (fun z => z.getLsbD (i % 6)) (h (6 * (i / 6)) (by
    have : i / 6 = 0 ∨ i / 6 = 1 ∨ i / 6 = 2 ∨ i / 6 = 3 ∨ i / 6 = 4 := by omega
    rcases this with h | h | h | h | h <;> rw [h] <;> simp))
  simp only [BitVec.getLsbD_setWidth, BitVec.getLsbD_ushiftRight] at this
  simpa [show i % 6 < 6 by omega, show 6 * (i / 6) + i % 6 = i by omega] using this

theorem dec1_inj {n : Nat} {x y : BitVec n} {k : Nat} (h : dec1 x k = dec1 y k) :
    (x >>> k).setWidth 6 = (y >>> k).setWidth 6 := dec6_inj h

theorem nomvar_iff (x : BitVec 24) (s : List (BitVec 8)) (hs : ∀ c ∈ s, nameChar c) :
    [dec1 x 18, dec1 x 12, dec1 x 6, dec1 x 0] = name 4 s ↔ x = enc4 (padTo 4 s) 0 := by
  have e : [dec1 (enc4 (padTo 4 s) 0) 18, dec1 (enc4 (padTo 4 s) 0) 12, dec1 (enc4 (padTo 4 s) 0) 6,
      dec1 (enc4 (padTo 4 s) 0) 0] = name 4 s := by
    rw [(names_decode [] (padTo 4 s) []).2.1, getD_name 4 _ hs 0 (by omega), getD_name 4 _ hs 1 (by omega),
        getD_name 4 _ hs 2 (by omega), getD_name 4 _ hs 3 (by omega),
        ← list4_of_getD (name 4 s) (length_name _ _)]
  constructor
  · intro h
    rw [← e] at h
    injection h with h1 h; injection h with h2 h; injection h with h3 h; injection h with h4 _
    apply slices24
    simp only [List.mem_cons, List.not_mem_nil, or_false]
    rintro k (rfl | rfl | rfl | rfl) <;> exact dec1_inj (by assumption)
  · rintro rfl; exact e

theorem typvar_iff (x : BitVec 12) (s : List (BitVec 8)) (hs : ∀ c ∈ s, nameChar c) :
    [dec1 x 6, dec1 x 0] = name 2 s ↔ x = enc2 (padTo 2 s) 0 := by
  have e : [dec1 (enc2 (padTo 2 s) 0) 6, dec1 (enc2 (padTo 2 s) 0) 0] = name 2 s := by
    rw [(names_decode (padTo 2 s) [] []).1, getD_name 2 _ hs 0 (by omega), getD_name 2 _ hs 1 (by omega),
        ← list2_of_getD (name 2 s) (length_name _ _)]
  constructor
  · intro h
    rw [← e] at h
    injection h with h1 h; injection h with h2 _
    apply slices12
    simp only [List.mem_cons, List.not_mem_nil, or_false]
    rintro k (rfl | rfl) <;> exact dec1_inj (by assumption)
  · rintro rfl; exact e

theorem etiket_iff (x y : BitVec 30) (z : BitVec 12) (s : List (BitVec 8)) (hs : ∀ c ∈ s, nameChar c) :
    [dec1 x 24, dec1 x 18, dec1 x 12, dec1 x 6, dec1 x 0, dec1 y 24, dec1 y 18, dec1 y 12,
      dec1 y 6, dec1 y 0, dec1 z 6, dec1 z 0] = name 12 s ↔
    x = enc5 (padTo 12 s) 0 ∧ y = enc5 (padTo 12 s) 5 ∧ z = enc2 (padTo 12 s) 10 := by
  have e := (names_decode [] [] (padTo 12 s)).2.2
  rw [getD_name 12 _ hs 0 (by omega), getD_name 12 _ hs 1 (by omega),
        getD_name 12 _ hs 2 (by omega), getD_name 12 _ hs 3 (by omega),
        getD_name 12 _ hs 4 (by omega), getD_name 12 _ hs 5 (by omega),
        getD_name 12 _ hs 6 (by omega), getD_name 12 _ hs 7 (by omega),
        getD_name 12 _ hs 8 (by omega), getD_name 12 _ hs 9 (by omega),
        getD_name 12 _ hs 10 (by omega), getD_name 12 _ hs 11 (by omega),
        ← list12_of_getD (name 12 s) (length_name _ _)] at e
  constructor
  · intro h
    rw [← e] at h
    injection h with h1 h; injection h with h2 h; injection h with h3 h; injection h with h4 h
    injection h with h5 h; injection h with h6 h; injection h with h7 h; injection h with h8 h
    injection h with h9 h; injection h with h10 h; injection h with h11 h; injection h with h12 _
    refine ⟨slices30 ?_, slices30 ?_, slices12 ?_⟩ <;>
      simp only [List.mem_cons, List.not_mem_nil, or_false]
    · rintro k (rfl | rfl | rfl | rfl | rfl) <;> exact dec1_inj (by assumption)
    · rintro k (rfl | rfl | rfl | rfl | rfl) <;> exact dec1_inj (by assumption)
    · rintro k (rfl | rfl) <;> exact dec1_inj (by assumption)
  · rintro ⟨rfl, rfl, rfl⟩; exact e

/-- The descriptors that identify a record for rewriting agree: the numbers, and the names as `fstprm`
returns them.  The date is not among them. -/
def SameId (p : Parms) (a : Args) : Prop :=
  (p.ip1 : Int) = a.ip1 ∧ (p.ip2 : Int) = a.ip2 ∧ (p.ip3 : Int) = a.ip3 ∧ p.nomvar = name 4 a.nomvar ∧
    p.typvar = name 2 a.typvar ∧ p.etiket = name 12 a.etiket

theorem padTo_idem (n : Nat) (s : List (BitVec 8)) : padTo n (padTo n s) = padTo n s := by
  have : (padTo n s).length = n := by unfold padTo; simp; omega
  generalize padTo n s = t at this
  unfold padTo
  rw [this, List.take_of_length_le (by omega)]; simp

theorem ip28 (x : BitVec 28) (y : Int) (h : 0 ≤ y ∧ y ≤ 0xFFFFFFF) :
    (BitVec.ofInt 32 y = BitVec.ofInt 32 (-1) ∨ x = (BitVec.ofInt 32 y).setWidth 28) ↔ (x.toNat : Int) = y := by
  obtain ⟨n, rfl⟩ := Int.eq_ofNat_of_zero_le h.1
  have hn : n ≤ 0xFFFFFFF := by omega
  have e : (BitVec.ofInt 32 (n : Int)).toNat = n := by
    rw [BitVec.ofInt_natCast, BitVec.toNat_ofNat]; omega
  constructor
  · rintro (h1 | h1)
    · have := congrArg BitVec.toNat h1
      rw [e, show (BitVec.ofInt 32 (-1)).toNat = 4294967295 from by decide] at this
      omega
    · rw [h1, BitVec.toNat_setWidth, e]; omega
  · intro h1
    right
    apply BitVec.eq_of_toNat_eq
    rw [BitVec.toNat_setWidth, e]; omega

theorem entryMatch_same {a : Args} {k : Keys} (hk : fstecrKeys a = some k)
    (htv : ∀ c ∈ a.typvar, nameChar c) (hnv : ∀ c ∈ a.nomvar, nameChar c)
    (het : ∀ c ∈ a.etiket, nameChar c) (bnv : name 4 a.nomvar ≠ List.replicate 4 32#8)
    (btv : name 2 a.typvar ≠ List.replicate 2 32#8) (bet : name 10 a.etiket ≠ List.replicate 10 32#8)
    {w : List W} (hw : w.length = 16) :
    entryMatch srchInit (rewriteQuery a) (0#32 :: 0#32 :: w) = true ↔
      SameId (fstprm (ofWords (0#32 :: 0#32 :: w))) a := by
  have hin : inRange a = true := by
    unfold fstecrKeys at hk
    split at hk
    · assumption
    · exact absurd hk (by simp)
  unfold inRange at hin
  simp only [Bool.and_eq_true, decide_eq_true_eq] at hin
  obtain ⟨⟨⟨-, r11⟩, r12⟩, r13⟩ := hin
  have hsw : entryMatch srchInit (rewriteQuery a) (0#32 :: 0#32 :: w) =
      entryMatch srchInit (rewriteQuery a) (ofWords (0#32 :: 0#32 :: w)).words := by
    have h2 := words_ofWords (w := 0#32 :: 0#32 :: w) (by simp [hw])
    have : (ofWords (0#32 :: 0#32 :: w)).words = (ofWords (0#32 :: 0#32 :: w)).words.take 2 ++ w := by
      conv => lhs; rw [← List.take_append_drop 2 (ofWords (0#32 :: 0#32 :: w)).words, h2]
      rfl
    rw [this]
    simp only [Keys.words, List.take_succ_cons, List.take_zero, List.cons_append, List.nil_append,
      entryMatch, buildPrim, srchInit, List.replicate, List.zipWith_cons_cons, wordsMatch]
    simp
  rw [hsw, wordsMatch_iff]
  generalize ofWords (0#32 :: 0#32 :: w) = K
  have t1 : (target (rewriteQuery a)).nomvar = enc4 (padTo 4 a.nomvar) 0 := by
    simp [target, rewriteQuery, padTo_idem]
  have t2 : (target (rewriteQuery a)).typvar = enc2 (padTo 2 a.typvar) 0 := by
    simp [target, rewriteQuery, padTo_idem]
  have t3 : (target (rewriteQuery a)).etik15 = enc5 (padTo 12 a.etiket) 0 := by
    simp [target, rewriteQuery, padTo_idem]
  have t4 : (target (rewriteQuery a)).etik6a = enc5 (padTo 12 a.etiket) 5 := by
    simp [target, rewriteQuery, padTo_idem]
  have t5 : (target (rewriteQuery a)).etikbc = enc2 (padTo 12 a.etiket) 10 := by
    simp [target, rewriteQuery, padTo_idem]
  rw [t1, t2, t3, t4, t5]
  rw [enc4_zero, ← blank_iff 4 _ hnv, enc2_zero, ← blank_iff 2 _ htv, enc5_zero, ← name_ten _ het]
  simp only [bnv, btv, bet, false_or, SameId, fstprm]
  rw [nomvar_iff _ _ hnv, typvar_iff _ _ htv, etiket_iff _ _ _ _ het]
  simp only [rewriteQuery, true_or, true_and]
  rw [ip28 _ _ r11, ip28 _ _ r12, ip28 _ _ r13]

/-- Slot `r` of page `p` holds a readable record with the identifying descriptors of `a`. -/
def Same (m : Mem) (d : Disk) (a : Args) (p r : Nat) : Prop :=
  HasSlot m p r ∧ ∃ ty keys data, look m d p r = some (ty, keys, data) ∧
    SameId (fstprm (ofWords (0#32 :: 0#32 :: keys))) a

theorem History.step {lprm : Nat} {ops : List Op} {m m' : Mem} {d : Disk} {cs : List Code} {op : Op}
    {ws : List Write} {c : Code} (h : History lprm ops m d cs) (hv : ValidOp (2 * lprm) (expected ops) op)
    (hs : Xdf.step m d op = some (m', ws, c)) :
    History lprm (ops ++ [op]) m' (apply d ws) (cs ++ [c]) := by
  obtain ⟨sign, nprm, auxw, keys, res3, junk, m0, ws0, c0, hv0, hc, hvr, hr⟩ := h.ex
  refine ⟨sign, nprm, auxw, keys, res3, junk, m0, ws0, c0, hv0, hc, ?_, ?_⟩
  · rw [validRun_append]
    exact ⟨hvr, hv, trivial⟩
  · rw [runs_append, hr]
    simp [run, hs]

theorem look_keys {lprm : Nat} {ops : List Op} {m : Mem} {d : Disk} {cs : List Code} {p r ty : Nat}
    {keys data : List W} (h : History lprm ops m d cs) (hs : HasSlot m p r)
    (hl : look m d p r = some (ty, keys, data)) : keys.length = 2 * lprm - 2 := by
  obtain ⟨-, -, hw, hnp, own, hi⟩ := h.inv
  obtain ⟨hr, hlt⟩ := hs
  rw [hi.all.1] at hlt
  rcases slot_cases hnp hlt with ⟨t, pl, hsl⟩ | hsl
  · obtain ⟨pg, e, hp, he, hn, ht, hk, -, hget⟩ := hi.get_live hr hsl
    obtain ⟨pg', e', hp', he', -, -, heok⟩ := hi.slot hr hsl
    rw [hp] at hp'; cases hp'
    rw [he] at he'; cases he'
    have e1 := hi.look hnp hr hlt
    rw [(List.getElem?_eq_some_iff.1 hsl).2, hl] at e1
    simp only [Slot.seen, Option.some.injEq, Prod.mk.injEq] at e1
    have := heok.2.2.2
    rw [hk] at this
    rw [e1.2.1]
    omega
  · have e1 := hi.look hnp hr hlt
    rw [(List.getElem?_eq_some_iff.1 hsl).2, hl] at e1
    simp [Slot.seen] at e1

/-- The search before a rewriting finds a record with the same identification if there is one. -/
theorem rewrite_search {ops : List Op} {m : Mem} {d : Disk} {cs : List Code} (h : History 9 ops m d cs)
    {a : Args} {k : Keys} (hk : fstecrKeys a = some k)
    (htv : ∀ c ∈ a.typvar, nameChar c) (hnv : ∀ c ∈ a.nomvar, nameChar c)
    (het : ∀ c ∈ a.etiket, nameChar c) (bnv : name 4 a.nomvar ≠ List.replicate 4 32#8)
    (btv : name 2 a.typvar ≠ List.replicate 2 32#8) (bet : name 10 a.etiket ≠ List.replicate 10 32#8)
    {fuel : Nat} (hf : m.pages.length ≤ fuel) :
    (∃ p r c, locFirst (alone m) 0 (queryCriteria srchInit (rewriteQuery a) fun _ _ => true) fuel =
      some (.hit p r, c) ∧ Same m d a p r) ∨
    (∃ c, locFirst (alone m) 0 (queryCriteria srchInit (rewriteQuery a) fun _ _ => true) fuel =
      some (.notFound, c) ∧ ∀ p r, ¬ Same m d a p r) := by
  obtain ⟨-, -, -, -, own, hi⟩ := h.inv
  have hne : m.pages ≠ [] := List.length_pos_iff.1 hi.np1
  obtain ⟨tk, mk, hcrit, hmat⟩ : ∃ tk mk, queryCriteria srchInit (rewriteQuery a) (fun _ _ => true) =
      ⟨0#32 :: 0#32 :: tk, 0#32 :: 0#32 :: mk, fun _ _ => true⟩ ∧
      ∀ w, entryMatch srchInit (rewriteQuery a) (0#32 :: 0#32 :: w) = FstKeys.wordsMatch w tk mk := by
    refine ⟨(target (rewriteQuery a)).words.drop 2,
      List.zipWith (· &&& ·) ((mask (rewriteQuery a)).words.drop 2) (List.replicate 16 (BitVec.ofInt 32 (-1))), ?_, ?_⟩
    · simp only [queryCriteria, buildPrim, srchInit]
      rw [show List.replicate 18 (BitVec.ofInt 32 (-1)) = BitVec.ofInt 32 (-1) :: BitVec.ofInt 32 (-1) ::
        List.replicate 16 (BitVec.ofInt 32 (-1)) from rfl]
      simp only [List.zipWith_cons_cons, BitVec.zero_and]
    · intro w
      simp only [entryMatch, buildPrim, srchInit]
      rw [show List.replicate 18 (BitVec.ofInt 32 (-1)) = BitVec.ofInt 32 (-1) :: BitVec.ofInt 32 (-1) ::
        List.replicate 16 (BitVec.ofInt 32 (-1)) from rfl]
      simp only [List.zipWith_cons_cons, BitVec.zero_and, FstKeys.wordsMatch]
      simp
  rw [hcrit]
  have hrest := rest_of_chain (t := ⟨0#32 :: 0#32 :: tk, 0#32 :: 0#32 :: mk, fun _ _ => true⟩) (k := 0)
    (fuel := fuel) (alone_chain m hne) (by simpa using hf)
  have hsame : ∀ p r, Selected m d tk mk (fun _ _ => true) p r ↔ Same m d a p r := by
    intro p r
    unfold Selected Same
    constructor
    · rintro ⟨h1, ⟨ty, keys, data, h2, h3⟩, -⟩
      refine ⟨h1, ty, keys, data, h2, ?_⟩
      rw [← entryMatch_same hk htv hnv het bnv btv bet (by rw [look_keys h h1 h2]), hmat]
      exact h3
    · rintro ⟨h1, ty, keys, data, h2, h3⟩
      refine ⟨h1, ⟨ty, keys, data, h2, ?_⟩, rfl⟩
      rw [← entryMatch_same hk htv hnv het bnv btv bet (by rw [look_keys h h1 h2]), hmat] at h3
      exact h3
  have hmem := alone_mem h 0#32 0#32 tk mk (fun _ _ => true)
  generalize hits (alone m) ⟨0#32 :: 0#32 :: tk, 0#32 :: 0#32 :: mk, fun _ _ => true⟩ 0
    ((List.range m.pages.length).map fun p => (0, p)) = H at hrest hmem
  cases H with
  | nil =>
    right
    obtain ⟨c', hn⟩ := next_nil hrest
    exact ⟨_, hn, fun p r hs => by simpa using (hmem p r).2 ((hsame p r).2 hs)⟩
  | cons x R =>
    left
    obtain ⟨c', hn, -⟩ := next_cons hrest
    exact ⟨x.1, x.2, c', hn, (hsame _ _).1 ((hmem _ _).1 (by simp))⟩

theorem data_valid {a : Args} {k : Keys} (hk : fstecrKeys a = some k) {field : List W}
    (hl : field.length < 2 ^ 25 - 18) : ValidData 18 (k.words ++ field) ∧ idtypOf (k.words ++ field) = 1 := by
  have hid : idtypOf (k.words ++ field) = 1 := by
    unfold fstecrKeys at hk
    split at hk
    · cases hk
      simp only [idtypOf, Keys.words, List.cons_append, List.getD_cons_zero]
      decide
    · exact absurd hk (by simp)
  have hlen : (k.words ++ field).length = 18 + field.length := by rw [List.length_append]; rfl
  exact ⟨⟨by rw [hlen]; omega, by rw [hlen]; omega, by omega, by omega⟩, hid⟩

/-- The slot after the last one. -/
def atEnd (m : Mem) (m' : Mem) (d' : Disk) : Option (Nat × List W × List W) :=
  look m' d' ((allEntries m.pages).length / 256) ((allEntries m.pages).length % 256)

/-- **C27** (partial).  After any history of a standard file, a successful `fstecr` with rewriting
either replaces exactly one record, which has the same `ip1`, `ip2`, `ip3`, `nomvar`, `typvar` and
`etiket` as the new one (in place, or deleted while the new one is put at the end), or, when there is
no such record, adds the new one at the end.  Every other record is unchanged.

Missing: the *date*, which the code does not compare (`C27_date_witness`), and new records with a
blank `nomvar`, `typvar` or (first ten characters of) `etiket`, where the blank name acts as a
wildcard (`C27_blank_witness`). -/
theorem C27_rewrite_partial {ops : List Op} {m m' : Mem} {d : Disk} {cs : List Code} (h : History 9 ops m d cs)
    {a : Args} {k : Keys} (hk : fstecrKeys a = some k)
    (htv : ∀ c ∈ a.typvar, nameChar c) (hnv : ∀ c ∈ a.nomvar, nameChar c)
    (het : ∀ c ∈ a.etiket, nameChar c) (bnv : name 4 a.nomvar ≠ List.replicate 4 32#8)
    (btv : name 2 a.typvar ≠ List.replicate 2 32#8) (bet : name 10 a.etiket ≠ List.replicate 10 32#8)
    {field : List W} (hl : field.length < 2 ^ 25 - 18) {fuel : Nat} (hf : m.pages.length ≤ fuel) {res3 : W}
    {junk : List Entry} (hj : ValidJunk 18 junk) {ws : List Write}
    (hw : fstecr m d a field true fuel res3 junk = some (m', ws, .ok)) :
    (∃ p r, Same m d a p r ∧
      (look m' (apply d ws) p r = some (1, k.words.drop 2, k.words.drop 2 ++ field) ∨
        (look m' (apply d ws) p r = none ∧
          atEnd m m' (apply d ws) = some (1, k.words.drop 2, k.words.drop 2 ++ field))) ∧
      ∀ p' r', HasSlot m p' r' → 256 * p' + r' ≠ 256 * p + r →
        look m' (apply d ws) p' r' = look m d p' r') ∨
    ((∀ p r, ¬ Same m d a p r) ∧
      atEnd m m' (apply d ws) = some (1, k.words.drop 2, k.words.drop 2 ++ field) ∧
      ∀ p' r', HasSlot m p' r' → look m' (apply d ws) p' r' = look m d p' r') := by
  obtain ⟨hvd, hid⟩ := data_valid hk hl
  have hall := (C21_history h).2.1
  have hdrop : (k.words ++ field).drop 2 = k.words.drop 2 ++ field := by simp [Keys.words]
  have htake : (k.words.drop 2 ++ field).take (2 * 9 - 2) = k.words.drop 2 := by simp [Keys.words]
  have hcode : cs.length = ops.length := by
    rw [(C21_history h).1, run_codes]
  have hold : ∀ p' r', HasSlot m p' r' → ∃ sl, (expected ops).slots[256 * p' + r']? = some sl ∧
      look m d p' r' = sl.seen (2 * 9) := by
    intro p' r' hs
    have hlt := hs.2
    rw [hall] at hlt
    exact ⟨_, List.getElem?_eq_getElem hlt, (C21_history h).2.2 p' r' _ hs.1 (List.getElem?_eq_getElem hlt)⟩
  unfold fstecr fstecrOp at hw
  rw [hk] at hw
  simp only [if_true] at hw
  rcases rewrite_search h hk htv hnv het bnv btv bet hf with ⟨p, r, c, hloc, hsame⟩ | ⟨c, hloc, hno⟩
  · left
    rw [show ([⟨m.pages, none, none⟩] : Table) = alone m from rfl, hloc] at hw
    simp only [Option.bind_some] at hw
    have hlt := hsame.1.2
    rw [hall] at hlt
    have h' := h.step (op := .rewrite p r (k.words ++ field) res3 junk) ⟨hvd, hj, hsame.1.1, hlt⟩ hw
    obtain ⟨⟨t, pl, hs1, hs2, hs3⟩, hs4⟩ := C21_rewrite hsame.1.1 h' (by
      rw [← hcode]; simp)
    rw [hdrop, htake, hid] at hs2 hs3
    refine ⟨p, r, hsame, ?_, fun p' r' hs hne => ?_⟩
    · by_cases hlen : pl.length + 2 = (k.words ++ field).length
      · exact Or.inl (hs2 hlen)
      · right
        rw [atEnd, hall]
        exact hs3 hlen
    · obtain ⟨sl, e1, e2⟩ := hold p' r' hs
      rw [e2]
      exact hs4 p' r' sl hs.1 hne e1
  · right
    rw [show ([⟨m.pages, none, none⟩] : Table) = alone m from rfl, hloc] at hw
    simp only [Option.bind_some] at hw
    have h' := h.step (op := .append (k.words ++ field) res3 junk) ⟨hvd, hj⟩ hw
    have hrb := C21_read_back (before := ops) (later := []) h' (by rw [← hcode]; simp) (by simp)
    rw [hdrop, htake, hid] at hrb
    refine ⟨hno, by rw [atEnd, hall]; exact hrb, fun p' r' hs => ?_⟩
    obtain ⟨sl, e1, e2⟩ := hold p' r' hs
    rw [e2]
    refine (C21_history h').2.2 p' r' sl hs.1 ?_
    have e : expected (ops ++ [.append (k.words ++ field) res3 junk]) =
        (File.step (expected ops) (.append (k.words ++ field) res3 junk)).1 := (run_append _ ops _).1
    rw [e, (step_keeps _ _ (List.getElem?_eq_some_iff.1 e1).1 (by simp [Op.touches])).1]
    exact e1

/-! ## Witnesses and a concrete case -/

namespace EcrExample

def junk : List Entry := List.replicate 256 ⟨0, 0, 0, List.replicate 16 0#32⟩

theorem junk_ok : ValidJunk 18 junk :=
  ⟨List.length_replicate, fun e he => by
    rw [List.eq_of_mem_replicate he]; exact ⟨by decide, by decide, by decide, by decide⟩⟩

/-- A record `GZ` of type `P`, label `run_a1`, level `lev`, at a date. -/
def args (date : W) (lev : Int) : Args :=
  { date := date, deet := 0, npas := 0, ni := 2, nj := 1, nk := 1, nbits := 32, datyp := 5,
    ip1 := lev, ip2 := 0, ip3 := 0, ig1 := 0, ig2 := 0, ig3 := 0, ig4 := 0, typvar := [80#8],
    nomvar := [71#8, 90#8], etiket := [114#8, 117#8, 110#8, 95#8, 97#8, 49#8], grtyp := [88#8] }

def words (a : Args) : List W := (fstecrKeys a).elim [] Keys.words

/-- Two records of one date, at levels 500 and 850. -/
def base : List Op := [.append (words (args 10110000#32 500) ++ [1#32, 2#32]) 0#32 junk,
  .append (words (args 10110000#32 850) ++ [3#32, 4#32]) 0#32 junk]

def start (ops : List Op) : Option (Mem × Disk × List Code) :=
  (create 0x53544452#32 16#16 9 0#32 (List.replicate 32 0#32) 0#32 junk).bind fun x =>
    run x.1 (apply [] x.2.1) ops

theorem base_ok : ValidRun 18 ⟨CREATE, []⟩ base := by
  refine ⟨⟨?_, junk_ok⟩, ⟨?_, junk_ok⟩, trivial⟩
  · exact (data_valid (a := args 10110000#32 500) rfl (by decide)).1
  · exact (data_valid (a := args 10110000#32 850) rfl (by decide)).1

theorem start_history {ops : List Op} (hv : ValidRun 18 ⟨CREATE, []⟩ ops) {m : Mem} {d : Disk}
    {cs : List Code} (h : start ops = some (m, d, cs)) : History 9 ops m d cs := by
  unfold start at h
  cases hc : create 0x53544452#32 16#16 9 0#32 (List.replicate 32 0#32) 0#32 junk with
  | none => rw [hc] at h; simp at h
  | some x =>
    rw [hc] at h
    exact ⟨_, _, _, List.replicate 32 0#32, _, junk, x.1, x.2.1, x.2.2,
      ⟨by decide, by decide, by decide, by decide, junk_ok⟩, hc, hv, h⟩

/-- What is at slot `(p, r)` before and after rewriting with `a` and `field`: data words only. -/
def effect (a : Args) (field : List W) (p r : Nat) : Option (Code × Option (List W) × Option (List W)) :=
  (start base).bind fun x =>
    (fstecr x.1 x.2.1 a field true 5 0#32 junk).map fun y =>
      (y.2.2, (look x.1 x.2.1 p r).map fun z => z.2.2.drop 16,
        (look y.1 (apply x.2.1 y.2.1) p r).map fun z => z.2.2.drop 16)

theorem effect_ex {a : Args} {field : List W} {p r : Nat} {u v : Option (List W)} {c : Code}
    (h : effect a field p r = some (c, u, v)) :
    ∃ m d cs m' ws, History 9 base m d cs ∧ fstecr m d a field true 5 0#32 junk = some (m', ws, c) ∧
      (look m d p r).map (fun z => z.2.2.drop 16) = u ∧
      (look m' (apply d ws) p r).map (fun z => z.2.2.drop 16) = v := by
  unfold effect at h
  cases hs : start base with
  | none => rw [hs] at h; simp at h
  | some x =>
    obtain ⟨m, d, cs⟩ := x
    rw [hs] at h
    simp only [Option.bind_some, Option.map_eq_some_iff] at h
    obtain ⟨⟨m', ws, c'⟩, hw, h⟩ := h
    simp only [Prod.mk.injEq] at h
    obtain ⟨rfl, rfl, rfl⟩ := h
    exact ⟨m, d, cs, m', ws, start_history base_ok hs, hw, rfl, rfl⟩

/-- The hypotheses of `C27_rewrite_partial`: level 850 is rewritten in place. -/
example : ∃ m d cs m' ws, History 9 base m d cs ∧
    fstecr m d (args 10110000#32 850) [7#32, 8#32] true 5 0#32 junk = some (m', ws, .ok) ∧
    (look m d 0 1).map (fun z => z.2.2.drop 16) = some [3#32, 4#32] ∧
    (look m' (apply d ws) 0 1).map (fun z => z.2.2.drop 16) = some [7#32, 8#32] :=
  effect_ex (by decide +kernel)

example : (∀ c ∈ (args 10110000#32 850).etiket, nameChar c) ∧
    name 10 (args 10110000#32 850).etiket ≠ List.replicate 10 32#8 := by
  simp [args, nameChar, name, upper]

/-- **C27, negative.** A record of another date is replaced: writing level 500 of the next day erases
that of the day before. -/
theorem C27_date_witness : ∃ (a b : Args) (m : Mem) (d : Disk) (cs : List Code) (m' : Mem) (ws : List Write),
    History 9 [.append (words a ++ [1#32, 2#32]) 0#32 junk, .append (words (args 10110000#32 850) ++ [3#32, 4#32]) 0#32 junk] m d cs ∧
    fstecr m d b [5#32, 6#32] true 5 0#32 junk = some (m', ws, .ok) ∧
    a.date.toNat / 10 ≠ b.date.toNat / 10 ∧
    (look m d 0 0).map (fun z => z.2.2.drop 16) = some [1#32, 2#32] ∧
    (look m' (apply d ws) 0 0).map (fun z => z.2.2.drop 16) = some [5#32, 6#32] := by
  obtain ⟨m, d, cs, m', ws, h1, h2, h3, h4⟩ := effect_ex (a := args 10210000#32 500) (field := [5#32, 6#32])
    (p := 0) (r := 0) (c := .ok) (u := some [1#32, 2#32]) (v := some [5#32, 6#32]) (by decide +kernel)
  exact ⟨args 10110000#32 500, args 10210000#32 500, m, d, cs, m', ws, h1, h2, by decide, h3, h4⟩

/-- **C27, negative.** A record with another name is replaced when the new one has a blank name. -/
theorem C27_blank_witness : ∃ (m : Mem) (d : Disk) (cs : List Code) (m' : Mem) (ws : List Write),
    History 9 base m d cs ∧
    fstecr m d { args 10110000#32 500 with nomvar := [] } [5#32, 6#32] true 5 0#32 junk = some (m', ws, .ok) ∧
    (look m d 0 0).map (fun z => z.2.2.drop 16) = some [1#32, 2#32] ∧
    (look m' (apply d ws) 0 0).map (fun z => z.2.2.drop 16) = some [5#32, 6#32] :=
  effect_ex (by decide +kernel)

end EcrExample

end Verif.Xdf
