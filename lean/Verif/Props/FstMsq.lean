import Mathlib.Data.List.Induction
import Verif.Props.FstEdit

/-! # C95: masks of search keys (`c_fstmsq`) -/

namespace Verif.FstEdit

open Verif.FstKeys
open Verif.Props.FstKeys (nameChar name)

theorem or_append_30 (a b c d e : BitVec 6) :
    (a.setWidth 30 <<< 24) ||| (b.setWidth 30 <<< 18) ||| (c.setWidth 30 <<< 12) ||| (d.setWidth 30 <<< 6) |||
      e.setWidth 30 = a ++ b ++ c ++ d ++ e := by
  apply BitVec.eq_of_getLsbD_eq
  intro i hi
  simp only [BitVec.getLsbD_or, BitVec.getLsbD_shiftLeft, BitVec.getLsbD_setWidth, BitVec.getLsbD_append]
  by_cases h1 : i < 6
  · simp [h1, hi, show i < 12 by omega, show i < 18 by omega, show i < 24 by omega]
  · have e0 := BitVec.getLsbD_of_ge e i (by omega)
    by_cases h2 : i < 12
    · simp [h1, h2, hi, e0, show i < 18 by omega, show i < 24 by omega, show i - 6 < 6 by omega, show i - 6 < 30 by omega]
    · have d0 := BitVec.getLsbD_of_ge d (i - 6) (by omega)
      by_cases h3 : i < 18
      · simp [h1, h2, h3, hi, e0, d0, show i < 24 by omega, show i - 6 - 6 = i - 12 by omega, show ¬ i - 6 < 6 by omega,
          show i - 12 < 6 by omega, show i - 12 < 30 by omega]
      · have c0 := BitVec.getLsbD_of_ge c (i - 12) (by omega)
        by_cases h4 : i < 24
        · simp [h1, h2, h3, h4, hi, e0, d0, c0, show i - 6 - 6 = i - 12 by omega, show i - 12 - 6 = i - 18 by omega,
            show ¬ i - 6 < 6 by omega, show ¬ i - 12 < 6 by omega, show i - 18 < 6 by omega, show i - 18 < 30 by omega]
        · have b0 := BitVec.getLsbD_of_ge b (i - 18) (by omega)
          simp [h1, h2, h3, h4, hi, e0, d0, c0, b0, show i - 18 - 6 = i - 24 by omega,
            show i - 6 - 6 = i - 12 by omega, show i - 12 - 6 = i - 18 by omega,
            show ¬ i - 6 < 6 by omega, show ¬ i - 12 < 6 by omega, show ¬ i - 18 < 6 by omega, show i - 24 < 30 by omega]

theorem or_append_12 (d e : BitVec 6) : (d.setWidth 12 <<< 6) ||| e.setWidth 12 = d ++ e := by
  apply BitVec.eq_of_getLsbD_eq
  intro i hi
  simp only [BitVec.getLsbD_or, BitVec.getLsbD_shiftLeft, BitVec.getLsbD_setWidth, BitVec.getLsbD_append]
  by_cases h1 : i < 6
  · simp [h1, hi]
  · simp [h1, hi, BitVec.getLsbD_of_ge e i (by omega), show i - 6 < 12 by omega]

/-- One character under its mask. -/
theorem char_mask (a b : BitVec 6) (c : C) : (a ^^^ b) &&& isignore c = 0#6 ↔ c = 42#8 ∨ a = b := by
  unfold isignore
  split
  · simp [*]
  · rename_i h
    rw [show 0x3f#6 = BitVec.allOnes 6 from by decide, and_allOnes_zero]
    simp only [h, false_or]

theorem enc5_mask (s t mk : List C) (i : Nat) :
    (enc5 s i ^^^ enc5 t i) &&& mask5 mk i = 0#30 ↔
      ∀ j, i ≤ j → j < i + 5 → ch mk j = 42#8 ∨ ascii6 (ch s j) = ascii6 (ch t j) := by
  unfold enc5 mask5
  rw [or_append_30, or_append_30, match2, match2, match2, match2, char_mask, char_mask, char_mask, char_mask, char_mask]
  constructor
  · rintro ⟨⟨⟨⟨h0, h1⟩, h2⟩, h3⟩, h4⟩ j hj1 hj2
    obtain h | h | h | h | h : j = i ∨ j = i + 1 ∨ j = i + 2 ∨ j = i + 3 ∨ j = i + 4 := by omega
    all_goals subst h; assumption
  · intro h
    exact ⟨⟨⟨⟨h i (by omega) (by omega), h (i + 1) (by omega) (by omega)⟩, h (i + 2) (by omega) (by omega)⟩,
      h (i + 3) (by omega) (by omega)⟩, h (i + 4) (by omega) (by omega)⟩

theorem enc2_mask (s t mk : List C) (i : Nat) :
    (enc2 s i ^^^ enc2 t i) &&& mask2 mk i = 0#12 ↔
      ∀ j, i ≤ j → j < i + 2 → ch mk j = 42#8 ∨ ascii6 (ch s j) = ascii6 (ch t j) := by
  unfold enc2 mask2
  rw [or_append_12, or_append_12, match2, char_mask, char_mask]
  constructor
  · rintro ⟨h0, h1⟩ j hj1 hj2
    obtain h | h : j = i ∨ j = i + 1 := by omega
    all_goals subst h; assumption
  · intro h
    exact ⟨h i (by omega) (by omega), h (i + 1) (by omega) (by omega)⟩

theorem cond_mask' {n : Nat} (p : Prop) [Decidable p] (a b x : BitVec n) :
    (a ^^^ b) &&& ((if p then 0 else BitVec.allOnes n) &&& x) = 0#n ↔ p ∨ (a ^^^ b) &&& x = 0#n := by
  split
  · simp [*]
  · simp [*]

theorem ones_ip {n : Nat} (a b : BitVec n) : (a ^^^ b) &&& BitVec.allOnes n = 0#n ↔ a = b := by simp

theorem match4 {n m : Nat} (a a' x x' : BitVec n) (b b' y y' : BitVec m) :
    ((a ++ b) ^^^ (a' ++ b')) &&& ((x ++ y) &&& (x' ++ y')) = 0#(n + m) ↔
      (a ^^^ a') &&& (x &&& x') = 0#n ∧ (b ^^^ b') &&& (y &&& y') = 0#m := by
  rw [BitVec.and_append, match2]

/-- A search under any mask whose date, name and type are not masked. -/
theorem match_masked (k srch : Keys) (q : Query) (hd : srch.dateStamp = BitVec.allOnes 32)
    (hn : srch.nomvar = BitVec.allOnes 24) (ht : srch.typvar = BitVec.allOnes 12) :
    entryMatch srch.words q k.words = true ↔
      (q.datev = BitVec.ofInt 32 (-1) ∨ k.dateStamp >>> 3 = octDate q.datev >>> 3) ∧
      (q.ip1 = BitVec.ofInt 32 (-1) ∨ (k.ip1 ^^^ q.ip1.setWidth 28) &&& srch.ip1 = 0) ∧
      (q.ip2 = BitVec.ofInt 32 (-1) ∨ (k.ip2 ^^^ q.ip2.setWidth 28) &&& srch.ip2 = 0) ∧
      (q.ip3 = BitVec.ofInt 32 (-1) ∨ (k.ip3 ^^^ q.ip3.setWidth 28) &&& srch.ip3 = 0) ∧
      ((target q).nomvar = 0 ∨ k.nomvar = (target q).nomvar) ∧
      ((target q).typvar = 0 ∨ k.typvar = (target q).typvar) ∧
      (((target q).etik15 = 0 ∧ (target q).etik6a = 0) ∨
        ((k.etik15 ^^^ (target q).etik15) &&& srch.etik15 = 0 ∧ (k.etik6a ^^^ (target q).etik6a) &&& srch.etik6a = 0 ∧
          (k.etikbc ^^^ (target q).etikbc) &&& srch.etikbc = 0)) := by
  unfold entryMatch buildPrim Keys.words
  simp only [List.drop_succ_cons, List.drop_zero, wordsMatch, List.zipWith_cons_cons, List.zipWith_nil_right,
    Bool.and_eq_true, decide_eq_true_eq]
  rw [match4, match4, match4, match4, match4, match4, match4, match4, match4, match4, match4,
    match4, match4, match4, match4, match4]
  rw [show (mask q).deet = 0#24 from by simp [mask, Keys.zero, FstKeys.ofWords]]
  rw [show (mask q).nbits = 0#8 from by simp [mask, Keys.zero, FstKeys.ofWords]]
  rw [show (mask q).ni = 0#24 from by simp [mask, Keys.zero, FstKeys.ofWords]]
  rw [show (mask q).gtyp = 0#8 from by simp [mask, Keys.zero, FstKeys.ofWords]]
  rw [show (mask q).nj = 0#24 from by simp [mask, Keys.zero, FstKeys.ofWords]]
  rw [show (mask q).datyp = 0#8 from by simp [mask, Keys.zero, FstKeys.ofWords]]
  rw [show (mask q).nk = 0#20 from by simp [mask, Keys.zero, FstKeys.ofWords]]
  rw [show (mask q).ubc = 0#12 from by simp [mask, Keys.zero, FstKeys.ofWords]]
  rw [show (mask q).npas = 0#26 from by simp [mask, Keys.zero, FstKeys.ofWords]]
  rw [show (mask q).pad7 = 0#6 from by simp [mask, Keys.zero, FstKeys.ofWords]]
  rw [show (mask q).ig4 = 0#24 from by simp [mask, Keys.zero, FstKeys.ofWords]]
  rw [show (mask q).ig2a = 0#8 from by simp [mask, Keys.zero, FstKeys.ofWords]]
  rw [show (mask q).ig1 = 0#24 from by simp [mask, Keys.zero, FstKeys.ofWords]]
  rw [show (mask q).ig2b = 0#8 from by simp [mask, Keys.zero, FstKeys.ofWords]]
  rw [show (mask q).ig3 = 0#24 from by simp [mask, Keys.zero, FstKeys.ofWords]]
  rw [show (mask q).ig2c = 0#8 from by simp [mask, Keys.zero, FstKeys.ofWords]]
  rw [show (mask q).pad1 = 0#2 from by simp [mask, Keys.zero, FstKeys.ofWords]]
  rw [show (mask q).pad2 = 0#2 from by simp [mask, Keys.zero, FstKeys.ofWords]]
  rw [show (mask q).pad3 = 0#8 from by simp [mask, Keys.zero, FstKeys.ofWords]]
  rw [show (mask q).pad4 = 0#8 from by simp [mask, Keys.zero, FstKeys.ofWords]]
  rw [show (mask q).levtyp = 0#4 from by simp [mask, Keys.zero, FstKeys.ofWords]]
  rw [show (mask q).pad5 = 0#4 from by simp [mask, Keys.zero, FstKeys.ofWords]]
  rw [show (mask q).pad6 = 0#4 from by simp [mask, Keys.zero, FstKeys.ofWords]]
  rw [show (target q).dateStamp = octDate q.datev from rfl,
    show (target q).ip1 = q.ip1.setWidth 28 from rfl,
    show (target q).ip2 = q.ip2.setWidth 28 from rfl,
    show (target q).ip3 = q.ip3.setWidth 28 from rfl]
  unfold mask
  simp only [hd, hn, ht, BitVec.zero_and, BitVec.and_zero, BitVec.and_allOnes, cond_mask, cond_mask', date_mask, true_and,
    and_true]
  constructor
  · rintro ⟨h15, h6, ⟨hbc, ht⟩, hn, h1, h2, h3, hd⟩
    refine ⟨hd, h1, h2, h3, hn, ht, ?_⟩
    by_cases hb : (target q).etik15 = 0 ∧ (target q).etik6a = 0
    · exact Or.inl hb
    · exact Or.inr ⟨h15.resolve_left hb, h6.resolve_left hb, hbc.resolve_left hb⟩
  · rintro ⟨hd, h1, h2, h3, hn, ht, he⟩
    refine ⟨?_, ?_, ⟨?_, ht⟩, hn, h1, h2, h3, hd⟩ <;>
    · rcases he with he | ⟨ha, hb, hc⟩
      · exact Or.inl he
      · exact Or.inr (by assumption)

/-! ## The statements -/

/-- `srch_mask` after calls of `c_fstmsq` on a file just opened. -/
def masks (calls : List (Int × W × W × W × List C)) : List W :=
  calls.foldl (fun srch x => (fstmsq x.1 x.2.1 x.2.2.1 x.2.2.2.1 x.2.2.2.2 srch).1) srchInit

theorem ofWords_init : (FstKeys.ofWords srchInit).words = srchInit := by decide +kernel

theorem init_ones : (FstKeys.ofWords srchInit).dateStamp = BitVec.allOnes 32 ∧
    (FstKeys.ofWords srchInit).nomvar = BitVec.allOnes 24 ∧ (FstKeys.ofWords srchInit).typvar = BitVec.allOnes 12 := by
  decide +kernel

/-- Whatever calls were made, only the last setting counts. -/
theorem C95_last (before after : List (Int × W × W × W × List C)) (m1 m2 m3 : W) (s : List C)
    (h : ∀ x ∈ after, x.1 ≠ 0) : masks (before ++ (0, m1, m2, m3, s) :: after) = masks [(0, m1, m2, m3, s)] := by
  have gets : ∀ (l : List (Int × W × W × W × List C)) (w : List W), (∀ x ∈ l, x.1 ≠ 0) →
      l.foldl (fun srch x => (fstmsq x.1 x.2.1 x.2.2.1 x.2.2.2.1 x.2.2.2.2 srch).1) w = w := by
    intro l
    induction l with
    | nil => intro w _; rfl
    | cons x l ih =>
      intro w hl
      rw [List.foldl_cons]
      have : (fstmsq x.1 x.2.1 x.2.2.1 x.2.2.2.1 x.2.2.2.2 w).1 = w := by
        unfold fstmsq
        rw [if_pos (hl x (List.mem_cons_self))]
      rw [this]
      exact ih w fun y hy => hl y (List.mem_cons_of_mem _ hy)
  have same : ∀ l : List (Int × W × W × W × List C), ∃ a b c t,
      masks l = srchInit ∨ masks l = (msqSet a b c t (FstKeys.ofWords srchInit)).words := by
    intro l
    induction l using List.reverseRecOn with
    | nil => exact ⟨0, 0, 0, [], .inl rfl⟩
    | append_singleton l x ih =>
      obtain ⟨g, a, b, c, t⟩ := x
      obtain ⟨a', b', c', t', ih⟩ := ih
      by_cases hg : g = 0
      · subst hg
        refine ⟨a, b, c, t, .inr ?_⟩
        unfold masks at ih ⊢
        rw [List.foldl_append]
        rcases ih with ih | ih <;> rw [ih] <;> simp only [List.foldl_cons, List.foldl_nil, fstmsq, ne_eq, not_true, if_false]
        rw [ofWords_words]
        rfl
      · refine ⟨a', b', c', t', ?_⟩
        have : masks (l ++ [(g, a, b, c, t)]) = masks l := by
          unfold masks
          rw [List.foldl_append]
          exact gets [(g, a, b, c, t)] _ (by simpa using hg)
        rw [this]
        exact ih
  have step : ∀ w : List W, (w = srchInit ∨ ∃ a b c t, w = (msqSet a b c t (FstKeys.ofWords srchInit)).words) →
      (fstmsq 0 m1 m2 m3 s w).1 = (msqSet m1 m2 m3 s (FstKeys.ofWords srchInit)).words := by
    rintro w (rfl | ⟨a, b, c, t, rfl⟩)
    · rfl
    · simp only [fstmsq, ne_eq, not_true, if_false]
      rw [ofWords_words]
      rfl
  obtain ⟨a, b, c, t, hb⟩ := same before
  have e1 : masks (before ++ (0, m1, m2, m3, s) :: after) = (fstmsq 0 m1 m2 m3 s (masks before)).1 := by
    unfold masks
    rw [List.foldl_append, List.foldl_cons, gets _ _ h]
  rw [e1, step _ (hb.imp id fun h => ⟨a, b, c, t, h⟩)]
  rfl

theorem ip_mask (x : Int) (h : 0 ≤ x) (y m : W) :
    (BitVec.ofInt 28 x ^^^ y.setWidth 28) &&& (~~~ m).setWidth 28 = 0#28 ↔
      ∀ i, i < 28 → m.getLsbD i = true ∨ x.toNat.testBit i = y.getLsbD i := by
  obtain ⟨n, rfl⟩ := Int.eq_ofNat_of_zero_le h
  rw [BitVec.ofInt_natCast, Int.toNat_natCast]
  constructor
  · intro h i hi
    have := congrArg (fun z => z.getLsbD i) h
    simp only [BitVec.getLsbD_and, BitVec.getLsbD_xor, BitVec.getLsbD_ofNat, BitVec.getLsbD_setWidth, BitVec.getLsbD_not,
      hi, show i < 32 by omega, decide_true, Bool.true_and] at this
    cases hm : m.getLsbD i
    · right
      rw [hm] at this
      simpa using this
    · exact Or.inl rfl
  · intro h
    apply BitVec.eq_of_getLsbD_eq
    intro i hi
    simp only [BitVec.getLsbD_and, BitVec.getLsbD_xor, BitVec.getLsbD_ofNat, BitVec.getLsbD_setWidth, BitVec.getLsbD_not,
      hi, show i < 32 by omega, decide_true, Bool.true_and]
    rcases h i hi with h | h
    · simp [h]
    · simp [h]

theorem minus_one (y : W) : y = BitVec.ofInt 32 (-1) ↔ y.toInt = -1 := by
  rw [← BitVec.toInt_inj, show (BitVec.ofInt 32 (-1)).toInt = -1 from by decide]

/-- Labels of twelve characters that agree where they are not masked. -/
theorem label_chars (s t mk : List C) (hs : ∀ c ∈ s, nameChar c) (ht : ∀ c ∈ t, nameChar c) (hm : 12 ≤ mk.length) (i : Nat)
    (hi : i < 12) : (ch mk i = 42#8 ∨ ascii6 (ch (padTo 12 s) i) = ascii6 (ch (padTo 12 t) i)) ↔
      (mk[i]? = some 42#8 ∨ (name 12 s)[i]? = (name 12 t)[i]?) := by
  refine or_congr ?_ ?_
  · unfold ch
    rw [List.getD_eq_getElem?_getD, List.getElem?_eq_getElem (by omega : i < mk.length)]
    simp
  · have e1 := Props.FstKeys.getD_name 12 s hs i hi
    have e2 := Props.FstKeys.getD_name 12 t ht i hi
    have l1 := Props.FstKeys.length_name 12 s
    have l2 := Props.FstKeys.length_name 12 t
    rw [List.getD_eq_getElem?_getD] at e1 e2
    rw [List.getElem?_eq_getElem (by omega : i < (name 12 s).length)] at e1 ⊢
    rw [List.getElem?_eq_getElem (by omega : i < (name 12 t).length)] at e2 ⊢
    simp only [Option.getD_some] at e1 e2
    rw [Option.some.injEq, ← e1, ← e2]
    exact ⟨fun h => by rw [h], fun h => dec6_inj h⟩

/-- **C95.**  After masks were set, and whatever was set before, a search stops at a record exactly when every criterion
that is given agrees outside of its mask: the bits of `ip1`, `ip2`, `ip3` not in the masks, and the characters of the
label not masked by an asterisk.  Date, name and type are not concerned. -/
theorem C95_masked_search (before after : List (Int × W × W × W × List C)) (m1 m2 m3 : W) (s : List C)
    (hafter : ∀ x ∈ after, x.1 ≠ 0) (hlen : 12 ≤ s.length) (a : Args) (k : Keys) (hk : fstecrKeys a = some k) (q : Query)
    (hda : a.date.toNat % 10 ≤ 7) (hdq : q.datev = BitVec.ofInt 32 (-1) ∨ q.datev.toNat % 10 ≤ 7)
    (htv : ∀ c ∈ a.typvar ++ q.typvar, nameChar c) (hnv : ∀ c ∈ a.nomvar ++ q.nomvar, nameChar c)
    (het : ∀ c ∈ a.etiket ++ q.etiket, nameChar c) :
    entryMatch (masks (before ++ (0, m1, m2, m3, s) :: after)) q k.words = true ↔
      (q.datev.toInt = -1 ∨ a.date.toNat / 10 = q.datev.toNat / 10) ∧
      (q.ip1.toInt = -1 ∨ ∀ i, i < 28 → m1.getLsbD i = true ∨ a.ip1.toNat.testBit i = q.ip1.getLsbD i) ∧
      (q.ip2.toInt = -1 ∨ ∀ i, i < 28 → m2.getLsbD i = true ∨ a.ip2.toNat.testBit i = q.ip2.getLsbD i) ∧
      (q.ip3.toInt = -1 ∨ ∀ i, i < 28 → m3.getLsbD i = true ∨ a.ip3.toNat.testBit i = q.ip3.getLsbD i) ∧
      (name 4 q.nomvar = List.replicate 4 32#8 ∨ name 4 a.nomvar = name 4 q.nomvar) ∧
      (name 2 q.typvar = List.replicate 2 32#8 ∨ name 2 a.typvar = name 2 q.typvar) ∧
      (name 10 q.etiket = List.replicate 10 32#8 ∨
        ∀ i, i < 12 → s[i]? = some 42#8 ∨ (name 12 a.etiket)[i]? = (name 12 q.etiket)[i]?) := by
  rw [C95_last before after m1 m2 m3 s hafter]
  show entryMatch (msqSet m1 m2 m3 s (FstKeys.ofWords srchInit)).words q k.words = true ↔ _
  obtain ⟨o1, o2, o3⟩ := init_ones
  unfold fstecrKeys at hk
  split at hk
  · rename_i hr
    unfold inRange at hr
    simp only [Bool.and_eq_true, decide_eq_true_eq] at hr
    obtain ⟨⟨⟨_, r11⟩, r12⟩, r13⟩ := hr
    obtain ⟨rfl⟩ := hk
    simp only [List.mem_append] at htv hnv het
    have htva := fun c hc => htv c (Or.inl hc)
    have htvq := fun c hc => htv c (Or.inr hc)
    have hnva := fun c hc => hnv c (Or.inl hc)
    have hnvq := fun c hc => hnv c (Or.inr hc)
    have heta := fun c hc => het c (Or.inl hc)
    have hetq := fun c hc => het c (Or.inr hc)
    rw [match_masked _ (msqSet m1 m2 m3 s (FstKeys.ofWords srchInit)) _ o1 o2 o3]
    simp only [target, msqSet]
    refine and_congr ?_ (and_congr (or_congr (minus_one _) (ip_mask _ r11.1 _ _))
      (and_congr (or_congr (minus_one _) (ip_mask _ r12.1 _ _)) (and_congr (or_congr (minus_one _) (ip_mask _ r13.1 _ _))
        (and_congr (or_congr ?_ ?_) (and_congr (or_congr ?_ ?_) (or_congr ?_ ?_))))))
    · rcases hdq with hdq | hdq
      · simp [hdq]
      · rw [minus_one, Props.FstKeys.date_match _ _ hda hdq]
    · rw [Props.FstKeys.enc4_zero, Props.FstKeys.blank_iff 4 _ hnvq]
    · rw [enc4_inj, Props.FstKeys.name_eq_iff 4 _ _ hnva hnvq, Props.FstKeys.forall_lt_4]
    · rw [Props.FstKeys.enc2_zero, Props.FstKeys.blank_iff 2 _ htvq]
    · rw [enc2_inj, Props.FstKeys.name_eq_iff 2 _ _ htva htvq, Props.FstKeys.forall_lt_2]
    · rw [Props.FstKeys.enc5_zero, Props.FstKeys.name_ten _ hetq]
    · rw [show (0 : BitVec 30) = 0#30 from rfl, show (0 : BitVec 12) = 0#12 from rfl, enc5_mask, enc5_mask, enc2_mask]
      constructor
      · rintro ⟨h1, h2, h3⟩ i hi
        rw [← label_chars _ _ _ heta hetq hlen i hi]
        by_cases c1 : i < 5
        · exact h1 i (by omega) (by omega)
        · by_cases c2 : i < 10
          · exact h2 i (by omega) (by omega)
          · exact h3 i (by omega) (by omega)
      · intro h
        have h' := fun i hi => (label_chars _ _ _ heta hetq hlen i hi).2 (h i hi)
        exact ⟨fun j _ hj => h' j (by omega), fun j _ hj => h' j (by omega), fun j _ hj => h' j (by omega)⟩
  · exact absurd hk (by simp)

theorem shift5 (a b c d e : BitVec 6) : ((a ++ b ++ c ++ d ++ e) >>> 24).setWidth 6 = a ∧
    ((a ++ b ++ c ++ d ++ e) >>> 18).setWidth 6 = b ∧ ((a ++ b ++ c ++ d ++ e) >>> 12).setWidth 6 = c ∧
    ((a ++ b ++ c ++ d ++ e) >>> 6).setWidth 6 = d ∧ ((a ++ b ++ c ++ d ++ e) >>> 0).setWidth 6 = e := by
  rw [← or_append_30]
  exact enc5_bits a b c d e

theorem shift2 (d e : BitVec 6) : ((d ++ e) >>> 6).setWidth 6 = d ∧ ((d ++ e) >>> 0).setWidth 6 = e := by
  rw [← or_append_12]
  exact enc2_bits d e

theorem inv_ignore (c : C) : invIsignore (isignore c) = if c = 42#8 then 42#8 else 32#8 := by
  unfold isignore
  split <;> decide

theorem low28 (m : W) : ~~~ (((~~~ m).setWidth 28).setWidth 32) &&& 0xfffffff#32 = m &&& 0xfffffff#32 := by
  have hf : ∀ i, i < 32 → (0xfffffff#32).getLsbD i = decide (i < 28) := by decide
  apply BitVec.eq_of_getLsbD_eq
  intro i hi
  simp only [BitVec.getLsbD_and, BitVec.getLsbD_not, BitVec.getLsbD_setWidth, hi, hf i hi, decide_true, Bool.true_and]
  by_cases h : i < 28 <;> simp [h]

/-- **C95, reading the masks.**  Asking for the masks gives what was last set: the lower 28 bits of the numbers, an
asterisk for each masked character of the label and a blank for each other. -/
theorem C95_get (before after : List (Int × W × W × W × List C)) (m1 m2 m3 : W) (s : List C)
    (hafter : ∀ x ∈ after, x.1 ≠ 0) (hlen : s.length = 12) (g : Int) (hg : g ≠ 0) (x1 x2 x3 : W) (t : List C) :
    (fstmsq g x1 x2 x3 t (masks (before ++ (0, m1, m2, m3, s) :: after))).2 =
      (m1 &&& 0xfffffff#32, m2 &&& 0xfffffff#32, m3 &&& 0xfffffff#32, s.map fun c => if c = 42#8 then 42#8 else 32#8) := by
  rw [C95_last before after m1 m2 m3 s hafter]
  show (fstmsq g x1 x2 x3 t (msqSet m1 m2 m3 s (FstKeys.ofWords srchInit)).words).2 = _
  unfold fstmsq
  rw [if_pos hg]
  simp only [msqGet, ofWords_words, msqSet, low28, mask5, mask2]
  obtain ⟨a1, a2, a3, a4, a5⟩ := shift5 (isignore (ch s 0)) (isignore (ch s (0 + 1))) (isignore (ch s (0 + 2)))
    (isignore (ch s (0 + 3))) (isignore (ch s (0 + 4)))
  obtain ⟨b1, b2, b3, b4, b5⟩ := shift5 (isignore (ch s 5)) (isignore (ch s (5 + 1))) (isignore (ch s (5 + 2)))
    (isignore (ch s (5 + 3))) (isignore (ch s (5 + 4)))
  obtain ⟨c1, c2⟩ := shift2 (isignore (ch s 10)) (isignore (ch s (10 + 1)))
  rw [a1, a2, a3, a4, a5, b1, b2, b3, b4, b5, c1, c2]
  simp only [inv_ignore]
  match s, hlen with
  | [_, _, _, _, _, _, _, _, _, _, _, _], _ => rfl

/-- **C95, no mask.**  Setting masks of zero and a label without asterisks gives the mask of a file just opened. -/
theorem C95_reset (before : List (Int × W × W × W × List C)) (s : List C) (hs : ∀ i, ch s i ≠ 42#8) :
    masks (before ++ [(0, 0#32, 0#32, 0#32, s)]) = srchInit := by
  rw [C95_last before [] 0#32 0#32 0#32 s (by simp)]
  show (msqSet 0#32 0#32 0#32 s (FstKeys.ofWords srchInit)).words = srchInit
  have e : ∀ i, isignore (ch s i) = 0x3f#6 := fun i => by unfold isignore; rw [if_neg (hs i)]
  simp only [msqSet, mask5, mask2, e]
  decide +kernel

/-- A label mask whose third character is an asterisk. -/
def third : List C := [32#8, 32#8, 42#8, 32#8, 32#8, 32#8, 32#8, 32#8, 32#8, 32#8, 32#8, 32#8]

/-- The third character of the label and the last two bits of `ip2` are masked: `ruX_a1` and 27 find the record with
`run_a1` and 24; without the masks they do not. -/
example : ∃ k, fstecrKeys Props.FstKeys.exArgs = some k ∧
    entryMatch (masks [(0, 0#32, 3#32, 0#32, third)])
      { Props.FstKeys.exQuery with ip2 := 27#32, etiket := [114#8, 117#8, 88#8, 95#8, 97#8, 49#8] } k.words = true ∧
    entryMatch (masks [(0, 0#32, 3#32, 0#32, third)])
      { Props.FstKeys.exQuery with ip2 := 28#32, etiket := [114#8, 117#8, 88#8, 95#8, 97#8, 49#8] } k.words = false ∧
    entryMatch (masks [])
      { Props.FstKeys.exQuery with ip2 := 24#32, etiket := [114#8, 117#8, 88#8, 95#8, 97#8, 49#8] } k.words = false := by
  refine ⟨_, rfl, ?_, ?_, ?_⟩ <;> decide +kernel

/-- The other hypotheses of `C95_masked_search` are met. -/
example : 12 ≤ third.length ∧ (∀ c ∈ Props.FstKeys.exArgs.etiket ++ [114#8, 117#8, 88#8], nameChar c) := by
  simp [third, Props.FstKeys.exArgs, nameChar]

/-- `getmode` is documented as 1 to get and 2 to set; 2 gets, only 0 sets. -/
theorem C95_mode_witness (m1 m2 m3 : W) (s : List C) (srch : List W) : (fstmsq 2 m1 m2 m3 s srch).1 = srch := rfl

end Verif.FstEdit
