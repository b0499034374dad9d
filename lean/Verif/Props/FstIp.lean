import Verif.FstIp
import Verif.Props.XdfSearch
import Verif.FstKeysLemmas
import Mathlib.Tactic.IntervalCases

/-! # C96: searching levels in either coding -/

namespace Verif.FstIp

open Verif.FstKeys (W Keys Query wordsMatch)
open Verif.Xdf (Table Criteria Cursor Found Entry Rest hits pageHits accepts Linked ownPages)

/-! ## Words that agree on a mask -/

theorem xor_and (x y m : W) : (x ^^^ y) &&& m = (x &&& m) ^^^ (y &&& m) := by
  apply BitVec.eq_of_getLsbD_eq
  intro i _
  simp [Bool.and_xor_distrib_right]

theorem wm_congr (e t t' m : List W) (hl : t.length = t'.length)
    (h : List.zipWith (· &&& ·) t m = List.zipWith (· &&& ·) t' m) : wordsMatch e t m = wordsMatch e t' m := by
  induction e generalizing t t' m with
  | nil => simp [wordsMatch]
  | cons a e ih =>
    rcases t with _ | ⟨x, t⟩ <;> rcases t' with _ | ⟨y, t'⟩
    · rfl
    · simp at hl
    · simp at hl
    · rcases m with _ | ⟨z, m⟩
      · rfl
      · simp only [List.zipWith_cons_cons, List.cons.injEq] at h
        simp only [wordsMatch, xor_and, h.1]
        rw [ih t t' m (by simpa using hl) h.2]

theorem wm_agree (e t m : List W) (hl : e.length = t.length) (h : wordsMatch e t m = true) :
    List.zipWith (· &&& ·) e m = List.zipWith (· &&& ·) t m := by
  induction e generalizing t m with
  | nil => rcases t with _ | _ <;> simp_all
  | cons a e ih =>
    rcases t with _ | ⟨x, t⟩
    · simp at hl
    · rcases m with _ | ⟨z, m⟩
      · rfl
      · simp only [wordsMatch, Bool.and_eq_true, decide_eq_true_eq] at h
        simp only [List.zipWith_cons_cons, List.cons.injEq]
        refine ⟨?_, ih t m (by simpa using hl) h.2⟩
        have := h.1
        rw [xor_and] at this
        exact BitVec.xor_eq_zero_iff.1 this

theorem zip_head (a b x y : W) (t m srch : List W) :
    List.zipWith (· &&& ·) (a :: b :: t) (List.zipWith (· &&& ·) (0#32 :: 0#32 :: m) srch) =
    List.zipWith (· &&& ·) (x :: y :: t) (List.zipWith (· &&& ·) (0#32 :: 0#32 :: m) srch) := by
  rcases srch with _ | ⟨s1, _ | ⟨s2, srch⟩⟩ <;> simp

theorem zip_mask (t t' m srch : List W) (h : List.zipWith (· &&& ·) t m = List.zipWith (· &&& ·) t' m) :
    List.zipWith (· &&& ·) t (List.zipWith (· &&& ·) m srch) = List.zipWith (· &&& ·) t' (List.zipWith (· &&& ·) m srch) := by
  induction t generalizing t' m srch with
  | nil =>
    rcases m with _ | ⟨b, m⟩
    · simp
    · rcases t' with _ | ⟨x, t'⟩
      · rfl
      · simp at h
  | cons a t ih =>
    rcases m with _ | ⟨b, m⟩
    · simp
    · rcases t' with _ | ⟨x, t'⟩
      · simp at h
      · rcases srch with _ | ⟨c, srch⟩
        · simp
        · simp only [List.zipWith_cons_cons, List.cons.injEq] at h ⊢
          exact ⟨by rw [← BitVec.and_assoc, h.1, BitVec.and_assoc], ih _ _ _ h.2⟩

/-- Searching with the keys of a record that was found is searching with the original target. -/
theorem criteria_congr {w mask srch : List W} {filter : Nat → Nat → Bool} {e : Entry} {k r : Nat}
    (hl : e.keys.length = (w.drop 2).length) (h : accepts (criteria w mask srch filter) k r e = true) :
    accepts (criteria e.words mask srch filter) = accepts (criteria w mask srch filter) := by
  funext p j x
  simp only [accepts, criteria, Bool.and_eq_true, decide_eq_true_eq] at h ⊢
  have h1 := wm_agree _ _ _ (by simp [Entry.words] at hl ⊢; omega) h.1.2
  rw [wm_congr x.words (0#32 :: 0#32 :: e.words.drop 2) (0#32 :: 0#32 :: w.drop 2) _ (by simp [Entry.words] at hl ⊢; omega)]
  rw [← h1]
  exact zip_head _ _ _ _ _ _ _

theorem hits_congr {t t' : Criteria} (h : accepts t = accepts t') (T : Table) (k : Nat) (ls : List Xdf.Loc) :
    hits T t k ls = hits T t' k ls := by
  induction ls generalizing k with
  | nil => rfl
  | cons l ls ih =>
    rw [hits, hits, ih]
    congr 1
    cases Xdf.pageAt T l with
    | none => rfl
    | some pg => simp only [Option.elim_some, pageHits, h]

theorem rest_congr {T : Table} {t t' : Criteria} (h : accepts t = accepts t') {fuel : Nat} {c : Cursor}
    {R : List (Nat × Nat)} : Rest T t fuel c R → Rest T t' fuel c R := by
  rintro ⟨l, ls, pg, h1, h2, h3, h4, h5⟩
  refine ⟨l, ls, pg, h1, h2, h3, h4, ?_⟩
  rw [h5, hits_congr h]
  simp only [pageHits, h]

/-! ## The loop -/

/-- The record with this handle has ip values that pass. -/
def ok (T : Table) (f : Nat) (s : Ips) (q : Query) (y : Nat × Nat) : Bool :=
  (entryAt T f y.1 y.2).any fun e => ipsOk s q (FstKeys.ofWords e.words) == some true

/-- The answer for the record found, if any. -/
def answer : Option (Nat × Nat) → Found
  | some y => .hit y.1 y.2
  | none => .notFound

theorem loop_spec {T : Table} {f : Nat} {s : Ips} {q : Query} {mask srch tw : List W} {filter : Nat → Nat → Bool} {fuel : Nat}
    (htw : tw.length = 18) (R : List (Nat × Nat)) (n : Nat) (last : List W) (x : Nat × Nat) (c : Cursor)
    (hR : Rest T (criteria tw mask srch filter) fuel c R) (hn : R.length + 1 < n)
    (hall : ∀ y ∈ x :: R, ∃ e, entryAt T f y.1 y.2 = some e ∧ e.keys.length = 16 ∧
      accepts (criteria tw mask srch filter) y.1 y.2 e = true ∧ ipsOk s q (FstKeys.ofWords e.words) ≠ none) :
    ∃ c' w', ipLoop T f s q mask srch filter fuel n last (.hit x.1 x.2, c) =
      some (answer ((x :: R).find? (ok T f s q)), c', w') ∧
      ∀ y, (x :: R).find? (ok T f s q) = some y → ∃ e, entryAt T f y.1 y.2 = some e ∧ w' = e.words := by
  induction R generalizing n last x c with
  | nil =>
    obtain ⟨n, rfl⟩ : ∃ k, n = k + 1 + 1 := ⟨n - 2, by simp at hn; omega⟩
    obtain ⟨e, h1, h2, h3, h4⟩ := hall x (by simp)
    rw [ipLoop, h1]
    dsimp only
    rcases hk : ipsOk s q (FstKeys.ofWords e.words) with _ | b
    · exact absurd hk h4
    cases b
    · dsimp only
      have hok : ok T f s q x = false := by simp [ok, h1, hk]
      have hc := criteria_congr (w := tw) (by simp [htw, h2]) h3
      obtain ⟨k', hk'⟩ := Xdf.next_nil (rest_congr hc.symm hR)
      rw [Xdf.locNext, hk']
      dsimp only
      rw [ipLoop]
      · simp [hok, answer]
      · simp
    · dsimp only
      have hok : ok T f s q x = true := by simp [ok, h1, hk]
      refine ⟨c, e.words, by simp [hok, answer], ?_⟩
      intro y hy
      simp only [List.find?_cons, hok, Option.some.injEq] at hy
      subst hy
      exact ⟨e, h1, rfl⟩
  | cons z R ih =>
    obtain ⟨n, rfl⟩ : ∃ k, n = k + 1 := ⟨n - 1, by simp at hn; omega⟩
    obtain ⟨e, h1, h2, h3, h4⟩ := hall x (by simp)
    rw [ipLoop, h1]
    dsimp only
    rcases hk : ipsOk s q (FstKeys.ofWords e.words) with _ | b
    · exact absurd hk h4
    cases b
    · dsimp only
      have hok : ok T f s q x = false := by simp [ok, h1, hk]
      have hc := criteria_congr (w := tw) (by simp [htw, h2]) h3
      obtain ⟨c', hk', hR'⟩ := Xdf.next_cons (rest_congr hc.symm hR)
      rw [Xdf.locNext, hk']
      dsimp only
      have := ih n e.words z c' (rest_congr hc hR') (by simp at hn; omega)
        (fun y hy => hall y (List.mem_cons_of_mem _ hy))
      rw [List.find?_cons, hok]
      exact this
    · dsimp only
      have hok : ok T f s q x = true := by simp [ok, h1, hk]
      refine ⟨c, e.words, by simp [hok, answer], ?_⟩
      intro y hy
      simp only [List.find?_cons, hok, Option.some.injEq] at hy
      subst hy
      exact ⟨e, h1, rfl⟩

/-! ## The criteria -/

/-- The same search with the flagged ip values left free. -/
def free (s : Ips) (q : Query) : Query :=
  { q with
    ip1 := if s.t1.flag then BitVec.ofInt 32 (-1) else q.ip1
    ip2 := if s.t2.flag then BitVec.ofInt 32 (-1) else q.ip2
    ip3 := if s.t3.flag then BitVec.ofInt 32 (-1) else q.ip3 }

/-- The criteria of a search without flags. -/
def crit (srch : List W) (filter : Nat → Nat → Bool) (q : Query) : Criteria :=
  criteria (FstKeys.target q).words (FstKeys.mask q).words srch filter

theorem crit_free (s : Ips) (q : Query) (srch : List W) (filter : Nat → Nat → Bool) :
    accepts (criteria (FstKeys.target q).words (maskIp s q).words srch filter) = accepts (crit srch filter (free s q)) := by
  have hm : maskIp s q = FstKeys.mask (free s q) := by
    unfold maskIp FstKeys.mask free
    cases s.t1.flag <;> cases s.t2.flag <;> cases s.t3.flag <;> rfl
  funext p j x
  unfold crit
  rw [hm]
  simp only [accepts, criteria]
  congr 2
  apply wm_congr
  · rfl
  · apply zip_mask
    have h1 : Keys.zero.levtyp = 0#4 := by decide
    have h2 : Keys.zero.pad5 = 0#4 := by decide
    have h3 : Keys.zero.pad6 = 0#4 := by decide
    rw [← hm]
    unfold maskIp free
    cases s.t1.flag <;> cases s.t2.flag <;> cases s.t3.flag <;>
      simp [FstKeys.target, FstKeys.mask, FstKeys.Keys.words, h1, h2, h3]

/-! ## The first record that passes -/

/-- C96.  The files `a :: fs` are linked (`fs = []` for a file alone).  A search with ip tables set returns the first record
that the search with the flagged ip values left free would find and whose ip values pass, or "not found", and the
tables are clear afterwards. -/
theorem C96_first {T : Table} {a : Nat} {fs : List Nat} (hl : Linked T (a :: fs)) (s : Ips) (q : Query) (srch : List W)
    (filter : Nat → Nat → Bool) {fuel n : Nat}
    (hpg : ∀ lf ∈ T, ∀ pg ∈ lf.pages, pg.nent ≤ 256 ∧ ∀ e ∈ pg.entries, e.keys.length = 16 ∧
      ipsOk s q (FstKeys.ofWords e.words) ≠ none)
    (hf : ((a :: fs).flatMap (ownPages T)).length ≤ fuel)
    (hn : 256 * ((a :: fs).flatMap (ownPages T)).length + 1 < n) :
    ∃ H r, Xdf.sweep T a (crit srch filter (free s q)) fuel n = some (H, .notFound) ∧
      fstinfx T a s srch filter fuel n q = some r ∧ r.found = answer (H.find? (ok T a s q)) ∧
      (s = cleared ∨ anyFlag s = true → r.ips = cleared) := by
  have hch := Xdf.chain_linked hl
  have hlen : ∀ t, (hits T t 0 ((a :: fs).flatMap (ownPages T))).length ≤ 256 * ((a :: fs).flatMap (ownPages T)).length :=
    fun t => Xdf.hits_length T t 0 _ (fun l _ pg hpgl => by
      unfold Xdf.pageAt at hpgl
      obtain ⟨lf, h1, h2⟩ := Option.bind_eq_some_iff.1 hpgl
      exact (hpg lf (List.mem_of_getElem? h1) pg (List.mem_of_getElem? h2)).1)
  have hacc := crit_free s q srch filter
  generalize htw : (FstKeys.target q).words = tw at hacc
  generalize hmk : (maskIp s q).words = mk at hacc
  have hR0 : Rest T (criteria tw mk srch filter) fuel ⟨some (a, 0), 0, 0⟩
      (hits T (criteria tw mk srch filter) 0 ((a :: fs).flatMap (ownPages T))) := Xdf.rest_of_chain hch hf
  have hall : ∀ y ∈ hits T (criteria tw mk srch filter) 0 ((a :: fs).flatMap (ownPages T)), ∃ e,
      entryAt T a y.1 y.2 = some e ∧ e.keys.length = 16 ∧ accepts (criteria tw mk srch filter) y.1 y.2 e = true ∧
        ipsOk s q (FstKeys.ofWords e.words) ≠ none := by
    intro y hy
    obtain ⟨i, l, pg, e, h1, h2, h3, h4, h5, h6⟩ := Xdf.mem_hits.1 hy
    rw [Nat.zero_add] at h2
    have hpo := Xdf.pageOf_chain hl y.1 (l := l) (by rw [h2]; exact h1)
    have hm : e.keys.length = 16 ∧ ipsOk s q (FstKeys.ofWords e.words) ≠ none := by
      unfold Xdf.pageAt at h3
      obtain ⟨lf, g1, g2⟩ := Option.bind_eq_some_iff.1 h3
      exact (hpg lf (List.mem_of_getElem? g1) pg (List.mem_of_getElem? g2)).2 e (List.mem_of_getElem? h5)
    exact ⟨e, by simp [entryAt, hpo, h3, h5], hm.1, h6, hm.2⟩
  have hlen0 := hlen (criteria tw mk srch filter)
  have htl : tw.length = 18 := by rw [← htw]; rfl
  refine ⟨hits T (criteria tw mk srch filter) 0 ((a :: fs).flatMap (ownPages T)), ?_⟩
  have hsw : Xdf.sweep T a (crit srch filter (free s q)) fuel n =
      some (hits T (criteria tw mk srch filter) 0 ((a :: fs).flatMap (ownPages T)), .notFound) :=
    Xdf.sweep_spec (rest_congr hacc hR0) (by omega)
  rw [hsw]
  unfold fstinfx
  rw [htw, hmk]
  dsimp only
  generalize hits T (criteria tw mk srch filter) 0 ((a :: fs).flatMap (ownPages T)) = H at hR0 hall hlen0
  rcases H with _ | ⟨x, R⟩
  · obtain ⟨k', hk'⟩ := Xdf.next_nil hR0
    rw [Xdf.locFirst, hk']
    refine ⟨_, rfl, rfl, rfl, ?_⟩
    rintro (h | h)
    · subst h; rfl
    · simp [h]
  · obtain ⟨c', hk', hR'⟩ := Xdf.next_cons hR0
    rw [Xdf.locFirst, hk']
    dsimp only
    by_cases hfl : anyFlag s = true
    · rw [if_pos hfl]
      obtain ⟨c2, w2, h2, -⟩ := loop_spec htl R n tw x c' hR' (by rw [List.length_cons] at hlen0; omega) hall
      rw [h2]
      exact ⟨_, rfl, rfl, rfl, fun _ => rfl⟩
    · rw [if_neg hfl]
      refine ⟨_, rfl, rfl, ?_, ?_⟩
      · have hx : ok T a s q x = true := by
          obtain ⟨e, h1, -⟩ := hall x (by simp)
          have : s.t1.flag = false := by
            simp only [anyFlag, Bool.not_eq_true, Bool.or_eq_false_iff] at hfl; exact hfl.1.1
          simp [ok, h1, ipsOk, this]
        simp [hx, answer]
      · rintro (h | h)
        · exact h
        · exact absurd h hfl

/-! ## What passes -/

/-- The value of a code of the new style, in the units of its kind times a power of ten common to all codes. -/
def value (c : Nat) : ℚ :=
  (if c % 1048576 ≤ 1000000 then ((c % 1048576 : Nat) : ℚ) else 1000000 - ((c % 1048576 : Nat) : ℚ)) /
    10 ^ (c / 1048576 % 16)

theorem value_eq (c : Nat) : value c = mantissa c / 10 ^ expo c := by
  rw [value, mantissa, expo]
  norm_num only
  generalize hm : c % 1048576 = m
  by_cases h : m ≤ 1000000
  · rw [if_pos h, if_neg (by omega)]
    simp
  · rw [if_neg h, if_pos (by omega)]
    congr 1
    push_cast
    ring

/-- A value of a record and a code are taken for the same level: equal codes; old codes 1 to 9 for pressures of 1 to 9 mb;
codes of the new style of the same kind and sign whose values differ by at most a unit of the last place of the finer. -/
def Same (ip : Nat) (c : Int) : Prop :=
  (ip : Int) = c ∨ (1 ≤ ip ∧ ip ≤ 9 ∧ c = 1800 + 20 * ip) ∨
  (32767 < ip ∧ 32767 < c ∧ ip / 16777216 % 16 = c.toNat / 16777216 % 16 ∧ (value ip < 0 ↔ value c.toNat < 0) ∧
    |value ip - value c.toNat| ≤ 1 / 10 ^ max (ip / 1048576 % 16) (c.toNat / 1048576 % 16))

theorem value_neg (c : Nat) : value c < 0 ↔ mantissa c < 0 := by
  rw [value_eq]
  have : (0 : ℚ) < 10 ^ expo c := by positivity
  rw [div_lt_iff₀ this, zero_mul]
  exact_mod_cast Iff.rfl

theorem scale_eq (m1 m2 : Int) (e1 e2 : Nat) :
    (|m1 * 10 ^ (e2 - e1) - m2 * 10 ^ (e1 - e2)| ≤ 1 ↔
      |(m1 : ℚ) / 10 ^ e1 - (m2 : ℚ) / 10 ^ e2| ≤ 1 / 10 ^ max e1 e2) := by
  have hp : (0 : ℚ) < 10 ^ max e1 e2 := by positivity
  have h1 : (10 : ℚ) ^ max e1 e2 = 10 ^ e1 * 10 ^ (e2 - e1) := by
    rw [← pow_add]; congr 1; omega
  have h2 : (10 : ℚ) ^ max e1 e2 = 10 ^ e2 * 10 ^ (e1 - e2) := by
    rw [← pow_add]; congr 1; omega
  have e : ((m1 : ℚ) / 10 ^ e1 - (m2 : ℚ) / 10 ^ e2) * 10 ^ max e1 e2 =
      ((m1 * 10 ^ (e2 - e1) - m2 * 10 ^ (e1 - e2) : Int) : ℚ) := by
    push_cast
    rw [sub_mul]
    nth_rewrite 1 [h1]
    nth_rewrite 1 [h2]
    have : (10 : ℚ) ^ e1 ≠ 0 := by positivity
    have : (10 : ℚ) ^ e2 ≠ 0 := by positivity
    field_simp
  rw [le_div_iff₀ hp]
  conv_rhs => rw [← abs_of_pos hp, ← abs_mul, e]
  rw [← Int.cast_abs]
  exact_mod_cast Iff.rfl

theorem matchOne_iff {ip : Nat} {c : Int} {b : Bool} (h : matchOne ip c = some b) : b = true ↔ Same ip c := by
  unfold matchOne at h
  by_cases h1 : (ip : Int) = c
  · rw [if_pos h1, Option.some.injEq] at h
    subst h
    exact ⟨fun _ => .inl h1, fun _ => rfl⟩
  rw [if_neg h1] at h
  by_cases h2 : ip < 10 ∧ ipOld.getD ip 0 = c
  · rw [if_pos h2, Option.some.injEq] at h
    subst h
    refine ⟨fun _ => .inr (.inl ?_), fun _ => rfl⟩
    obtain ⟨h2, h3⟩ := h2
    unfold ipOld at h3
    interval_cases ip <;> simp at h3 h1 ⊢ <;> omega
  rw [if_neg h2] at h
  have h2' : ¬ (1 ≤ ip ∧ ip ≤ 9 ∧ c = 1800 + 20 * ip) := by
    rintro ⟨g1, g2, g3⟩
    apply h2
    refine ⟨by omega, ?_⟩
    unfold ipOld
    interval_cases ip <;> simp [g3]
  by_cases h3 : ip > 32767 ∧ c > 32767
  · rw [if_pos h3] at h
    unfold sameNew at h
    by_cases h4 : kindOf ip = kindOf c.toNat
    · rw [if_neg (by simpa using h4)] at h
      dsimp only at h
      by_cases h5 : (mantissa ip < 0 ∧ ¬ mantissa c.toNat < 0) ∨ (¬ mantissa ip < 0 ∧ mantissa c.toNat < 0)
      · rw [if_pos h5, Option.some.injEq] at h
        subst h
        constructor
        · intro h; cases h
        · rintro (g | g | ⟨-, -, -, g, -⟩)
          · exact absurd g h1
          · exact absurd g h2'
          · rw [value_neg, value_neg] at g; tauto
      · rw [if_neg h5] at h
        have key : (b = true ↔ |mantissa ip * 10 ^ (expo c.toNat - expo ip) -
            mantissa c.toNat * 10 ^ (expo ip - expo c.toNat)| ≤ 1) := by
          unfold scaled at h
          dsimp only at h
          split at h
          · rename_i x y hx hy
            split at hx
            · split at hy
              · simp only [Option.some.injEq] at hx hy h
                subst hx hy h
                exact decide_eq_true_iff
              · cases hy
            · cases hx
          · cases h
        rw [key, scale_eq, ← value_eq, ← value_eq]
        constructor
        · intro g
          exact .inr (.inr ⟨h3.1, h3.2, h4, by rw [value_neg, value_neg]; tauto, g⟩)
        · rintro (g | g | ⟨-, -, -, -, g⟩)
          · exact absurd g h1
          · exact absurd g h2'
          · exact g
    · rw [if_pos h4, Option.some.injEq] at h
      subst h
      constructor
      · intro h; cases h
      · rintro (g | g | ⟨-, -, g, -⟩)
        · exact absurd g h1
        · exact absurd g h2'
        · exact absurd g h4
  · rw [if_neg h3, Option.some.injEq] at h
    subst h
    constructor
    · intro h; cases h
    · rintro (g | g | ⟨g1, g2, -⟩)
      · exact absurd g h1
      · exact absurd g h2'
      · exact absurd ⟨g1, g2⟩ h3

theorem anyMatch_iff {ip : Nat} {row : List Int} {b : Bool} (h : anyMatch ip row = some b) :
    b = true ↔ ∃ c ∈ row, Same ip c := by
  induction row with
  | nil => simp [anyMatch] at h; subst h; simp
  | cons c row ih =>
    rw [anyMatch] at h
    rcases hm : matchOne ip c with _ | d
    · rw [hm] at h; cases h
    · have := matchOne_iff hm
      rw [hm] at h
      cases d
      · dsimp only at h
        rw [ih h]
        simp only [List.mem_cons, exists_eq_or_imp]
        have : ¬ Same ip c := fun g => by simpa using this.2 g
        tauto
      · injection h with h
        subst h
        exact ⟨fun _ => ⟨c, by simp, this.1 rfl⟩, fun _ => rfl⟩

/-- An ip value with a table: when the value asked for is not negative, it is the first code of the table and the record has
one of the codes of the table. -/
def Passes (t : Tab) (target : Int) (ip : Nat) : Prop :=
  t.flag = true → 0 ≤ target → t.row.head? = some target ∧ ∃ c ∈ t.row, Same ip c

theorem ipIsEqual_iff {t : Tab} {target : Int} {ip : Nat} {b : Bool} (ht : 0 ≤ target) (h : ipIsEqual t target ip = some b) :
    b = true ↔ t.row.head? = some target ∧ ∃ c ∈ t.row, Same ip c := by
  unfold ipIsEqual at h
  rcases hr : t.row with _ | ⟨x, row⟩
  · rw [hr] at h
    rw [if_pos (by simp; omega), Option.some.injEq] at h
    subst h
    simp
  · rw [hr] at h
    by_cases hx : target = x
    · rw [if_neg (by simpa using hx)] at h
      rw [anyMatch_iff h]
      simp [hx]
    · rw [if_pos (by simpa using hx), Option.some.injEq] at h
      subst h
      simp [Ne.symm hx]

/-- C96, what holds of it: a record passes exactly when each ip value with a table passes, provided that the value of ip2 has
a table only when that of ip1 is tested, and the value of ip3 only when that of ip2 is. -/
theorem C96_accept_partial (s : Ips) (q : Query) (k : Keys) (b : Bool)
    (h2 : s.t2.flag = true → s.t1.flag = true ∧ 0 ≤ q.ip1.toInt)
    (h3 : s.t3.flag = true → s.t2.flag = true ∧ 0 ≤ q.ip2.toInt)
    (h : ipsOk s q k = some b) :
    b = true ↔ Passes s.t1 q.ip1.toInt k.ip1.toNat ∧ Passes s.t2 q.ip2.toInt k.ip2.toNat ∧
      Passes s.t3 q.ip3.toInt k.ip3.toNat := by
  unfold ipsOk at h
  by_cases c1 : s.t1.flag = true ∧ q.ip1.toInt ≥ 0
  · rw [if_pos c1] at h
    have p1 : Passes s.t1 q.ip1.toInt k.ip1.toNat ↔
        s.t1.row.head? = some q.ip1.toInt ∧ ∃ c ∈ s.t1.row, Same k.ip1.toNat c :=
      ⟨fun g => g c1.1 c1.2, fun g _ _ => g⟩
    rcases e1 : ipIsEqual s.t1 q.ip1.toInt k.ip1.toNat with _ | b1
    · rw [e1] at h; cases h
    have i1 := ipIsEqual_iff c1.2 e1
    rw [e1] at h
    rw [p1, ← i1]
    cases b1
    · injection h with h; subst h; simp
    dsimp only at h
    by_cases c2 : s.t2.flag = true ∧ q.ip2.toInt ≥ 0
    · rw [if_pos c2] at h
      have p2 : Passes s.t2 q.ip2.toInt k.ip2.toNat ↔
          s.t2.row.head? = some q.ip2.toInt ∧ ∃ c ∈ s.t2.row, Same k.ip2.toNat c :=
        ⟨fun g => g c2.1 c2.2, fun g _ _ => g⟩
      rcases e2 : ipIsEqual s.t2 q.ip2.toInt k.ip2.toNat with _ | b2
      · rw [e2] at h; cases h
      have i2 := ipIsEqual_iff c2.2 e2
      rw [e2] at h
      rw [p2, ← i2]
      cases b2
      · injection h with h; subst h; simp
      dsimp only at h
      by_cases c3 : s.t3.flag = true ∧ q.ip3.toInt ≥ 0
      · rw [if_pos c3] at h
        have i3 := ipIsEqual_iff c3.2 h
        rw [i3]
        exact ⟨fun g => ⟨rfl, rfl, fun _ _ => g⟩, fun g => g.2.2 c3.1 c3.2⟩
      · rw [if_neg c3] at h
        injection h with h
        subst h
        exact ⟨fun _ => ⟨rfl, rfl, fun g1 g2 => absurd ⟨g1, g2⟩ c3⟩, fun _ => rfl⟩
    · rw [if_neg c2] at h
      injection h with h
      subst h
      refine ⟨fun _ => ⟨rfl, fun g1 g2 => absurd ⟨g1, g2⟩ c2, fun g1 _ => absurd (h3 g1) c2⟩, fun _ => rfl⟩
  · rw [if_neg c1] at h
    injection h with h
    subst h
    refine ⟨fun _ => ⟨fun g1 g2 => absurd ⟨g1, g2⟩ c1, fun g1 _ => absurd (h2 g1) c1, fun g1 _ => absurd (h2 (h3 g1).1) c1⟩, fun _ => rfl⟩

theorem mantissa_bound (c : Nat) : |mantissa c| ≤ 1000000 := by
  unfold mantissa
  dsimp only
  have : c % 2 ^ 20 < 2 ^ 20 := Nat.mod_lt _ (by norm_num)
  split <;> rw [abs_le] <;> constructor <;> push_cast <;> omega

/-- C96.  The test is defined when the exponents of the codes of the new style are at most 12 apart. -/
theorem C96_defined (ip : Nat) (c : Int) (h : expo ip ≤ expo c.toNat + 12 ∧ expo c.toNat ≤ expo ip + 12) :
    matchOne ip c ≠ none := by
  have hs : ∀ m : Int, |m| ≤ 1000000 → ∀ n : Nat, n ≤ 12 → (scaled m n).isSome = true := by
    intro m hm n hn
    unfold scaled
    dsimp only
    rw [abs_le] at hm
    have h1 : (10 : Int) ^ n ≤ 10 ^ 12 := pow_le_pow_right₀ (by norm_num) hn
    have h0 : (0 : Int) < 10 ^ n := by positivity
    rw [if_pos ⟨by nlinarith, by nlinarith⟩]
    rfl
  have s1 := hs _ (mantissa_bound ip) (expo c.toNat - expo ip) (by omega)
  have s2 := hs _ (mantissa_bound c.toNat) (expo ip - expo c.toNat) (by omega)
  obtain ⟨x, hx⟩ := Option.isSome_iff_exists.1 s1
  obtain ⟨y, hy⟩ := Option.isSome_iff_exists.1 s2
  unfold matchOne sameNew
  dsimp only
  rw [hx, hy]
  dsimp only
  split_ifs <;> simp

/-- C96.  After one `ip1_all` the value returned is the code of the new style, and the records that pass a search for it are
those with the code of either style. -/
theorem C96_all (new old : Int) (h0 : 0 ≤ new) (q : Query) (hq : q.ip1.toInt = new) (k : Keys) (b : Bool) :
    ∃ t, ipAll new old ⟨false, []⟩ = some (t, new) ∧
      (ipsOk ⟨t, ⟨false, []⟩, ⟨false, []⟩⟩ q k = some b →
        (b = true ↔ Same k.ip1.toNat new ∨ Same k.ip1.toNat old)) := by
  refine ⟨⟨true, [new, old]⟩, rfl, fun h => ?_⟩
  rw [C96_accept_partial _ q k b (by simp) (by simp) h]
  simp [Passes, hq, h0]

/-- C96.  After one `ip1_val` the records that pass are those with the code of the new style. -/
theorem C96_val (new : Int) (h0 : 0 ≤ new) (q : Query) (hq : q.ip1.toInt = new) (k : Keys) (b : Bool) :
    ∃ t, ipVal new ⟨false, []⟩ = some (t, new) ∧
      (ipsOk ⟨t, ⟨false, []⟩, ⟨false, []⟩⟩ q k = some b → (b = true ↔ Same k.ip1.toNat new)) := by
  refine ⟨⟨true, [new]⟩, rfl, fun h => ?_⟩
  rw [C96_accept_partial _ q k b (by simp) (by simp) h]
  simp [Passes, hq, h0]

/-! ## Room in the tables -/

/-- Successive calls of `ip1_all` without a search between them: the table and the values returned. -/
def allRun : List (Int × Int) → Tab → Option (Tab × List Int)
  | [], t => some (t, [])
  | c :: cs, t => (ipAll c.1 c.2 t).bind fun r => (allRun cs r.1).map fun x => (x.1, r.2 :: x.2)

/-- C96.  At most 25 levels can be queued for an ip value; the next one is stored outside of its table. -/
theorem C96_room (cs : List (Int × Int)) :
    (cs.length ≤ 25 → ∃ t, allRun cs ⟨false, []⟩ = some (t, cs.map Prod.fst)) ∧
    (25 < cs.length → allRun cs ⟨false, []⟩ = none) := by
  have key : ∀ (cs : List (Int × Int)) (t : Tab) (j : Nat), t.row.length = 2 * j → j ≤ 25 →
      (cs.length + j ≤ 25 → ∃ t', allRun cs t = some (t', cs.map Prod.fst)) ∧
      (25 < cs.length + j → allRun cs t = none) := by
    intro cs
    induction cs with
    | nil =>
      intro t j _ hj
      exact ⟨fun _ => ⟨t, rfl⟩, fun h => by simp at h; omega⟩
    | cons c cs ih =>
      intro t j ht hj
      by_cases hj' : j < 25
      · have e : ipAll c.1 c.2 t = some (⟨true, t.row ++ [c.1] ++ [c.2]⟩, c.1) := by
          unfold ipAll push
          rw [if_pos (by simp [maxIpvals]; omega)]
          dsimp only
          rw [if_neg (by simp [maxIpvals]; omega), if_pos (by simp [maxIpvals]; omega)]
          simp only [Option.map_some, Option.some.injEq, Prod.mk.injEq, true_and]
          rw [if_neg (by simp [maxIpvals]; omega)]
        obtain ⟨i1, i2⟩ := ih ⟨true, t.row ++ [c.1] ++ [c.2]⟩ (j + 1) (by simp; omega) (by omega)
        constructor
        · intro h
          obtain ⟨t', ht'⟩ := i1 (by simp at h; omega)
          exact ⟨t', by simp only [allRun, e, Option.bind_some, ht', Option.map_some, List.map_cons]⟩
        · intro h
          simp only [allRun, e, Option.bind_some, i2 (by simp at h; omega), Option.map_none]
      · have : j = 25 := by omega
        subst this
        refine ⟨fun h => by simp at h, fun _ => ?_⟩
        have e : ipAll c.1 c.2 t = none := by
          unfold ipAll push
          rw [if_neg (by simp [maxIpvals]; omega)]
        simp [allRun, e]
  have := key cs ⟨false, []⟩ 0 rfl (by omega)
  simpa using this

/-! ## Where it fails -/

/-- C96 does not hold of ip2 alone: with a table for ip2 and none for ip1 every ip2 passes. -/
theorem C96_ip2_witness (t2 : Tab) (q : Query) (k : Keys) : ipsOk ⟨⟨false, []⟩, t2, ⟨false, []⟩⟩ q k = some true := by
  simp [ipsOk]

/-- When two levels are queued nothing is found by the code of the second. -/
theorem C96_second_witness (n1 o1 n2 o2 : Int) (hne : n1 ≠ n2) (h0 : 0 ≤ n2) (q : Query) (hq : q.ip1.toInt = n2) (k : Keys) :
    ∃ t1 t, ipAll n1 o1 ⟨false, []⟩ = some (t1, n1) ∧ ipAll n2 o2 t1 = some (t, n2) ∧
      ipsOk ⟨t, ⟨false, []⟩, ⟨false, []⟩⟩ q k = some false := by
  refine ⟨_, _, rfl, rfl, ?_⟩
  simp [ipsOk, hq, h0, ipIsEqual, Ne.symm hne]

/-- When the level is not valid for its kind, `ip1_all` returns a negative code, and a search for it finds any level. -/
theorem C96_invalid_witness (R : Grid.Rounding) (fuel : Nat) (k : Keys) (q : Query) (hq : q.ip1.toInt = -999999) :
    Convip.encodeNew R fuel 2 2000 = some (-999999) ∧
    ∃ t, ipAll (-999999) (oldCode R 2 2000) ⟨false, []⟩ = some (t, -999999) ∧
      ipsOk ⟨t, ⟨false, []⟩, ⟨false, []⟩⟩ q k = some true := by
  refine ⟨?_, _, rfl, ?_⟩
  · unfold Convip.encodeNew
    rw [if_neg (by decide), if_neg (by norm_num), if_neg (by decide), if_pos (by right; norm_num [Convip.hiVal])]
  · simp [ipsOk, hq]

/-- The comparison of generic codes (kind 3) of 0 and 5e8 overflows. -/
theorem C96_overflow_witness : kindOf (3 * 2 ^ 24 + 2 ^ 20 + 500000) = 3 ∧
    matchOne (3 * 2 ^ 24 + 15 * 2 ^ 20) (3 * 2 ^ 24 + 2 ^ 20 + 500000) = none := by decide

/-! ## Examples -/

/-- A record with this ip1; all else zero or blank. -/
def rec (ip1 : Nat) : Entry := ⟨1, 18, 1, ({ Keys.zero with ip1 := BitVec.ofNat 28 ip1 }).words.drop 2⟩

/-- A file with two records at 500 mb, in the old and in the new coding, and one at 850 mb between them. -/
def file : Table :=
  [⟨[Xdf.SearchExample.page [rec 500, rec 850, rec 41394464]], none, none⟩]

/-- A search by ip1 only. -/
def byIp1 (ip1 : Int) : Query := ⟨BitVec.ofInt 32 (-1), [], BitVec.ofInt 32 ip1, BitVec.ofInt 32 (-1), BitVec.ofInt 32 (-1), [], []⟩

/-- The tables after `ip1_all` of 500 mb. -/
def s500 : Ips := ⟨⟨true, [41394464, 500]⟩, ⟨false, []⟩, ⟨false, []⟩⟩

/-- The search for 500 mb in either coding finds the first record. -/
example : (fstinfx file 0 s500 FstKeys.srchInit (fun _ _ => true) 10 10 (byIp1 41394464)).map (·.found) = some (.hit 0 0) := by
  decide +kernel

/-- Without the tables only the new coding is found. -/
example : (fstinfx file 0 cleared FstKeys.srchInit (fun _ _ => true) 10 10 (byIp1 41394464)).map (·.found) = some (.hit 0 2) := by
  decide +kernel

/-- With the tables of 850 mb the second record is found. -/
example : (fstinfx file 0 ⟨⟨true, [41744464, 850]⟩, ⟨false, []⟩, ⟨false, []⟩⟩ FstKeys.srchInit (fun _ _ => true) 10 10
    (byIp1 41744464)).map (·.found) = some (.hit 0 1) := by
  decide +kernel

/-- The hypotheses of `C96_first` hold of this file. -/
example : Linked file [0] ∧ ∀ lf ∈ file, ∀ pg ∈ lf.pages, pg.nent ≤ 256 ∧ ∀ e ∈ pg.entries, e.keys.length = 16 ∧
    ipsOk s500 (byIp1 41394464) (FstKeys.ofWords e.words) ≠ none := by
  refine ⟨⟨_, rfl, by simp, rfl⟩, by decide +kernel⟩

/-- `fstsui` after such a search goes on with the code of the record found only: the record in the other coding, which was
asked for too, is not found. -/
theorem C96_sui_witness :
    ((fstinfx file 0 s500 FstKeys.srchInit (fun _ _ => true) 10 10 (byIp1 41394464)).bind fun r =>
      (Xdf.locNext file r.crit 10 r.cursor).map (·.1)) = some .notFound := by
  decide +kernel

/-- The tables stay set after a search on a unit that is not open; a plain search for a record that exists then fails. -/
theorem C96_stale_witness :
    ((fstinfxOn file none s500 FstKeys.srchInit (fun _ _ => true) 10 10 (byIp1 41394464)).bind fun r =>
      (fstinfxOn file (some 0) r.2 FstKeys.srchInit (fun _ _ => true) 10 10 (byIp1 850)).map (·.1)) = some (some .notFound) ∧
    ((fstinfxOn file (some 0) cleared FstKeys.srchInit (fun _ _ => true) 10 10 (byIp1 850)).map (·.1)) = some (some (.hit 0 1)) := by
  decide +kernel

/-- Codes 5 and 1900 are both 5 mb; codes of 500 mb with 6 and with 5 digits are the same level. -/
example : Same 5 1900 ∧ matchOne (2 * 2 ^ 24 + 6 * 2 ^ 20 + 50000) 41394464 = some true := by
  refine ⟨.inr (.inl (by norm_num)), by decide⟩

end Verif.FstIp
