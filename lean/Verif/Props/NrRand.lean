import Verif.NrRand
import Mathlib.Tactic

namespace Verif.NrRand

/-! # C135: random numbers -/

/-- A number in the range. -/
def In (x : Int) : Prop := 0 ≤ x ∧ x < 1000000000

def AllIn (ma : Nat → Int) : Prop := ∀ k, 1 ≤ k → k ≤ 55 → In (ma k)

theorem wrap_in {a b : Int} (ha : In a) (hb : In b) : In (wrap (a - b)) := by
  unfold wrap In at *; split_ifs <;> omega

theorem upd_same (f : Nat → Int) (t : Nat) (v : Int) : upd f t v t = v := if_pos rfl

theorem upd_ne {f : Nat → Int} {t u : Nat} {v : Int} (h : u ≠ t) : upd f t v u = f u := if_neg h

theorem hit (k : Nat) (h1 : 1 ≤ k) (h2 : k ≤ 54) : ∃ i, 1 ≤ i ∧ i ≤ 54 ∧ 21 * i % 55 = k := by
  have : ∀ k : Fin 55, 1 ≤ k.val → ∃ i : Fin 55, 1 ≤ i.val ∧ 21 * i.val % 55 = k.val := by decide +kernel
  obtain ⟨i, hi, he⟩ := this ⟨k, by omega⟩ h1
  exact ⟨i.val, hi, by omega, he⟩

theorem fill_concat (s : (Nat → Int) × Int × Int) (n : Nat) :
    (List.range' 1 (n + 1)).foldl fill s = fill ((List.range' 1 n).foldl fill s) (n + 1) := by
  rw [List.range'_1_concat, List.foldl_append, List.foldl_cons, List.foldl_nil, Nat.add_comm 1 n]

theorem fill_in {ma : Nat → Int} {mj : Int} (h55 : ma 55 = mj) (hj : In mj) (n : Nat) (hn : n ≤ 54) :
    let s := (List.range' 1 n).foldl fill (ma, mj, 1)
    In s.2.1 ∧ In s.2.2 ∧ In (s.1 55) ∧ ∀ i, 1 ≤ i → i ≤ n → In (s.1 (21 * i % 55)) := by
  induction n with
  | zero => exact ⟨hj, ⟨Int.one_nonneg, (by decide : (1 : Int) < 1000000000)⟩, h55 ▸ hj, fun i h1 h2 => by omega⟩
  | succ n ih =>
    obtain ⟨h1, h2, h3, h4⟩ := ih (by omega)
    rw [fill_concat]
    generalize (List.range' 1 n).foldl fill (ma, mj, 1) = s at h1 h2 h3 h4
    refine ⟨?_, wrap_in h1 h2, ?_, ?_⟩
    · simp only [fill, upd_same]; exact h2
    · simp only [fill]; rw [upd_ne (by omega)]; exact h3
    · intro i hi1 hi2
      simp only [fill]
      by_cases h : 21 * i % 55 = 21 * (n + 1) % 55
      · rw [h, upd_same]; exact h2
      · rw [upd_ne h]
        refine h4 i hi1 ?_
        by_contra hc
        exact h (by rw [show i = n + 1 by omega])

theorem first_in {v : Int} (h : |v| ≤ 161803398) : In (first v) := by
  have := abs_nonneg v
  unfold first In
  rw [Int.tmod_eq_of_lt (by omega) (by omega)]
  omega

theorem table_in (ma : Nat → Int) {v : Int} (h : |v| ≤ 161803398) : AllIn (table ma v) := by
  obtain ⟨-, -, h3, h4⟩ := fill_in (upd_same ma 55 (first v)) (first_in h) 54 le_rfl
  intro k h1 h2
  by_cases hk : k = 55
  · rw [hk]; exact h3
  · obtain ⟨i, hi1, hi2, he⟩ := hit k h1 (by omega)
    rw [← he]; exact h4 i hi1 hi2

theorem warm_in {ma : Nat → Int} (h : AllIn ma) {i : Nat} (h1 : 1 ≤ i) (h2 : i ≤ 55) : AllIn (warm ma i) := by
  intro k hk1 hk2
  unfold warm
  by_cases hk : k = i
  · rw [hk, upd_same]; exact wrap_in (h i h1 h2) (h _ (by omega) (by omega))
  · rw [upd_ne hk]; exact h k hk1 hk2

theorem warms_in (l : List Nat) (hl : ∀ i ∈ l, 1 ≤ i ∧ i ≤ 55) {ma : Nat → Int} (h : AllIn ma) : AllIn (l.foldl warm ma) := by
  induction l generalizing ma with
  | nil => exact h
  | cons i l ih =>
    rw [List.foldl_cons]
    exact ih (fun j hj => hl j (List.mem_cons_of_mem _ hj)) (warm_in h (hl i List.mem_cons_self).1 (hl i List.mem_cons_self).2)

theorem mixed_in {ma : Nat → Int} (h : AllIn ma) : AllIn (mixed ma) := by
  have hl : ∀ i ∈ List.range' 1 55, 1 ≤ i ∧ i ≤ 55 := by intro i hi; simp only [List.mem_range'_1] at hi; omega
  have key : ∀ (l : List Nat) (m : Nat → Int), AllIn m → AllIn (l.foldl (fun m _ => (List.range' 1 55).foldl warm m) m) := by
    intro l
    induction l with
    | nil => exact fun m hm => hm
    | cons _ l ih => exact fun m hm => ih _ (warms_in _ hl hm)
  exact key _ _ h

/-- The state between calls. -/
def Inv (s : St) : Prop := |s.iseed| ≤ 161803398 ∧ (s.used = true → AllIn s.ma ∧ s.inext ≤ 55 ∧ s.inextp ≤ 55)

theorem next_inv {s : St} (h : Inv s) : In (next s).1 ∧ Inv (next s).2 := by
  have hp : Inv (prep s) ∧ (prep s).used = true := by
    unfold prep
    split_ifs with hc
    · exact ⟨⟨(by decide : |(1 : Int)| ≤ 161803398), fun _ => ⟨mixed_in (table_in _ h.1), by simp, by simp⟩⟩, rfl⟩
    · push Not at hc
      exact ⟨h, by simpa using hc.2⟩
  obtain ⟨⟨p1, p2⟩, p3⟩ := hp
  obtain ⟨q1, q2, q3⟩ := p2 p3
  unfold next
  generalize prep s = s at p1 q1 q2 q3 p3
  have r1 : 1 ≤ (if s.inext + 1 = 56 then 1 else s.inext + 1) ∧ (if s.inext + 1 = 56 then 1 else s.inext + 1) ≤ 55 := by
    split_ifs <;> omega
  have r2 : 1 ≤ (if s.inextp + 1 = 56 then 1 else s.inextp + 1) ∧ (if s.inextp + 1 = 56 then 1 else s.inextp + 1) ≤ 55 := by
    split_ifs <;> omega
  simp only
  generalize (if s.inext + 1 = 56 then 1 else s.inext + 1) = a at *
  generalize (if s.inextp + 1 = 56 then 1 else s.inextp + 1) = b at *
  have hv := wrap_in (q1 a r1.1 r1.2) (q1 b r2.1 r2.2)
  refine ⟨hv, p1, fun _ => ⟨?_, r1.2, r2.2⟩⟩
  intro k h1 h2
  by_cases hk : k = a
  · simp only [hk, upd_same]; exact hv
  · simp only [upd_ne hk]; exact q1 k h1 h2

theorem numbers_in {s : St} (h : Inv s) (ops : List Op) (hs : ∀ v, Op.seed v ∈ ops → |v| ≤ 161803398) :
    ∀ x ∈ numbers s ops, In x := by
  induction ops generalizing s with
  | nil => intro x hx; simp [numbers] at hx
  | cons o ops ih =>
    have hs' : ∀ v, Op.seed v ∈ ops → |v| ≤ 161803398 := fun v hv => hs v (List.mem_cons_of_mem _ hv)
    cases o with
    | seed v => exact ih (s := seed s v) ⟨hs v List.mem_cons_self, h.2⟩ hs'
    | next =>
      intro x hx
      simp only [numbers, List.mem_cons] at hx
      rcases hx with rfl | hx
      · exact (next_inv h).1
      · exact ih (next_inv h).2 hs' x hx

/-- C135: with seeds of at most 161803398 the numbers are from 0 to 999999999. -/
theorem C135_range_partial (a b : Nat) (ma : Nat → Int) (ops : List Op) (hs : ∀ v, Op.seed v ∈ ops → |v| ≤ 161803398) :
    ∀ x ∈ numbers (start a b ma) ops, 0 ≤ x ∧ x < 1000000000 :=
  numbers_in ⟨(by decide : |(-1 : Int)| ≤ 161803398), by intro h; cases h⟩ ops hs

example : numbers (start 0 0 fun _ => 0) [.next, .next, .seed (-5), .next] = [298227348, 715119168, 355441340] := by decide +kernel

/-- With the seed 1000000000 a number is too large. -/
theorem C135_range_witness :
    (numbers (start 0 0 fun _ => 0) (.seed 1000000000 :: List.replicate 10 .next)).getLast? = some 1593989464 := by
  decide +kernel

/-! ## The sequence -/

theorem mix_agree {m m' : Nat → Int} (h : ∀ k, 1 ≤ k → k ≤ 55 → m k = m' k) :
    ∀ k, 1 ≤ k → k ≤ 55 → mixed m k = mixed m' k := by
  have hw : ∀ (l : List Nat), (∀ i ∈ l, 1 ≤ i ∧ i ≤ 55) → ∀ m m' : Nat → Int, (∀ k, 1 ≤ k → k ≤ 55 → m k = m' k) →
      ∀ k, 1 ≤ k → k ≤ 55 → l.foldl warm m k = l.foldl warm m' k := by
    intro l
    induction l with
    | nil => exact fun _ m m' h => h
    | cons i l ih =>
      intro hl m m' h
      refine ih (fun j hj => hl j (List.mem_cons_of_mem _ hj)) _ _ ?_
      intro k h1 h2
      have hi := hl i List.mem_cons_self
      unfold warm
      by_cases hk : k = i
      · rw [hk, upd_same, upd_same, h i hi.1 hi.2, h (1 + (i + 30) % 55) (by omega) (by omega)]
      · rw [upd_ne hk, upd_ne hk, h k h1 h2]
  have hl : ∀ i ∈ List.range' 1 55, 1 ≤ i ∧ i ≤ 55 := by intro i hi; simp only [List.mem_range'_1] at hi; omega
  have key : ∀ (l : List Nat) (m m' : Nat → Int), (∀ k, 1 ≤ k → k ≤ 55 → m k = m' k) → ∀ k, 1 ≤ k → k ≤ 55 →
      l.foldl (fun m _ => (List.range' 1 55).foldl warm m) m k = l.foldl (fun m _ => (List.range' 1 55).foldl warm m) m' k := by
    intro l
    induction l with
    | nil => exact fun m m' h => h
    | cons _ l ih => exact fun m m' h => ih _ _ (hw _ hl m m' h)
  exact key _ m m' h

theorem table_agree (m m' : Nat → Int) {v v' : Int} (hv : |v| = |v'|) : ∀ k, 1 ≤ k → k ≤ 55 → table m v k = table m' v' k := by
  have hf : first v = first v' := by rw [first, first, hv]
  have key : ∀ n, n ≤ 54 →
      let s := (List.range' 1 n).foldl fill (upd m 55 (first v), first v, 1)
      let s' := (List.range' 1 n).foldl fill (upd m' 55 (first v'), first v', 1)
      s.2 = s'.2 ∧ s.1 55 = s'.1 55 ∧ ∀ i, 1 ≤ i → i ≤ n → s.1 (21 * i % 55) = s'.1 (21 * i % 55) := by
    intro n
    induction n with
    | zero => exact fun _ => ⟨by simp [hf], by simp [upd, hf], fun i h1 h2 => by omega⟩
    | succ n ih =>
      intro hn
      obtain ⟨h1, h2, h3⟩ := ih (by omega)
      simp only [fill_concat]
      generalize (List.range' 1 n).foldl fill (upd m 55 (first v), first v, 1) = s at h1 h2 h3
      generalize (List.range' 1 n).foldl fill (upd m' 55 (first v'), first v', 1) = s' at h1 h2 h3
      refine ⟨?_, ?_, ?_⟩
      · simp only [fill, upd_same, h1]
      · simp only [fill]; rw [upd_ne (by omega), upd_ne (by omega), h2]
      · intro i hi1 hi2
        simp only [fill]
        by_cases h : 21 * i % 55 = 21 * (n + 1) % 55
        · rw [h, upd_same, upd_same, h1]
        · rw [upd_ne h, upd_ne h]
          refine h3 i hi1 ?_
          by_contra hc
          exact h (by rw [show i = n + 1 by omega])
  obtain ⟨-, h2, h3⟩ := key 54 le_rfl
  intro k hk1 hk2
  by_cases hk : k = 55
  · rw [hk]; exact h2
  · obtain ⟨i, hi1, hi2, he⟩ := hit k hk1 (by omega)
    rw [← he]; exact h3 i hi1 hi2

/-- States that the calls to come cannot tell apart. -/
def Same (s s' : St) : Prop :=
  s.used = true ∧ s'.used = true ∧ 0 ≤ s.iseed ∧ 0 ≤ s'.iseed ∧ s.inext = s'.inext ∧ s.inextp = s'.inextp ∧ s.inext ≤ 55 ∧
    s.inextp ≤ 55 ∧ ∀ k, 1 ≤ k → k ≤ 55 → s.ma k = s'.ma k

theorem prep_same {s s' : St} (h : Same s s') : prep s = s ∧ prep s' = s' := by
  obtain ⟨h1, h2, h3, h4, -⟩ := h
  constructor
  · rw [prep, if_neg]; rw [h1]; rintro (h | h)
    · omega
    · cases h
  · rw [prep, if_neg]; rw [h2]; rintro (h | h)
    · omega
    · cases h

theorem next_same {s s' : St} (h : Same (prep s) (prep s')) : (next s).1 = (next s').1 ∧ Same (next s).2 (next s').2 := by
  unfold next
  obtain ⟨h1, h2, h3, h4, h5, h6, h7, h8, h9⟩ := h
  generalize prep s = s at *
  generalize prep s' = s' at *
  simp only
  rw [← h5, ← h6]
  have r1 : 1 ≤ (if s.inext + 1 = 56 then 1 else s.inext + 1) ∧ (if s.inext + 1 = 56 then 1 else s.inext + 1) ≤ 55 := by
    split_ifs <;> omega
  have r2 : 1 ≤ (if s.inextp + 1 = 56 then 1 else s.inextp + 1) ∧ (if s.inextp + 1 = 56 then 1 else s.inextp + 1) ≤ 55 := by
    split_ifs <;> omega
  generalize (if s.inext + 1 = 56 then 1 else s.inext + 1) = a at *
  generalize (if s.inextp + 1 = 56 then 1 else s.inextp + 1) = b at *
  have e : wrap (s.ma a - s.ma b) = wrap (s'.ma a - s'.ma b) := by rw [h9 a r1.1 r1.2, h9 b r2.1 r2.2]
  refine ⟨e, h1, h2, h3, h4, rfl, rfl, r1.2, r2.2, ?_⟩
  intro k hk1 hk2
  simp only [e]
  by_cases hk : k = a
  · rw [hk, upd_same, upd_same]
  · rw [upd_ne hk, upd_ne hk, h9 k hk1 hk2]

theorem nth_same {s s' : St} (h : Same (prep s) (prep s')) (n : Nat) : nth s n = nth s' n := by
  have key : ∀ n, Same (prep (after s n)) (prep (after s' n)) := by
    intro n
    induction n with
    | zero => exact h
    | succ n ih =>
      have := (next_same ih).2
      show Same (prep (next (after s n)).2) (prep (next (after s' n)).2)
      rw [(prep_same this).1, (prep_same this).2]
      exact this
  exact (next_same (key n)).1

/-- C135: after a negative seed the numbers depend on the seed only, and after a first seed on its absolute value
only. -/
theorem C135_repeat {s s' : St} (h : s.iseed < 0 ∨ s.used = false) (h' : s'.iseed < 0 ∨ s'.used = false)
    (hv : |s.iseed| = |s'.iseed|) (n : Nat) : nth s n = nth s' n := by
  refine nth_same ?_ n
  rw [prep, if_pos h, prep, if_pos h']
  exact ⟨rfl, rfl, Int.one_nonneg, Int.one_nonneg, rfl, rfl, Nat.zero_le _, (by decide : 31 ≤ 55), mix_agree (table_agree _ _ hv)⟩

example (s : St) : (seed s (-7)).iseed < 0 ∧ (seed (start 0 0 fun _ => 0) 7).used = false := ⟨(by decide : (-7 : Int) < 0), rfl⟩

/-- C135: a seed that is not negative is ignored after the first number. -/
theorem C135_ignored {s : St} (hu : s.used = true) (h0 : 0 ≤ s.iseed) (h1 : s.inext ≤ 55) (h2 : s.inextp ≤ 55) {v : Int}
    (hv : 0 ≤ v) (n : Nat) : nth (seed s v) n = nth s n := by
  have e : Same (seed s v) s := ⟨hu, hu, hv, h0, rfl, rfl, h1, h2, fun _ _ _ => rfl⟩
  refine nth_same ?_ n
  rw [(prep_same e).1, (prep_same e).2]
  exact e

example : (next (start 0 0 fun _ => 0)).2.used = true ∧ 0 ≤ (next (start 0 0 fun _ => 0)).2.iseed ∧
    (next (start 0 0 fun _ => 0)).2.inext ≤ 55 := by decide +kernel

/-- C135: each number is the difference of the numbers 55 and 24 places before, modulo 1000000000. -/
theorem C135_recurrence {s : St} (h : s.iseed < 0 ∨ s.used = false) (n : Nat) :
    nth s (n + 55) = nth s n - nth s (n + 31) + if nth s n < nth s (n + 31) then 1000000000 else 0 := by
  have key : ∀ n, (after s (n + 1)).used = true ∧ (after s (n + 1)).iseed = 1 ∧ (after s (n + 1)).inext = n % 55 + 1 ∧
      (after s (n + 1)).inextp = (n + 31) % 55 + 1 ∧
      ∀ m, m ≤ n → n < m + 55 → (after s (n + 1)).ma (m % 55 + 1) = nth s m := by
    intro n
    induction n with
    | zero =>
      have : prep s = ⟨true, 1, 0, 31, mixed (table s.ma s.iseed)⟩ := by rw [prep, if_pos h]
      refine ⟨?_, ?_, ?_, ?_, ?_⟩
      · simp [after, next, this]
      · simp [after, next, this]
      · simp [after, next, this]
      · simp [after, next, this]
      · intro m hm _
        have : m = 0 := by omega
        subst this
        simp [after, next, this, nth, upd]
    | succ n ih =>
      obtain ⟨i1, i2, i3, i4, i5⟩ := ih
      have hp : prep (after s (n + 1)) = after s (n + 1) := by
        rw [prep, if_neg]; rw [i1, i2]; rintro (h | h) <;> revert h <;> decide
      have e : after s (n + 1 + 1) = (next (after s (n + 1))).2 := rfl
      have hn : nth s (n + 1) = (next (after s (n + 1))).1 := rfl
      have a1 : (if n % 55 + 1 + 1 = 56 then 1 else n % 55 + 1 + 1) = (n + 1) % 55 + 1 := by split_ifs <;> omega
      have a2 : (if (n + 31) % 55 + 1 + 1 = 56 then 1 else (n + 31) % 55 + 1 + 1) = (n + 1 + 31) % 55 + 1 := by
        split_ifs <;> omega
      simp only [next, hp, i3, i4, a1, a2] at e hn
      refine ⟨by rw [e]; exact i1, by rw [e]; exact i2, by rw [e], by rw [e], ?_⟩
      intro m hm1 hm2
      rw [e]
      simp only
      by_cases hm : m = n + 1
      · rw [hm, upd_same, hn]
      · rw [upd_ne (by omega)]
        exact i5 m (by omega) (by omega)
  obtain ⟨i1, i2, i3, i4, i5⟩ := key (n + 54)
  have hp : prep (after s (n + 54 + 1)) = after s (n + 54 + 1) := by
    rw [prep, if_neg]; rw [i1, i2]; rintro (h | h) <;> revert h <;> decide
  have hn : nth s (n + 55) = (next (after s (n + 54 + 1))).1 := rfl
  have a1 : (if (n + 54) % 55 + 1 + 1 = 56 then 1 else (n + 54) % 55 + 1 + 1) = n % 55 + 1 := by split_ifs <;> omega
  have a2 : (if (n + 54 + 31) % 55 + 1 + 1 = 56 then 1 else (n + 54 + 31) % 55 + 1 + 1) = (n + 31) % 55 + 1 := by
    split_ifs <;> omega
  simp only [next, hp, i3, i4, a1, a2] at hn
  rw [i5 n (by omega) (by omega), i5 (n + 31) (by omega) (by omega)] at hn
  rw [hn, wrap]
  split_ifs <;> omega

end Verif.NrRand
