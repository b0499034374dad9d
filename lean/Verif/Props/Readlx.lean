import Verif.Readlx
import Mathlib.Tactic

namespace Verif.Readlx

/-! # C128: expressions -/

/-- Expressions with integers, signs, binary operators and parentheses. -/
inductive Expr where
  | num (v : Int)
  | paren (e : Expr)
  | neg (e : Expr)
  | bin (c : Nat) (a b : Expr)

/-- How tight a binary operator binds: the logical operators least, then comparisons, sums, products, powers. -/
def prec : Nat → Nat
  | 5 => 5
  | 6 => 4
  | 7 => 4
  | 8 => 3
  | 9 => 3
  | 10 => 2
  | 11 => 2
  | 12 => 2
  | 13 => 2
  | 14 => 2
  | 15 => 2
  | 16 => 2
  | 18 => 1
  | 19 => 1
  | 20 => 1
  | _ => 0

/-- How tight an expression binds: numbers, parentheses and signs most. -/
def Expr.top : Expr → Nat
  | .bin c _ _ => prec c
  | .neg _ => 6
  | _ => 7

/-- Written without ambiguity: operators of the same tightness from left to right, and a sign before a number or a
parenthesis. -/
def Expr.WF : Expr → Prop
  | .num _ => True
  | .paren e => e.WF
  | .neg e => e.WF ∧ 7 ≤ e.top
  | .bin c a b => 1 ≤ prec c ∧ a.WF ∧ b.WF ∧ prec c ≤ a.top ∧ prec c < b.top

/-- The expression as text. -/
def Expr.toks : Expr → List Tok
  | .num v => [.num v]
  | .paren e => .op 22 :: (e.toks ++ [.op 1])
  | .neg e => .op 9 :: e.toks
  | .bin c a b => a.toks ++ .op c :: b.toks

/-- Numbers in an expression. -/
def Expr.nums : Expr → Nat
  | .num _ => 1
  | .paren e => e.nums
  | .neg e => e.nums
  | .bin _ a b => a.nums + b.nums

/-- Operators and parentheses in an expression. -/
def Expr.marks : Expr → Nat
  | .num _ => 0
  | .paren e => e.marks + 1
  | .neg e => e.marks + 1
  | .bin _ a b => a.marks + b.marks + 1

/-- The value of a power. -/
def powVal (x y : Int) : Option Int :=
  if 0 ≤ y then some (x ^ y.toNat) else if x = 0 then none else if x.natAbs = 1 then some (x ^ y.natAbs) else some 0

/-- The values of the operators; -1 is true and 0 is false. -/
def opVal (c : Nat) (x y : Int) : Option Int :=
  if c = 5 then powVal x y
  else if c = 6 then some (x * y)
  else if c = 7 then (if y = 0 then none else some (x.tdiv y))
  else if c = 8 then some (x + y)
  else if c = 9 then some (x - y)
  else if c = 18 then some ((BitVec.ofInt 32 x) &&& (BitVec.ofInt 32 y)).toInt
  else if c = 19 then some ((BitVec.ofInt 32 x) ||| (BitVec.ofInt 32 y)).toInt
  else if c = 20 then some ((BitVec.ofInt 32 x) ^^^ (BitVec.ofInt 32 y)).toInt
  else
    let b : Bool := if c = 10 then x < y else if c = 11 then y < x else if c = 12 then x = y
      else if c = 13 then x ≤ y else if c = 14 then y ≤ x else x ≠ y
    some (if b then -1 else 0)

/-- A value must be a 32 bit integer (other than the least). -/
def small (v : Int) : Option Int := if v.natAbs < 2147483648 then some v else none

/-- The value of an expression, if none of the values in it is too large or undefined. -/
def Expr.val : Expr → Option Int
  | .num v => some v
  | .paren e => e.val
  | .neg e => do small (-(← e.val))
  | .bin c a b => do small (← opVal c (← a.val) (← b.val))

/-- A result as the model gives it. -/
def res : Option Int → Res Int
  | some v => .ok v
  | none => .fault

theorem fit_eq (r : Int) : fit r = res (small r) := by
  unfold fit small
  by_cases h : -2147483647 ≤ r ∧ r ≤ 2147483647
  · rw [if_pos h, if_pos (by omega)]; rfl
  · rw [if_neg h, if_neg (by omega)]; rfl

theorem small_of {v : Int} (h : v.natAbs < 2147483648) : small v = some v := if_pos h

theorem pow_eq (x y : Int) : power x y = res ((powVal x y).bind small) := by
  unfold power powVal
  by_cases h1 : 0 ≤ y
  · rw [if_pos h1, if_pos h1]; exact fit_eq _
  rw [if_neg h1, if_neg h1]
  by_cases h2 : x = 0
  · rw [if_pos h2, if_pos h2]; rfl
  rw [if_neg h2, if_neg h2]
  by_cases h3 : x = 1
  · subst h3
    rw [if_pos rfl, if_pos (by decide), one_pow]; rfl
  rw [if_neg h3]
  by_cases h4 : x = -1
  · subst h4
    rw [if_pos (show (-1 : Int) = -1 from rfl), if_pos (show (-1 : Int).natAbs = 1 by decide)]
    by_cases h5 : y % 2 = 0
    · rw [if_pos h5, Even.neg_one_pow (Nat.even_iff.2 (by omega))]; rfl
    · rw [if_neg h5, Odd.neg_one_pow (Nat.odd_iff.2 (by omega))]; rfl
  · rw [if_neg h4, if_neg (by omega)]; rfl

theorem arith_eq {c : Nat} (h : 1 ≤ prec c) (x y : Int) : arith c x y = res ((opVal c x y).bind small) := by
  have hc : c = 5 ∨ c = 6 ∨ c = 7 ∨ c = 8 ∨ c = 9 ∨ c = 10 ∨ c = 11 ∨ c = 12 ∨ c = 13 ∨ c = 14 ∨ c = 15 ∨ c = 16 ∨
      c = 18 ∨ c = 19 ∨ c = 20 := by
    by_contra hn
    revert h
    unfold prec
    split <;> simp_all
  rcases hc with rfl | rfl | rfl | rfl | rfl | rfl | rfl | rfl | rfl | rfl | rfl | rfl | rfl | rfl | rfl
  · exact pow_eq x y
  · exact fit_eq _
  · simp only [arith, opVal]; split_ifs
    all_goals first | rfl | exact fit_eq _ | simp_all
  · exact fit_eq _
  · exact fit_eq _
  all_goals first
    | exact fit_eq _
    | (simp only [arith, opVal, flag]
       norm_num
       split_ifs <;> rfl)

/-- The tightness of an operator on the stack; 0 for parentheses and the bottom. -/
def lv (o : Nat) : Nat := if o = 4 then 6 else prec o

/-- The operators that may be on the stack. -/
def Valid (o : Nat) : Prop := o = 0 ∨ o = 22 ∨ o = 4 ∨ 1 ≤ prec o

theorem prec_lt {c : Nat} (h : 1 ≤ prec c) : c < 24 := by
  by_contra hn
  revert h
  unfold prec
  split <;> omega

theorem pop_table' : ∀ c o : Fin 24, 1 ≤ lv c → (o.val = 0 ∨ o.val = 22 ∨ 1 ≤ lv o) →
    (qlxpri c < qlxpril o ↔ lv c ≤ lv o) := by decide +kernel

theorem pop_table (c : Nat) (hc : c < 24) (o : Nat) (ho : o < 24) (h1 : 1 ≤ lv c)
    (h2 : o = 0 ∨ o = 22 ∨ 1 ≤ lv o) : qlxpri c < qlxpril o ↔ lv c ≤ lv o :=
  pop_table' ⟨c, hc⟩ ⟨o, ho⟩ h1 h2

theorem nums_pos : ∀ e : Expr, 1 ≤ e.nums
  | .num _ => le_rfl
  | .paren e => nums_pos e
  | .neg e => nums_pos e
  | .bin _ a _ => le_trans (nums_pos a) (Nat.le_add_right _ _)

theorem lv_of_prec {c : Nat} (h : 1 ≤ prec c) : lv c = prec c := by
  unfold lv
  rw [if_neg]
  rintro rfl
  revert h; decide

theorem Valid.lt {o : Nat} (h : Valid o) : o < 24 := by
  rcases h with rfl | rfl | rfl | h
  · decide
  · decide
  · decide
  · exact prec_lt h

theorem Valid.cases {o : Nat} (h : Valid o) : o = 0 ∨ o = 22 ∨ 1 ≤ lv o := by
  rcases h with rfl | rfl | rfl | h
  · left; rfl
  · right; left; rfl
  · right; right; decide
  · right; right; rw [lv_of_prec h]; exact h

theorem pops {c o : Nat} (hc : c = 4 ∨ 1 ≤ prec c) (ho : Valid o) : qlxpri c < qlxpril o ↔ lv c ≤ lv o := by
  rcases hc with rfl | hc
  · exact pop_table 4 (by decide) o ho.lt (by decide) ho.cases
  · exact pop_table c (prec_lt hc) o ho.lt (by rw [lv_of_prec hc]; exact hc) ho.cases

theorem inner_iff {o : Nat} (ho : Valid o) : inner o = true ↔ 1 ≤ lv o := by
  rcases ho with rfl | rfl | rfl | h
  · decide
  · decide
  · decide
  · rw [lv_of_prec h]
    refine ⟨fun _ => h, fun _ => ?_⟩
    have : o ≠ 22 ∧ o ≠ 23 ∧ o ≠ 0 := by
      refine ⟨?_, ?_, ?_⟩ <;> (rintro rfl; revert h; decide)
    simp [inner, this]

/-- What may follow an operand: a binary operator, `)` with a parenthesis open, or the end. -/
inductive Closer (plev : Int) : Tok → Nat → Prop
  | op {c : Nat} (h : 1 ≤ prec c) : Closer plev (.op c) (prec c)
  | paren (h : 0 < plev) : Closer plev (.op 1) 1
  | stop : Closer plev .stop 1

theorem binary_ne {c : Nat} (h : 1 ≤ prec c) : c ≠ 0 ∧ c ≠ 1 ∧ c ≠ 2 ∧ c ≠ 3 ∧ c ≠ 4 ∧ c ≠ 17 ∧ c ≠ 22 ∧ c ≠ 23 := by
  refine ⟨?_, ?_, ?_, ?_, ?_, ?_, ?_, ?_⟩ <;> (rintro rfl; revert h; decide)

theorem popWhile_cons {p : Nat → Bool} {o : Nat} {ops : List Nat} {st st' : List Int} (h : p o = true)
    (hq : qlxopr o st = .ok st') : popWhile p (o :: ops) st = popWhile p ops st' := by
  rw [popWhile, if_pos h, hq]

theorem popWhile_fault {p : Nat → Bool} {o : Nat} {ops : List Nat} {st : List Int} (h : p o = true)
    (hq : qlxopr o st = .fault) : popWhile p (o :: ops) st = .fault := by
  rw [popWhile, if_pos h, hq]

/-- What a closing token does, as one function of the result of the loop that applies operators. -/
theorem closer_form {plev blev : Int} {t : Tok} {r : Nat} (h : Closer plev t r) (hp : 0 ≤ plev) (hb : 0 ≤ blev)
    (rest : List Tok) : ∃ (p : Nat → Bool) (k : Res (List Nat × List Int) → Res (Int × List Tok)),
      (∀ o, Valid o → (p o = true ↔ r ≤ lv o)) ∧ k .fault = .fault ∧
      ∀ st ops, st.length < 65 → ops.length < 30 →
        run (t :: rest) ⟨st, ops, plev, blev, false⟩ = k (popWhile p ops st) := by
  cases h with
  | @op c hc =>
    obtain ⟨n0, n1, n2, n3, n4, n5, n6, n7⟩ := binary_ne hc
    refine ⟨fun o => decide (qlxpri c < qlxpril o), fun x =>
      match next plev blev c (open' c x) with
      | .err => .err
      | .fault => .fault
      | .ok s' => run rest s', ?_, rfl, ?_⟩
    · intro o ho
      rw [decide_eq_true_iff, pops (Or.inr hc) ho, lv_of_prec hc]
    · intro st ops h1 h2
      have hl1 : level 22 1 plev c = plev := by simp [level, n6, n1]
      have hl2 : level 23 2 blev c = blev := by simp [level, n7, n2]
      rw [run, if_neg (not_not.2 ⟨h1, h2⟩)]
      simp only [hl1, hl2]
      rw [if_neg (by omega)]
      have hs : sign false c = c := by simp [sign]
      simp only [operator, hs, if_neg n0, hl1, hl2, qlxrpn]
      rw [if_neg (by omega), if_neg n1, if_neg n2]
      rfl
  | paren hpl =>
    refine ⟨inner, fun x =>
      match next (plev - 1) blev 1 (close 22 false x) with
      | .err => .err
      | .fault => .fault
      | .ok s' => run rest s', ?_, rfl, ?_⟩
    · intro o ho; exact inner_iff ho
    · intro st ops h1 h2
      have hl1 : level 22 1 plev 1 = plev - 1 := by simp [level]
      have hl2 : level 23 2 blev 1 = blev := by simp [level]
      rw [run, if_neg (not_not.2 ⟨h1, h2⟩)]
      simp only [hl1, hl2]
      rw [if_neg (by omega)]
      have hs : sign false 1 = 1 := by simp [sign]
      simp only [operator, hs, hl1, hl2, qlxrpn]
      rfl
  | stop =>
    refine ⟨inner, fun x =>
      match close 0 false x with
      | .err => .err
      | .fault => .fault
      | .ok (_, st) => finish st plev blev (.stop :: rest), ?_, rfl, ?_⟩
    · intro o ho; exact inner_iff ho
    · intro st ops h1 h2
      rw [run, if_neg (not_not.2 ⟨h1, h2⟩)]
      simp only [ending, qlxrpn]
      rfl

/-- A closing token applies the operator on the stack that is at least as tight. -/
theorem closer_pop {plev blev : Int} {t : Tok} {r : Nat} (h : Closer plev t r) (hp : 0 ≤ plev) (hb : 0 ≤ blev)
    (rest : List Tok) {o : Nat} {ops : List Nat} {st : List Int} (ho : Valid o) (hr : r ≤ lv o)
    (h1 : st.length < 65) (h2 : ops.length + 1 < 30) :
    (∀ st', qlxopr o st = .ok st' → st'.length < 65 →
      run (t :: rest) ⟨st, o :: ops, plev, blev, false⟩ = run (t :: rest) ⟨st', ops, plev, blev, false⟩) ∧
    (qlxopr o st = .fault → run (t :: rest) ⟨st, o :: ops, plev, blev, false⟩ = .fault) := by
  obtain ⟨p, k, k1, k2, k3⟩ := closer_form h hp hb rest
  have hpo := (k1 o ho).2 hr
  constructor
  · intro st' hq hl
    rw [k3 _ _ h1 (by simpa using h2), k3 _ _ hl (by omega), popWhile_cons hpo hq]
  · intro hq
    rw [k3 _ _ h1 (by simpa using h2), popWhile_fault hpo hq, k2]

/-- The state after an operand. -/
def after (rest : List Tok) (st : List Int) (ops : List Nat) (plev blev : Int) : Option Int → Res (Int × List Tok)
  | some v => run rest ⟨v :: st, ops, plev, blev, false⟩
  | none => .fault

theorem run_expr : ∀ (e : Expr), e.WF → ∀ (st : List Int) (o : Nat) (ops : List Nat) (plev blev : Int) (t : Tok)
    (r : Nat) (rest : List Tok), Valid o → lv o < e.top → 0 ≤ plev → 0 ≤ blev → Closer plev t r → r ≤ e.top →
    st.length + e.nums ≤ 64 → ops.length + 1 + e.marks ≤ 29 →
    run (e.toks ++ t :: rest) ⟨st, o :: ops, plev, blev, true⟩ = after (t :: rest) st (o :: ops) plev blev e.val := by
  intro e
  induction e with
  | num v =>
    intro _ st o ops plev blev t r rest _ _ _ _ _ _ h1 h2
    simp only [Expr.nums, Expr.marks] at h1 h2
    simp only [Expr.toks, List.cons_append, List.nil_append]
    rw [run, if_neg (not_not.2 ⟨by dsimp only; omega, by simp only [List.length_cons]; omega⟩)]
    rfl
  | paren e ih =>
    intro hw st o ops plev blev t r rest ho _ hp hb ht _ h1 h2
    have hne := nums_pos e
    simp only [Expr.nums, Expr.marks] at h1 h2
    simp only [Expr.toks, List.cons_append, List.append_assoc, List.nil_append]
    rw [run, if_neg (not_not.2 ⟨by dsimp only; omega, by simp only [List.length_cons]; omega⟩)]
    have hl1 : level 22 1 plev 22 = plev + 1 := by simp [level]
    have hl2 : level 23 2 blev 22 = blev := by simp [level]
    simp only [hl1, hl2]
    rw [if_neg (by omega)]
    have hop : operator ⟨st, o :: ops, plev, blev, true⟩ 22 = .ok ⟨st, 22 :: o :: ops, plev + 1, blev, true⟩ := by
      simp [operator, sign, hl1, hl2, qlxrpn, next]
    rw [hop]
    dsimp only
    have hpos : lv 22 < e.top := by
      have : lv 22 = 0 := by decide
      rw [this]
      cases e with
      | bin c a b => exact hw.1
      | num v => simp [Expr.top]
      | paren e => simp [Expr.top]
      | neg e => simp [Expr.top]
    rw [ih hw st 22 (o :: ops) (plev + 1) blev (.op 1) 1 (t :: rest) (Or.inr (Or.inl rfl)) hpos (by omega) hb
      (Closer.paren (by omega)) (by
        have : lv 22 = 0 := by decide
        omega) h1 (by simp only [List.length_cons]; omega)]
    rw [Expr.val]
    cases e.val with
    | none => rfl
    | some v =>
      simp only [after]
      rw [run, if_neg (not_not.2 ⟨by simp only [List.length_cons]; omega, by simp only [List.length_cons]; omega⟩)]
      have hl3 : level 22 1 (plev + 1) 1 = plev := by simp [level]
      have hl4 : level 23 2 blev 1 = blev := by simp [level]
      simp only [hl3, hl4]
      rw [if_neg (by omega)]
      have hop2 : operator ⟨v :: st, 22 :: o :: ops, plev + 1, blev, false⟩ 1 =
          .ok ⟨v :: st, o :: ops, plev, blev, false⟩ := by
        simp [operator, sign, hl3, hl4, qlxrpn, popWhile, inner, close, next]
      rw [hop2]
  | neg e ih =>
    intro hw st o ops plev blev t r rest ho hlo hp hb ht hr h1 h2
    have hne := nums_pos e
    simp only [Expr.nums, Expr.marks] at h1 h2
    simp only [Expr.top] at hlo hr
    simp only [Expr.toks, List.cons_append]
    rw [run, if_neg (not_not.2 ⟨by dsimp only; omega, by simp only [List.length_cons]; omega⟩)]
    have hl1 : level 22 1 plev 9 = plev := by simp [level]
    have hl2 : level 23 2 blev 9 = blev := by simp [level]
    simp only [hl1, hl2]
    rw [if_neg (by omega)]
    have hnp : decide (qlxpri 4 < qlxpril o) = false := by
      rw [decide_eq_false_iff_not, pops (Or.inl rfl) ho]
      have : lv 4 = 6 := by decide
      omega
    have hop : operator ⟨st, o :: ops, plev, blev, true⟩ 9 = .ok ⟨st, 4 :: o :: ops, plev, blev, true⟩ := by
      simp [operator, sign, hl1, hl2, qlxrpn, popWhile, hnp, open', next]
    rw [hop]
    dsimp only
    have h46 : lv 4 = 6 := by decide
    have hv4 : Valid 4 := Or.inr (Or.inr (Or.inl rfl))
    rw [ih hw.1 st 4 (o :: ops) plev blev t r rest hv4 (by have := hw.2; omega) hp hb ht (by have := hw.2; omega) h1
      (by simp only [List.length_cons]; omega)]
    rw [Expr.val]
    cases e.val with
    | none => rfl
    | some v =>
      simp only [after]
      obtain ⟨k1, k2⟩ := closer_pop (st := v :: st) (ops := o :: ops) ht hp hb rest hv4 (by omega)
        (by simp only [List.length_cons]; have := nums_pos e; omega) (by simp only [List.length_cons]; omega)
      have hq : qlxopr 4 (v :: st) = push st (res (small (-v))) := by rw [← fit_eq]; rfl
      cases hs : small (-v) with
      | none =>
        rw [hs] at hq
        have : (some v >>= fun a => small (-a)) = none := hs
        rw [k2 hq]
        simp [hs]
      | some w =>
        rw [hs] at hq
        rw [k1 _ hq (by simp only [List.length_cons]; omega)]
        simp [hs]
  | bin c a b iha ihb =>
    intro hw st o ops plev blev t r rest ho hlo hp hb ht hr h1 h2
    obtain ⟨hc, hwa, hwb, hpa, hpb⟩ := hw
    simp only [Expr.nums, Expr.marks] at h1 h2
    simp only [Expr.top] at hlo hr
    simp only [Expr.toks, List.append_assoc, List.cons_append]
    rw [iha hwa st o ops plev blev (.op c) (prec c) (b.toks ++ t :: rest) ho (by omega) hp hb (Closer.op hc) hpa
      (by omega) (by omega)]
    rw [Expr.val]
    cases a.val with
    | none => rfl
    | some x =>
      simp only [after]
      obtain ⟨n0, n1, n2, n3, n4, n5, n6, n7⟩ := binary_ne hc
      have hnb := nums_pos b
      have hna := nums_pos a
      rw [run, if_neg (not_not.2 ⟨by simp only [List.length_cons]; omega, by simp only [List.length_cons]; omega⟩)]
      have hl1 : level 22 1 plev c = plev := by simp [level, n6, n1]
      have hl2 : level 23 2 blev c = blev := by simp [level, n7, n2]
      simp only [hl1, hl2]
      rw [if_neg (by omega)]
      have hnp : decide (qlxpri c < qlxpril o) = false := by
        rw [decide_eq_false_iff_not, pops (Or.inr hc) ho, lv_of_prec hc]
        omega
      have hop : operator ⟨x :: st, o :: ops, plev, blev, false⟩ c =
          .ok ⟨x :: st, c :: o :: ops, plev, blev, true⟩ := by
        simp [operator, sign, hl1, hl2, qlxrpn, popWhile, hnp, open', next, n0, n1, n2, n6, n7]
      rw [hop]
      dsimp only
      have hvc : Valid c := Or.inr (Or.inr (Or.inr hc))
      rw [ihb hwb (x :: st) c (o :: ops) plev blev t r rest hvc (by rw [lv_of_prec hc]; exact hpb) hp hb ht (by omega)
        (by simp only [List.length_cons]; omega) (by simp only [List.length_cons]; omega)]
      cases b.val with
      | none => rfl
      | some y =>
        simp only [after]
        obtain ⟨k1, k2⟩ := closer_pop (st := y :: x :: st) (ops := o :: ops) ht hp hb rest hvc
          (by rw [lv_of_prec hc]; exact hr) (by simp only [List.length_cons]; omega)
          (by simp only [List.length_cons]; omega)
        have hq : qlxopr c (y :: x :: st) = push st (res ((opVal c x y).bind small)) := by
          rw [← arith_eq hc]; simp [qlxopr, n3, n4, n5]
        cases hs : (opVal c x y).bind small with
        | none =>
          rw [hs] at hq
          rw [k2 hq]
          simp [hs]
        | some w =>
          rw [hs] at hq
          rw [k1 _ hq (by simp only [List.length_cons]; omega)]
          simp [hs]

/-- C128: an expression of integers has the value of the usual rules, up to 64 numbers and 28 operators and
parentheses; overflow and division by zero are not caught. -/
theorem C128_partial (e : Expr) (hw : e.WF) (hn : e.nums ≤ 64) (hm : e.marks ≤ 28) (rest : List Tok) :
    qlxxpr (e.toks ++ .stop :: rest) =
      match e.val with
      | some v => .ok (v, .stop :: rest)
      | none => .fault := by
  have hpos : lv 0 < e.top := by
    have : lv 0 = 0 := by decide
    rw [this]
    cases e with
    | bin c a b => exact hw.1
    | num v => simp [Expr.top]
    | paren e => simp [Expr.top]
    | neg e => simp [Expr.top]
  rw [qlxxpr, run_expr e hw [] 0 [] 0 0 .stop 1 rest (Or.inl rfl) hpos le_rfl le_rfl Closer.stop (by
    have : lv 0 = 0 := by decide
    omega) (by simpa using hn) (by simp only [List.length_nil]; omega)]
  cases e.val with
  | none => rfl
  | some v => rfl

/-- `(1 + 2 * 3 - 4)`. -/
def sample : Expr := .paren (.bin 9 (.bin 8 (.num 1) (.bin 6 (.num 2) (.num 3))) (.num 4))

example : sample.WF ∧ sample.nums ≤ 64 ∧ sample.marks ≤ 28 ∧ sample.val = some 3 ∧
    sample.toks = [.op 22, .num 1, .op 8, .num 2, .op 6, .num 3, .op 9, .num 4, .op 1] := by
  refine ⟨?_, ?_, ?_, ?_, ?_⟩
  · simp [sample, Expr.WF, Expr.top, prec]
  all_goals decide

example : qlxxpr (sample.toks ++ [.stop]) = .ok (3, [.stop]) := by decide

/-- What is read of an expression has as many opening as closing parentheses, and brackets. -/
theorem run_balanced {ts : List Tok} : ∀ {s : St}, 0 ≤ s.plev → 0 ≤ s.blev → ∀ {v : Int} {rest : List Tok},
    run ts s = .ok (v, rest) → ∃ used, ts = used ++ rest ∧
      s.plev + (used.count (.op 22) : Int) = used.count (.op 1) ∧ s.blev + (used.count (.op 23) : Int) = used.count (.op 2) := by
  have hfin : ∀ {st : List Int} {p b : Int} {r : List Tok} {v : Int} {rest : List Tok},
      finish st p b r = .ok (v, rest) → p ≤ 0 ∧ b ≤ 0 ∧ r = rest := by
    intro st p b r v rest h
    unfold finish at h
    split_ifs at h with hc
    split at h
    · cases h; exact ⟨by omega, by omega, rfl⟩
    · cases h
  induction ts with
  | nil => intro s _ _ v rest h; simp [run] at h
  | cons t ts ih =>
    intro s hp hb v rest h
    rw [run.eq_def] at h
    simp only at h
    by_cases h0 : ¬ (s.st.length < 65 ∧ s.ops.length < 30)
    · rw [if_pos h0] at h; cases h
    rw [if_neg h0] at h
    cases t with
    | num x =>
      simp only at h
      split_ifs at h with hu
      obtain ⟨used, e, e1, e2⟩ := ih (s := { s with st := x :: s.st, unary := false }) hp hb h
      refine ⟨.num x :: used, by rw [e]; rfl, ?_, ?_⟩
      · rw [List.count_cons_of_ne (by simp), List.count_cons_of_ne (by simp)]; exact e1
      · rw [List.count_cons_of_ne (by simp), List.count_cons_of_ne (by simp)]; exact e2
    | stop =>
      simp only [ending] at h
      split at h
      · cases h
      · cases h
      · obtain ⟨h1, h2, h3⟩ := hfin h
        exact ⟨[], h3, by simp; omega, by simp; omega⟩
    | bad => cases h
    | crash => cases h
    | op c =>
      simp only at h
      split_ifs at h with hl
      · obtain ⟨h1, h2, h3⟩ := hfin h
        refine ⟨[], h3, ?_, ?_⟩
        · unfold level at h1 h2 hl; simp; split_ifs at h1 h2 hl <;> omega
        · unfold level at h1 h2 hl; simp; split_ifs at h1 h2 hl <;> omega
      · cases ho : operator s c with
        | err => rw [ho] at h; cases h
        | fault => rw [ho] at h; cases h
        | ok s' =>
          rw [ho] at h
          have hlev : s'.plev = level 22 1 s.plev c ∧ s'.blev = level 23 2 s.blev c := by
            unfold operator at ho
            split_ifs at ho
            revert ho
            cases qlxrpn (sign s.unary c) s.ops s.st with
            | err => intro ho; cases ho
            | fault => intro ho; cases ho
            | ok r => intro ho; simp only [next, Res.ok.injEq] at ho; rw [← ho]; exact ⟨rfl, rfl⟩
          push Not at hl
          obtain ⟨used, e, e1, e2⟩ := ih (by rw [hlev.1]; exact hl.1) (by rw [hlev.2]; exact hl.2) h
          refine ⟨.op c :: used, by rw [e]; rfl, ?_, ?_⟩
          · rw [hlev.1] at e1
            simp only [List.count_cons, level, beq_iff_eq, Tok.op.injEq] at e1 ⊢
            split_ifs at e1 ⊢ <;> omega
          · rw [hlev.2] at e2
            simp only [List.count_cons, level, beq_iff_eq, Tok.op.injEq] at e2 ⊢
            split_ifs at e2 ⊢ <;> omega

/-- C128: an expression with a parenthesis or bracket that is not closed has no value. -/
theorem C128_balanced {ts : List Tok} {v : Int} {rest : List Tok} (h : qlxxpr ts = .ok (v, rest)) :
    ∃ used, ts = used ++ rest ∧ used.count (.op 22) = used.count (.op 1) ∧ used.count (.op 23) = used.count (.op 2) := by
  obtain ⟨used, e, e1, e2⟩ := run_balanced (s := ⟨[], [0], 0, 0, true⟩) le_rfl le_rfl h
  simp only [zero_add] at e1 e2
  exact ⟨used, e, by omega, by omega⟩

/-- The parenthesis too many is left. -/
example : qlxxpr [.op 22, .num 2, .op 1, .op 1, .stop] = .ok (2, [.op 1, .stop]) ∧ qlxxpr [.op 22, .num 2, .stop] = .err := by
  decide

/-- Powers are taken from left to right, and signs before powers. -/
theorem C128_power_witness : qlxxpr [.op 22, .num 2, .op 5, .num 3, .op 5, .num 2, .op 1, .stop] = .ok (64, [.stop]) ∧
    qlxxpr [.op 22, .op 9, .num 2, .op 5, .num 2, .op 1, .stop] = .ok (4, [.stop]) := by
  constructor <;> decide

/-- A sign `+` at the beginning is an error, and so are `NOT` and a double sign. -/
theorem C128_sign_witness : qlxxpr [.op 22, .op 8, .num 5, .op 1, .stop] = .err ∧
    qlxxpr [.op 22, .num 1, .op 8, .op 8, .num 5, .op 1, .stop] = .ok (6, [.stop]) ∧
    qlxxpr [.op 22, .op 17, .num 5, .op 1, .stop] = .err ∧
    qlxxpr [.op 22, .op 9, .op 9, .num 5, .op 1, .stop] = .err := by
  refine ⟨?_, ?_, ?_, ?_⟩ <;> decide

/-- `NOT` after its operand, and an operator after both of its operands, are accepted. -/
theorem C128_postfix_witness : qlxxpr [.op 22, .num 5, .op 1, .op 17, .stop] = .ok (-6, [.stop]) ∧
    qlxxpr [.op 22, .num 5, .op 1, .op 22, .num 3, .op 1, .op 8, .stop] = .ok (8, [.stop]) := by
  constructor <;> decide

/-- Reals are added as the integers of their bits: 1.0 + 1.0 is 2130706432, the bits of 1.7e38. -/
theorem C128_real_witness :
    qlxxpr [.op 22, .num 0x3F800000, .op 8, .num 0x3F800000, .op 1, .stop] = .ok (2130706432, [.stop]) := by decide

/-- A parenthesis too many leaves the operators waiting. -/
theorem C128_paren_witness :
    qlxxpr [.op 22, .num 1, .op 1, .op 8, .num 2, .op 1, .stop] = .err ∧
      qlxxpr [.op 22, .num 1, .op 1, .op 1, .stop] = .ok (1, [.op 1, .stop]) := by
  constructor <;> decide

/-! ## C129: expressions as text -/

/-- The texts of the operators. -/
def opText : Nat → List Char
  | 1 => [')']
  | 2 => [']']
  | 5 => ['*', '*']
  | 6 => ['*']
  | 7 => ['/']
  | 8 => ['+']
  | 9 => ['-']
  | 10 => ['<']
  | 11 => ['>']
  | 12 => ['=', '=']
  | 13 => ['<', '=']
  | 14 => ['>', '=']
  | 15 => ['<', '>']
  | 16 => ['>', '<']
  | 17 => ['N', 'O', 'T']
  | 18 => ['A', 'N', 'D']
  | 19 => ['O', 'R']
  | 20 => ['X', 'O', 'R']
  | 21 => [':', '=']
  | 22 => ['(']
  | 23 => ['[']
  | _ => []

/-- The character that may not follow an operator directly. -/
def Joins (c : Nat) (d : Char) : Prop :=
  (17 ≤ c ∧ c ≤ 20 ∧ (d.isAlpha = true ∨ d.isDigit = true)) ∨ (c = 6 ∧ d = '*') ∨
    ((c = 10 ∨ c = 11) ∧ (d = '<' ∨ d = '>' ∨ d = '='))

/-- A text with blanks anywhere between tokens; `,` or `$` ends it. -/
inductive Written : List Tok → List Char → Prop
  | done (n : Nat) (s : Char) (h : s = ',' ∨ s = '$') (more : List Char) :
      Written [] (List.replicate n ' ' ++ s :: more)
  | num (n : Nat) (ds : List Nat) (h0 : ds ≠ []) (h1 : ds.length ≤ 20) (h2 : ∀ d ∈ ds, d < 10)
      (h3 : Nat.ofDigits 10 ds.reverse < 2147483648) {ts : List Tok} {cs : List Char} (h : Written ts cs)
      (hs : ∀ d, cs.head? = some d → d.isDigit = false ∧ d ≠ '.' ∧ d ≠ 'E' ∧ d ≠ 'B') :
      Written (.num (Nat.ofDigits 10 ds.reverse : Nat) :: ts)
        (List.replicate n ' ' ++ (ds.map fun d => Char.ofNat (48 + d)) ++ cs)
  | op (n : Nat) (c : Nat) (hc : opText c ≠ []) {ts : List Tok} {cs : List Char} (h : Written ts cs)
      (hs : ∀ d, cs.head? = some d → ¬ Joins c d) :
      Written (.op c :: ts) (List.replicate n ' ' ++ opText c ++ cs)

theorem digit_eq (d : Char) : digit d = d.isDigit := by
  simp only [digit, Char.isDigit, Char.le_def]

theorem letter_eq (d : Char) : letter d = d.isAlpha := by
  simp only [letter, Char.isAlpha, Char.isUpper, Char.isLower, Char.le_def, Bool.decide_and]

theorem skip_blanks (n : Nat) (c : Char) (cs : List Char) (h : c ≠ ' ') :
    (List.replicate n ' ' ++ c :: cs).dropWhile (· == ' ') = c :: cs := by
  induction n with
  | zero => simp [h]
  | succ n ih => rw [List.replicate_succ, List.cons_append, List.dropWhile_cons]; simpa using ih

theorem tokens_cons {real : List Char → Int} {n k : Nat} {c : Char} {cs rest : List Char} {t : Tok} (h : c ≠ ' ')
    (hl : lexFrom real c cs = (t, rest)) (ht : t ≠ .stop) :
    tokens real (n + 1) (List.replicate k ' ' ++ c :: cs) = t :: tokens real n rest := by
  rw [tokens, skip_blanks k c cs h]
  simp only [hl, if_neg ht]

theorem digit_char {d : Nat} (h : d < 10) : digit (Char.ofNat (48 + d)) = true ∧ (Char.ofNat (48 + d)).toNat - 48 = d ∧
    Char.ofNat (48 + d) ≠ ' ' ∧ letter (Char.ofNat (48 + d)) = false ∧ Char.ofNat (48 + d) ≠ '@' ∧
    Char.ofNat (48 + d) ≠ '_' ∧ Char.ofNat (48 + d) ≠ '\'' ∧ Char.ofNat (48 + d) ≠ '"' ∧ Char.ofNat (48 + d) ≠ '.' := by
  have : ∀ d : Fin 10, digit (Char.ofNat (48 + d)) = true ∧ (Char.ofNat (48 + d)).toNat - 48 = d.val ∧
    Char.ofNat (48 + d) ≠ ' ' ∧ letter (Char.ofNat (48 + d)) = false ∧ Char.ofNat (48 + d) ≠ '@' ∧
    Char.ofNat (48 + d) ≠ '_' ∧ Char.ofNat (48 + d) ≠ '\'' ∧ Char.ofNat (48 + d) ≠ '"' ∧ Char.ofNat (48 + d) ≠ '.' := by
    decide
  exact this ⟨d, h⟩

theorem number_eq (ds : List Nat) (h : ∀ d ∈ ds, d < 10) (a : Nat) :
    (ds.map fun d => Char.ofNat (48 + d)).foldl (fun a c => 10 * a + (c.toNat - 48)) a =
      a * 10 ^ ds.length + Nat.ofDigits 10 ds.reverse := by
  induction ds generalizing a with
  | nil => simp
  | cons d ds ih =>
    simp only [List.map_cons, List.foldl_cons, List.reverse_cons, Nat.ofDigits_append, List.length_cons,
      List.length_reverse, Nat.ofDigits_singleton]
    rw [ih (fun x hx => h x (by simp [hx])), (digit_char (h d (by simp))).2.1]
    ring

theorem span_digits (ds : List Nat) (h : ∀ d ∈ ds, d < 10) (cs : List Char)
    (hs : ∀ d, cs.head? = some d → digit d = false) :
    ((ds.map fun d => Char.ofNat (48 + d)) ++ cs).takeWhile digit = (ds.map fun d => Char.ofNat (48 + d)) ∧
      ((ds.map fun d => Char.ofNat (48 + d)) ++ cs).dropWhile digit = cs := by
  induction ds with
  | nil =>
    cases cs with
    | nil => simp
    | cons c cs => simp [List.takeWhile, List.dropWhile, hs c rfl]
  | cons d ds ih =>
    obtain ⟨h1, h2⟩ := ih fun x hx => h x (by simp [hx])
    have := (digit_char (h d (by simp))).1
    simp only [List.map_cons, List.cons_append, List.takeWhile_cons, List.dropWhile_cons, this, if_true, h1, h2,
      true_and]

theorem lex_num (real : List Char → Int) (d : Nat) (ds : List Nat) (h1 : (d :: ds).length ≤ 20)
    (h2 : ∀ x ∈ d :: ds, x < 10) (h3 : Nat.ofDigits 10 (d :: ds).reverse < 2147483648) (cs : List Char)
    (hs : ∀ d, cs.head? = some d → digit d = false ∧ d ≠ '.' ∧ d ≠ 'E' ∧ d ≠ 'B') :
    lexFrom real (Char.ofNat (48 + d)) ((ds.map fun d => Char.ofNat (48 + d)) ++ cs) =
      (.num (Nat.ofDigits 10 (d :: ds).reverse : Nat), cs) := by
  obtain ⟨g1, g2, g3, g4, g5, g6, g7, g8, g9⟩ := digit_char (h2 d (by simp))
  obtain ⟨k1, k2⟩ := span_digits ds (fun x hx => h2 x (by simp [hx])) cs fun d hd => (hs d hd).1
  have hnum : number 10 (Char.ofNat (48 + d) :: ds.map fun d => Char.ofNat (48 + d)) =
      Nat.ofDigits 10 (d :: ds).reverse := by
    have := number_eq (d :: ds) h2 0
    rw [zero_mul, zero_add] at this
    exact this
  have e1 : cs.head? ≠ some '.' := fun h => (hs _ h).2.1 rfl
  have e2 : cs.head? ≠ some 'E' := fun h => (hs _ h).2.2.1 rfl
  have e3 : cs.head? ≠ some 'B' := fun h => (hs _ h).2.2.2 rfl
  have e4 : (Char.ofNat (48 + d) == '.') = false := by simpa using g9
  have hlen : ¬ 21 ≤ (Char.ofNat (48 + d) :: ds.map fun d => Char.ofNat (48 + d)).length := by
    simp only [List.length_cons, List.length_map] at h1 ⊢; omega
  unfold lexFrom
  rw [if_neg (by simp [g4, g5, g6]), if_neg (by simp [g7, g8]), if_pos (by simp [g1])]
  have hf : ¬ (cs.head? = some '.' ∧ True) := fun h => e1 h.1
  simp only [qlxnum, k1, k2, fraction, exponent, e4, if_neg hf, if_neg e2, convert, if_neg hlen, if_true, if_neg e3, hnum,
    if_pos h3]

theorem span_name (cs : List Char) (h : ∀ d, cs.head? = some d → letter d = false ∧ digit d = false) :
    cs.takeWhile (fun d => letter d || digit d) = [] ∧ cs.dropWhile (fun d => letter d || digit d) = cs := by
  cases cs with
  | nil => simp
  | cons c cs =>
    obtain ⟨h1, h2⟩ := h c rfl
    simp [List.takeWhile, List.dropWhile, h1, h2]

theorem lex_op (real : List Char → Int) (c : Nat) (a : Char) (l cs : List Char) (h : opText c = a :: l)
    (hs : ∀ d, cs.head? = some d → ¬ Joins c d) : a ≠ ' ' ∧ lexFrom real a (l ++ cs) = (.op c, cs) := by
  have hname : 17 ≤ c ∧ c ≤ 20 → cs.takeWhile (fun d => letter d || digit d) = [] ∧
      cs.dropWhile (fun d => letter d || digit d) = cs := by
    intro hc
    refine span_name cs fun d hd => ?_
    have := hs d hd
    unfold Joins at this
    constructor
    · by_contra hn; exact this (Or.inl ⟨hc.1, hc.2, Or.inl (by rw [← letter_eq]; simpa using hn)⟩)
    · by_contra hn; exact this (Or.inl ⟨hc.1, hc.2, Or.inr (by rw [← digit_eq]; simpa using hn)⟩)
  have hstar : c = 6 → cs.head? ≠ some '*' := by
    intro hc hd
    exact hs _ hd (Or.inr (Or.inl ⟨hc, rfl⟩))
  have hcmp : c = 10 ∨ c = 11 → ∀ d ds, cs = d :: ds → (d == '<' || d == '>' || d == '=') = false := by
    intro hc d ds hd
    have := hs d (by rw [hd]; rfl)
    unfold Joins at this
    by_contra hn
    refine this (Or.inr (Or.inr ⟨hc, ?_⟩))
    rw [Bool.not_eq_false, Bool.or_eq_true, Bool.or_eq_true, beq_iff_eq, beq_iff_eq, beq_iff_eq, or_assoc] at hn
    exact hn
  unfold opText at h
  split at h
  case h_22 => cases h
  all_goals
    cases h
    refine ⟨by decide, ?_⟩
  all_goals try rfl
  · -- `*`
    have := hstar rfl
    simp only [List.nil_append, lexFrom]
    rw [if_neg (by decide), if_neg (by decide), if_neg (by decide), if_pos (by decide), if_neg this]
    rfl
  · have := hcmp (Or.inl rfl)
    cases cs with
    | nil => rfl
    | cons d ds =>
      simp only [List.nil_append, lexFrom]
      rw [if_neg (by decide), if_neg (by decide), if_neg (by decide), if_neg (by decide), if_pos (by decide),
        if_neg (by simp [this d ds rfl])]
      rfl
  · have := hcmp (Or.inr rfl)
    cases cs with
    | nil => rfl
    | cons d ds =>
      simp only [List.nil_append, lexFrom]
      rw [if_neg (by decide), if_neg (by decide), if_neg (by decide), if_neg (by decide), if_pos (by decide),
        if_neg (by simp [this d ds rfl])]
      rfl
  all_goals
    obtain ⟨k1, k2⟩ := hname ⟨by decide, by decide⟩
    simp only [List.cons_append, List.nil_append, lexFrom]
    rw [if_pos (by decide)]
    simp only [List.takeWhile_cons, List.dropWhile_cons, show (letter 'O' || digit 'O') = true by decide,
      show (letter 'T' || digit 'T') = true by decide, show (letter 'N' || digit 'N') = true by decide,
      show (letter 'D' || digit 'D') = true by decide, show (letter 'R' || digit 'R') = true by decide, if_true, k1, k2]
    rfl

/-- C129: the tokens of a text are those that were written, whatever the blanks. -/
theorem C129_lex (real : List Char → Int) {ts : List Tok} {cs : List Char} (h : Written ts cs) :
    ∀ n, ts.length + 1 ≤ n → tokens real n cs = ts ++ [.stop] := by
  induction h with
  | done k s hs more =>
    intro n hn
    obtain ⟨n, rfl⟩ : ∃ m, n = m + 1 := ⟨n - 1, by omega⟩
    have h1 : s ≠ ' ' := by rcases hs with rfl | rfl <;> decide
    have h2 : (lexFrom real s more).1 = .stop := by rcases hs with rfl | rfl <;> rfl
    rw [tokens, skip_blanks k s more h1]
    simp only [h2, if_true, List.nil_append]
  | num k ds h0 h1 h2 h3 h hs ih =>
    intro n hn
    simp only [List.length_cons] at hn
    obtain ⟨n, rfl⟩ : ∃ m, n = m + 1 := ⟨n - 1, by omega⟩
    cases ds with
    | nil => exact absurd rfl h0
    | cons d ds =>
      have := lex_num real d ds h1 h2 h3 _ (by simpa only [digit_eq] using hs)
      simp only [List.map_cons, List.append_assoc, List.cons_append]
      rw [tokens_cons (digit_char (h2 d (by simp))).2.2.1 this (by simp), ih n (by omega)]
  | op k c hc h hs ih =>
    intro n hn
    simp only [List.length_cons] at hn
    obtain ⟨n, rfl⟩ : ∃ m, n = m + 1 := ⟨n - 1, by omega⟩
    cases ho : opText c with
    | nil => exact absurd ho hc
    | cons a l =>
      obtain ⟨g1, g2⟩ := lex_op real c a l _ ho hs
      simp only [List.append_assoc, List.cons_append]
      rw [tokens_cons g1 g2 (by simp), ih n (by omega)]

theorem written_length {ts : List Tok} {cs : List Char} (h : Written ts cs) : ts.length < cs.length := by
  induction h with
  | done k s hs more => simp
  | num k ds h0 h1 h2 h3 h hs ih =>
    have : 0 < ds.length := List.length_pos_iff.2 h0
    simp only [List.length_append, List.length_cons, List.length_map, List.length_replicate]; omega
  | op k c hc h hs ih =>
    have : 0 < (opText c).length := List.length_pos_iff.2 hc
    simp only [List.length_append, List.length_cons, List.length_replicate]; omega

/-- C129: an expression of integers written as text has its value. -/
theorem C129_partial (real : List Char → Int) (e : Expr) (hw : e.WF) (hn : e.nums ≤ 64) (hm : e.marks ≤ 28)
    {cs : List Char} (h : Written e.toks cs) :
    evaluate real cs = match e.val with
      | some v => .ok v
      | none => .fault := by
  rw [evaluate, C129_lex real h _ (by have := written_length h; omega), C128_partial e hw hn hm []]
  cases e.val <;> rfl

/-- `( 1+2*3 -4)$`. -/
example : Written sample.toks ['(', ' ', '1', '+', '2', '*', '3', ' ', '-', '4', ')', '$'] := by
  refine Written.op 0 22 (by decide) (cs := [' ', '1', '+', '2', '*', '3', ' ', '-', '4', ')', '$']) ?_ (by simp [Joins])
  refine Written.num 1 [1] (by decide) (by decide) (by decide) (by decide) (cs := ['+', '2', '*', '3', ' ', '-', '4', ')', '$']) ?_ (by simp)
  refine Written.op 0 8 (by decide) (cs := ['2', '*', '3', ' ', '-', '4', ')', '$']) ?_ (by simp [Joins])
  refine Written.num 0 [2] (by decide) (by decide) (by decide) (by decide) (cs := ['*', '3', ' ', '-', '4', ')', '$']) ?_ (by simp)
  refine Written.op 0 6 (by decide) (cs := ['3', ' ', '-', '4', ')', '$']) ?_ (by simp [Joins])
  refine Written.num 0 [3] (by decide) (by decide) (by decide) (by decide) (cs := [' ', '-', '4', ')', '$']) ?_ (by simp)
  refine Written.op 1 9 (by decide) (cs := ['4', ')', '$']) ?_ (by simp [Joins])
  refine Written.num 0 [4] (by decide) (by decide) (by decide) (by decide) (cs := [')', '$']) ?_ (by simp)
  refine Written.op 0 1 (by decide) (cs := ['$']) ?_ (by simp [Joins])
  exact Written.done 0 '$' (Or.inr rfl) []

example (real : List Char → Int) : evaluate real "( 1+2*3 -4)$".toList = .ok 3 := by rfl

/-- Reals are added as integers. -/
theorem C129_real_witness (real : List Char → Int) (h : real "1.0".toList = 0x3F800000) :
    evaluate real "(1.0+1.0)$".toList = .ok 2130706432 := by
  have h' : real ['1', '.', '0'] = 0x3F800000 := h
  have ht : tokens real 11 "(1.0+1.0)$".toList =
      [.op 22, .num (real ['1', '.', '0']), .op 8, .num (real ['1', '.', '0']), .op 1, .stop] := rfl
  have hl : "(1.0+1.0)$".toList.length + 1 = 11 := rfl
  rw [evaluate, hl, ht, h', C128_real_witness]

/-- A text in quotes is taken for an operator. -/
theorem C129_quote_witness (real : List Char → Int) : evaluate real "(1'+'2)$".toList = .ok 3 := by rfl

/-- Octal numbers: digits followed by `B`. -/
theorem C129_octal_witness (real : List Char → Int) : evaluate real "(17B)$".toList = .ok 15 ∧
    evaluate real "(18B)$".toList = .err := by constructor <;> rfl

end Verif.Readlx
