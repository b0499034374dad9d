import Verif.Stats
import Mathlib.Tactic

namespace Verif.Stats

/-! # C136, C137, C138: scores -/


/-- Places of a loop with an increment. -/
noncomputable def places (a b : Int) (c : Nat) : Finset Int := (Finset.Icc a b).filter fun i => (c : Int) ∣ i - a

theorem loop_sum (a b : Int) {c : Nat} (hc : 1 ≤ c) (g : Int → ℝ) :
    ((loop a b c).map g).sum = ∑ i ∈ places a b c, g i := by
  have hnd : (loop a b c).Nodup := by
    unfold loop
    refine List.Nodup.map ?_ List.nodup_range
    intro m n h
    have h' : (m : Int) * c = n * c := by simpa using h
    have := mul_right_cancel₀ (show (c : Int) ≠ 0 by omega) h'
    omega
  rw [← List.sum_toFinset g hnd]
  refine Finset.sum_congr ?_ fun _ _ => rfl
  ext i
  simp only [loop, List.mem_toFinset, List.mem_map, List.mem_range, places, Finset.mem_filter, Finset.mem_Icc]
  have hc' : (0 : Int) < c := by omega
  constructor
  · rintro ⟨n, hn, rfl⟩
    have h1 : (n : Int) + 1 ≤ (b + c - a) / c := by omega
    have h2 := (Int.le_ediv_iff_mul_le hc').mp h1
    have h3 : (0 : Int) ≤ n * c := by positivity
    refine ⟨⟨by omega, ?_⟩, ⟨n, by ring⟩⟩
    have : ((n : Int) + 1) * c = n * c + c := by ring
    omega
  · rintro ⟨⟨h1, h2⟩, ⟨k, hk⟩⟩
    have hk0 : 0 ≤ k := by
      by_contra h
      have : (c : Int) * k < 0 := mul_neg_of_pos_of_neg hc' (by omega)
      omega
    refine ⟨k.toNat, ?_, ?_⟩
    · have : k + 1 ≤ (b + c - a) / c := by
        rw [Int.le_ediv_iff_mul_le hc']
        have : (k + 1) * c = c * k + c := by ring
        omega
      omega
    · have : ((k.toNat : Int)) = k := by omega
      rw [this, mul_comm]
      omega

theorem window_sum (i1 j1 i2 j2 : Int) {c : Nat} (hc : 1 ≤ c) (g : Int → Int → ℝ) :
    ((window i1 j1 i2 j2 c).map fun p => g p.1 p.2).sum = ∑ j ∈ places j1 j2 c, ∑ i ∈ places i1 i2 c, g i j := by
  unfold window
  rw [List.map_flatMap]
  have : ∀ l : List Int, (l.flatMap fun j => List.map (fun p : Int × Int => g p.1 p.2) (List.map (fun i => (i, j)) (loop i1 i2 c))).sum =
      (l.map fun j => ∑ i ∈ places i1 i2 c, g i j).sum := by
    intro l
    induction l with
    | nil => rfl
    | cons j l ih =>
      rw [List.flatMap_cons, List.sum_append, ih, List.map_cons, List.sum_cons, List.map_map, ← loop_sum _ _ hc]
      rfl
  rw [this, loop_sum _ _ hc]

theorem mem_window {i1 j1 i2 j2 : Int} {p : Int × Int} (h : p ∈ window i1 j1 i2 j2 1) :
    i1 ≤ p.1 ∧ p.1 ≤ i2 ∧ j1 ≤ p.2 ∧ p.2 ≤ j2 := by
  simp only [window, loop, List.mem_flatMap, List.mem_map, List.mem_range] at h
  obtain ⟨j, ⟨m, hm, rfl⟩, i, ⟨n, hn, rfl⟩, rfl⟩ := h
  simp only
  omega

/-! ## Sums over a list of places -/

section
variable (l : List (Int × Int))

/-- The sum of a quantity over the places. -/
def S (g : Int × Int → ℝ) : ℝ := (l.map g).sum

theorem S_nil (g : Int × Int → ℝ) : S [] g = 0 := rfl

theorem S_cons (p : Int × Int) (g : Int × Int → ℝ) : S (p :: l) g = g p + S l g := by simp [S]

theorem S_nonneg {g : Int × Int → ℝ} (h : ∀ p ∈ l, 0 ≤ g p) : 0 ≤ S l g := by
  unfold S
  refine List.sum_nonneg ?_
  intro x hx
  simp only [List.mem_map] at hx
  obtain ⟨p, hp, rfl⟩ := hx
  exact h p hp

theorem S_le {g h : Int × Int → ℝ} (hl : ∀ p ∈ l, g p ≤ h p) : S l g ≤ S l h := List.sum_le_sum hl

theorem S_dev (w d : Int × Int → ℝ) (b : ℝ) :
    S l (fun p => w p * (d p - b) ^ 2) = S l (fun p => d p * d p * w p) - 2 * b * S l (fun p => d p * w p) + b ^ 2 * S l w := by
  induction l with
  | nil => simp [S]
  | cons p l ih => simp only [S_cons, ih]; ring

theorem S_cov (w d e : Int × Int → ℝ) (a b : ℝ) :
    S l (fun p => w p * (d p - a) * (e p - b)) =
      S l (fun p => w p * e p * d p) - b * S l (fun p => w p * d p) - a * S l (fun p => w p * e p) + a * b * S l w := by
  induction l with
  | nil => simp [S]
  | cons p l ih => simp only [S_cons, ih]; ring

theorem S_quad (w x y : Int × Int → ℝ) (t : ℝ) :
    S l (fun p => w p * (t * x p - y p) ^ 2) =
      S l (fun p => w p * x p * x p) * (t * t) + (-2 * S l (fun p => w p * x p * y p)) * t + S l (fun p => w p * y p * y p) := by
  induction l with
  | nil => simp [S]
  | cons p l ih => simp only [S_cons, ih]; ring

theorem S_cauchy {w : Int × Int → ℝ} (x y : Int × Int → ℝ) (h : ∀ p ∈ l, 0 ≤ w p) :
    S l (fun p => w p * x p * y p) ^ 2 ≤ S l (fun p => w p * x p * x p) * S l (fun p => w p * y p * y p) := by
  have hq : ∀ t, 0 ≤ S l (fun p => w p * x p * x p) * (t * t) + (-2 * S l (fun p => w p * x p * y p)) * t +
      S l (fun p => w p * y p * y p) := by
    intro t
    rw [← S_quad]
    exact S_nonneg l fun p hp => mul_nonneg (h p hp) (sq_nonneg _)
  have := discrim_le_zero hq
  unfold discrim at this
  nlinarith

end

theorem mwerms_fold (f v w : Int → Int → ℝ) (l : List (Int × Int)) (s : ℝ × ℝ × ℝ) :
    l.foldl (fun (s : ℝ × ℝ × ℝ) p =>
      let wij := w p.1 p.2
      let fmv := f p.1 p.2 - v p.1 p.2
      (s.1 + fmv * wij, s.2.1 + fmv * fmv * wij, s.2.2 + wij)) s =
    (s.1 + S l fun p => (f p.1 p.2 - v p.1 p.2) * w p.1 p.2,
      s.2.1 + S l fun p => (f p.1 p.2 - v p.1 p.2) * (f p.1 p.2 - v p.1 p.2) * w p.1 p.2, s.2.2 + S l fun p => w p.1 p.2) := by
  induction l generalizing s with
  | nil => simp [S]
  | cons p l ih =>
    rw [List.foldl_cons, ih]
    simp only [S_cons, Prod.mk.injEq]
    refine ⟨?_, ?_, ?_⟩ <;> ring

theorem bad_false {ni nj iw1 iw2 nw1 nw2 : Int} (h1 : 1 ≤ iw1) (h2 : iw1 ≤ nw1) (h3 : nw1 ≤ ni) (h4 : 1 ≤ iw2)
    (h5 : iw2 ≤ nw2) (h6 : nw2 ≤ nj) : bad ni nj iw1 iw2 nw1 nw2 = false := by
  simp only [bad, Bool.or_eq_false_iff, decide_eq_false_iff_not]
  omega

/-- The sum over the window. -/
noncomputable def total (iw1 iw2 nw1 nw2 : Int) (g : Int → Int → ℝ) : ℝ :=
  ∑ j ∈ Finset.Icc iw2 nw2, ∑ i ∈ Finset.Icc iw1 nw1, g i j

theorem places_one (a b : Int) : places a b 1 = Finset.Icc a b := by
  unfold places
  refine Finset.filter_true_of_mem fun i _ => by simp

theorem S_total (iw1 iw2 nw1 nw2 : Int) (g : Int → Int → ℝ) :
    S (window iw1 iw2 nw1 nw2 1) (fun p => g p.1 p.2) = total iw1 iw2 nw1 nw2 g := by
  rw [S, window_sum _ _ _ _ le_rfl, total, places_one, places_one]

/-- C136: in a window of the field, with weights that are not negative nor all zero, the results are the mean of
the error and the root of the mean square of its deviation from this mean. -/
theorem C136 (f v w : Int → Int → ℝ) {ni nj iw1 iw2 nw1 nw2 : Int} (h1 : 1 ≤ iw1) (h2 : iw1 ≤ nw1) (h3 : nw1 ≤ ni)
    (h4 : 1 ≤ iw2) (h5 : iw2 ≤ nw2) (h6 : nw2 ≤ nj)
    (hw : ∀ i j, iw1 ≤ i → i ≤ nw1 → iw2 ≤ j → j ≤ nw2 → 0 ≤ w i j) (hpos : total iw1 iw2 nw1 nw2 w ≠ 0) :
    ∃ b s, mwerms f v w ni nj iw1 iw2 nw1 nw2 = some (b, s) ∧
      b * total iw1 iw2 nw1 nw2 w = total iw1 iw2 nw1 nw2 (fun i j => w i j * (f i j - v i j)) ∧ 0 ≤ s ∧
      s ^ 2 * total iw1 iw2 nw1 nw2 w = total iw1 iw2 nw1 nw2 (fun i j => w i j * (f i j - v i j - b) ^ 2) := by
  have hb := bad_false h1 h2 h3 h4 h5 h6
  have hS := S_total iw1 iw2 nw1 nw2
  have hx := S_dev (window iw1 iw2 nw1 nw2 1) (fun p => w p.1 p.2) (fun p => f p.1 p.2 - v p.1 p.2)
  have hdev := hS (fun i j => w i j * (f i j - v i j -
    S (window iw1 iw2 nw1 nw2 1) (fun p => (f p.1 p.2 - v p.1 p.2) * w p.1 p.2) / total iw1 iw2 nw1 nw2 w) ^ 2)
  have hmean := hS (fun i j => w i j * (f i j - v i j))
  have hcomm : S (window iw1 iw2 nw1 nw2 1) (fun p => (f p.1 p.2 - v p.1 p.2) * w p.1 p.2) =
      S (window iw1 iw2 nw1 nw2 1) (fun p => w p.1 p.2 * (f p.1 p.2 - v p.1 p.2)) := by
    congr 1; funext p; ring
  have hnn : 0 ≤ total iw1 iw2 nw1 nw2 w := by
    rw [← hS]
    refine S_nonneg _ fun p hp => ?_
    obtain ⟨a1, a2, a3, a4⟩ := mem_window hp
    exact hw _ _ a1 a2 a3 a4
  have hnn2 : 0 ≤ S (window iw1 iw2 nw1 nw2 1) (fun p => w p.1 p.2 * (f p.1 p.2 - v p.1 p.2 -
    S (window iw1 iw2 nw1 nw2 1) (fun p => (f p.1 p.2 - v p.1 p.2) * w p.1 p.2) / total iw1 iw2 nw1 nw2 w) ^ 2) := by
    refine S_nonneg _ fun p hp => ?_
    obtain ⟨a1, a2, a3, a4⟩ := mem_window hp
    exact mul_nonneg (hw _ _ a1 a2 a3 a4) (sq_nonneg _)
  have e : mwerms f v w ni nj iw1 iw2 nw1 nw2 = some
      (S (window iw1 iw2 nw1 nw2 1) (fun p => (f p.1 p.2 - v p.1 p.2) * w p.1 p.2) / total iw1 iw2 nw1 nw2 w,
       √(max 0 (S (window iw1 iw2 nw1 nw2 1) (fun p => (f p.1 p.2 - v p.1 p.2) * (f p.1 p.2 - v p.1 p.2) * w p.1 p.2) /
          total iw1 iw2 nw1 nw2 w -
          S (window iw1 iw2 nw1 nw2 1) (fun p => (f p.1 p.2 - v p.1 p.2) * w p.1 p.2) / total iw1 iw2 nw1 nw2 w *
          (S (window iw1 iw2 nw1 nw2 1) (fun p => (f p.1 p.2 - v p.1 p.2) * w p.1 p.2) / total iw1 iw2 nw1 nw2 w)))) := by
    rw [mwerms, hb, if_neg (by simp), if_neg (by omega), mwerms_fold]
    simp only [zero_add, hS, if_neg hpos]
  refine ⟨_, _, e, ?_, Real.sqrt_nonneg _, ?_⟩
  · rw [← hmean, hcomm]
    field_simp
  · rw [← hdev]
    have hx' := hx (S (window iw1 iw2 nw1 nw2 1) (fun p => (f p.1 p.2 - v p.1 p.2) * w p.1 p.2) / total iw1 iw2 nw1 nw2 w)
    simp only [hS w] at hx'
    rw [hx'] at hnn2 ⊢
    generalize S (window iw1 iw2 nw1 nw2 1) (fun p => (f p.1 p.2 - v p.1 p.2) * w p.1 p.2) = x at *
    generalize S (window iw1 iw2 nw1 nw2 1) (fun p => (f p.1 p.2 - v p.1 p.2) * (f p.1 p.2 - v p.1 p.2) * w p.1 p.2) = y at *
    generalize total iw1 iw2 nw1 nw2 w = t at *
    have htp : 0 < t := lt_of_le_of_ne hnn (Ne.symm hpos)
    have hk : y / t - x / t * (x / t) = (y - 2 * (x / t) * x + (x / t) ^ 2 * t) / t := by field_simp; ring
    rw [hk, max_eq_right (div_nonneg hnn2 hnn), Real.sq_sqrt (div_nonneg hnn2 hnn), div_mul_cancel₀ _ hpos]

/-- Two points with the errors 1 and 3. -/
example : total 1 1 2 1 (fun _ _ => (1 : ℝ)) ≠ 0 ∧ total 1 1 2 1 (fun i _ => (1 : ℝ) * ((2 * i - 1 : ℝ) - 0)) = 4 := by
  have : Finset.Icc (1 : Int) 2 = {1, 2} := by decide
  simp only [total, this]
  norm_num

/-- C136: windows that exceed the arrays on the right or above are refused. -/
theorem C136_refused (f v w : Int → Int → ℝ) {ni nj iw1 iw2 nw1 nw2 : Int} (h : ni < nw1 ∨ nj < nw2 ∨ nw1 < iw1 ∨ nw2 < iw2) :
    mwerms f v w ni nj iw1 iw2 nw1 nw2 = some (99999, 99999) := by
  rw [mwerms, if_pos]
  · rfl
  · simp only [bad, Bool.or_eq_true, decide_eq_true_eq]
    omega

/-- Windows that begin before the arrays are not. -/
theorem C136_window_witness (f v w : Int → Int → ℝ) : mwerms f v w 5 5 0 1 3 3 = none := by
  rw [mwerms, if_neg (by decide), if_pos (by decide)]

/-! ## C137 -/

theorem corcof_fold (fi ff fv w : Int → Int → ℝ) (l : List (Int × Int)) (s : ℝ × ℝ × ℝ × ℝ × ℝ × ℝ) :
    l.foldl (fun (s : ℝ × ℝ × ℝ × ℝ × ℝ × ℝ) p =>
      let ffi := fi p.1 p.2
      let da := fv p.1 p.2 - ffi
      let df := ff p.1 p.2 - ffi
      let dw := w p.1 p.2
      let x := dw * da
      let y := dw * df
      (s.1 + dw, s.2.1 + x * df, s.2.2.1 + y * df, s.2.2.2.1 + x * da, s.2.2.2.2.1 + y, s.2.2.2.2.2 + x)) s =
    (s.1 + S l fun p => w p.1 p.2,
      s.2.1 + S l fun p => w p.1 p.2 * (fv p.1 p.2 - fi p.1 p.2) * (ff p.1 p.2 - fi p.1 p.2),
      s.2.2.1 + S l fun p => w p.1 p.2 * (ff p.1 p.2 - fi p.1 p.2) * (ff p.1 p.2 - fi p.1 p.2),
      s.2.2.2.1 + S l fun p => w p.1 p.2 * (fv p.1 p.2 - fi p.1 p.2) * (fv p.1 p.2 - fi p.1 p.2),
      s.2.2.2.2.1 + S l fun p => w p.1 p.2 * (ff p.1 p.2 - fi p.1 p.2),
      s.2.2.2.2.2 + S l fun p => w p.1 p.2 * (fv p.1 p.2 - fi p.1 p.2)) := by
  induction l generalizing s with
  | nil => simp [S]
  | cons p l ih =>
    rw [List.foldl_cons, ih]
    simp only [S_cons, Prod.mk.injEq]
    refine ⟨?_, ?_, ?_, ?_, ?_, ?_⟩ <;> ring

/-- The mean of a quantity over the window. -/
noncomputable def mean (iw1 iw2 nw1 nw2 : Int) (w g : Int → Int → ℝ) : ℝ :=
  total iw1 iw2 nw1 nw2 (fun i j => w i j * g i j) / total iw1 iw2 nw1 nw2 w

/-- The sum of the products of the deviations from the means. -/
noncomputable def covar (iw1 iw2 nw1 nw2 : Int) (w g h : Int → Int → ℝ) : ℝ :=
  total iw1 iw2 nw1 nw2 fun i j => w i j * (g i j - mean iw1 iw2 nw1 nw2 w g) * (h i j - mean iw1 iw2 nw1 nw2 w h)

theorem covar_eq (iw1 iw2 nw1 nw2 : Int) (w g h : Int → Int → ℝ) (hpos : total iw1 iw2 nw1 nw2 w ≠ 0) :
    covar iw1 iw2 nw1 nw2 w g h = total iw1 iw2 nw1 nw2 w * (total iw1 iw2 nw1 nw2 (fun i j => w i j * h i j * g i j) / total iw1 iw2 nw1 nw2 w -
      mean iw1 iw2 nw1 nw2 w g * mean iw1 iw2 nw1 nw2 w h) := by
  have hS := S_total iw1 iw2 nw1 nw2
  unfold covar
  rw [← S_total, S_cov (window iw1 iw2 nw1 nw2 1) (fun p => w p.1 p.2) (fun p => g p.1 p.2) (fun p => h p.1 p.2)]
  have e1 := hS (fun i j => w i j * h i j * g i j)
  have e2 := hS (fun i j => w i j * g i j)
  have e3 := hS (fun i j => w i j * h i j)
  rw [e1, e2, e3, hS w]
  unfold mean
  field_simp
  ring

/-- C137: the result is the correlation of the actual and the predicted change, and is between -1 and 1. -/
theorem C137 (fi ff fv w : Int → Int → ℝ) {ni nj iw1 iw2 nw1 nw2 : Int} (h1 : 1 ≤ iw1) (h2 : iw1 ≤ nw1) (h3 : nw1 ≤ ni)
    (h4 : 1 ≤ iw2) (h5 : iw2 ≤ nw2) (h6 : nw2 ≤ nj)
    (hw : ∀ i j, iw1 ≤ i → i ≤ nw1 → iw2 ≤ j → j ≤ nw2 → 0 ≤ w i j) (hpos : total iw1 iw2 nw1 nw2 w ≠ 0)
    (hf : covar iw1 iw2 nw1 nw2 w (fun i j => ff i j - fi i j) (fun i j => ff i j - fi i j) ≠ 0)
    (ha : covar iw1 iw2 nw1 nw2 w (fun i j => fv i j - fi i j) (fun i j => fv i j - fi i j) ≠ 0) :
    ∃ c, corcof fi ff fv w ni nj iw1 iw2 nw1 nw2 = some c ∧ |c| ≤ 1 ∧
      c * √(covar iw1 iw2 nw1 nw2 w (fun i j => ff i j - fi i j) (fun i j => ff i j - fi i j) *
          covar iw1 iw2 nw1 nw2 w (fun i j => fv i j - fi i j) (fun i j => fv i j - fi i j)) =
        covar iw1 iw2 nw1 nw2 w (fun i j => ff i j - fi i j) (fun i j => fv i j - fi i j) := by
  have hS := S_total iw1 iw2 nw1 nw2
  have hb := bad_false h1 h2 h3 h4 h5 h6
  have hwl : ∀ p ∈ window iw1 iw2 nw1 nw2 1, 0 ≤ w p.1 p.2 := fun p hp => by
    obtain ⟨a1, a2, a3, a4⟩ := mem_window hp
    exact hw _ _ a1 a2 a3 a4
  have hcs : covar iw1 iw2 nw1 nw2 w (fun i j => ff i j - fi i j) (fun i j => fv i j - fi i j) ^ 2 ≤
      covar iw1 iw2 nw1 nw2 w (fun i j => ff i j - fi i j) (fun i j => ff i j - fi i j) *
      covar iw1 iw2 nw1 nw2 w (fun i j => fv i j - fi i j) (fun i j => fv i j - fi i j) := by
    unfold covar
    rw [← S_total, ← S_total, ← S_total]
    exact S_cauchy (w := fun p => w p.1 p.2) _ (fun p => ff p.1 p.2 - fi p.1 p.2 - mean iw1 iw2 nw1 nw2 w fun i j => ff i j - fi i j)
      (fun p => fv p.1 p.2 - fi p.1 p.2 - mean iw1 iw2 nw1 nw2 w fun i j => fv i j - fi i j) hwl
  have hvar : ∀ g : Int → Int → ℝ, 0 ≤ covar iw1 iw2 nw1 nw2 w g g := by
    intro g
    unfold covar
    rw [← S_total]
    refine S_nonneg _ fun p hp => ?_
    rw [mul_assoc]
    exact mul_nonneg (hwl p hp) (mul_self_nonneg _)
  have hnn : 0 ≤ total iw1 iw2 nw1 nw2 w := by rw [← hS]; exact S_nonneg _ hwl
  have hff := hvar (fun i j => ff i j - fi i j)
  have hfa := hvar (fun i j => fv i j - fi i j)
  rw [covar_eq _ _ _ _ _ _ _ hpos] at hcs hf ha hff hfa ⊢
  rw [covar_eq _ _ _ _ _ _ _ hpos] at hcs ⊢
  rw [covar_eq _ _ _ _ _ _ _ hpos] at hcs ⊢
  have s1 := hS (fun i j => w i j * (fv i j - fi i j) * (ff i j - fi i j))
  have s2 := hS (fun i j => w i j * (ff i j - fi i j) * (ff i j - fi i j))
  have s3 := hS (fun i j => w i j * (fv i j - fi i j) * (fv i j - fi i j))
  have s4 := hS (fun i j => w i j * (ff i j - fi i j))
  have s5 := hS (fun i j => w i j * (fv i j - fi i j))
  rw [corcof, hb, if_neg (by simp), if_neg (by omega), corcof_fold]
  simp only [zero_add, s1, s2, s3, s4, s5, hS w, if_neg hpos]
  simp only [mean] at *
  generalize total iw1 iw2 nw1 nw2 (fun i j => w i j * (fv i j - fi i j) * (ff i j - fi i j)) = r1 at *
  generalize total iw1 iw2 nw1 nw2 (fun i j => w i j * (ff i j - fi i j) * (ff i j - fi i j)) = r2 at *
  generalize total iw1 iw2 nw1 nw2 (fun i j => w i j * (fv i j - fi i j) * (fv i j - fi i j)) = r3 at *
  generalize total iw1 iw2 nw1 nw2 (fun i j => w i j * (ff i j - fi i j)) = r4 at *
  generalize total iw1 iw2 nw1 nw2 (fun i j => w i j * (fv i j - fi i j)) = r5 at *
  generalize total iw1 iw2 nw1 nw2 w = t at *
  have htp : 0 < t := lt_of_le_of_ne hnn (Ne.symm hpos)
  generalize r1 / t - r4 / t * (r5 / t) = a at *
  generalize r2 / t - r4 / t * (r4 / t) = b at *
  generalize r3 / t - r5 / t * (r5 / t) = c at *
  have hb0 : b ≠ 0 := fun h => hf (by rw [h, mul_zero])
  have hc0 : c ≠ 0 := fun h => ha (by rw [h, mul_zero])
  have hbp : 0 < b := lt_of_le_of_ne (nonneg_of_mul_nonneg_right hff htp) (Ne.symm hb0)
  have hcp : 0 < c := lt_of_le_of_ne (nonneg_of_mul_nonneg_right hfa htp) (Ne.symm hc0)
  have hbc := mul_pos hbp hcp
  rw [if_neg (by rintro (h | h); exacts [hb0 h, hc0 h]), if_neg (by linarith)]
  refine ⟨_, rfl, ?_, ?_⟩
  · rw [abs_div, abs_of_nonneg (Real.sqrt_nonneg _), div_le_one (Real.sqrt_pos.mpr hbc)]
    refine Real.abs_le_sqrt ?_
    have : t ^ 2 * a ^ 2 ≤ t ^ 2 * (b * c) := by nlinarith
    exact le_of_mul_le_mul_left this (by positivity)
  · have : √(t * b * (t * c)) = t * √(b * c) := by
      rw [show t * b * (t * c) = t ^ 2 * (b * c) by ring, Real.sqrt_mul (by positivity), Real.sqrt_sq htp.le]
    rw [this]
    have := (Real.sqrt_pos.mpr hbc).ne'
    field_simp

/-- Two points: the changes 1, 3 were predicted as 2, 3. -/
example : covar 1 1 2 1 (fun _ _ => (1 : ℝ)) (fun i _ => (2 * i - 1 : ℝ) - 0) (fun i _ => (i + 1 : ℝ) - 0) = 1 ∧
    covar 1 1 2 1 (fun _ _ => (1 : ℝ)) (fun i _ => (2 * i - 1 : ℝ) - 0) (fun i _ => (2 * i - 1 : ℝ) - 0) = 2 := by
  have : Finset.Icc (1 : Int) 2 = {1, 2} := by decide
  simp only [covar, mean, total, this]
  norm_num

/-- C137: if one of the changes is the same everywhere there is no score. -/
theorem C137_missing (fi ff fv w : Int → Int → ℝ) {ni nj iw1 iw2 nw1 nw2 : Int} (h1 : 1 ≤ iw1) (h2 : iw1 ≤ nw1) (h3 : nw1 ≤ ni)
    (h4 : 1 ≤ iw2) (h5 : iw2 ≤ nw2) (h6 : nw2 ≤ nj) (hpos : total iw1 iw2 nw1 nw2 w ≠ 0)
    (hf : covar iw1 iw2 nw1 nw2 w (fun i j => ff i j - fi i j) (fun i j => ff i j - fi i j) = 0 ∨
      covar iw1 iw2 nw1 nw2 w (fun i j => fv i j - fi i j) (fun i j => fv i j - fi i j) = 0) :
    corcof fi ff fv w ni nj iw1 iw2 nw1 nw2 = some 99999 := by
  have hS := S_total iw1 iw2 nw1 nw2
  have hb := bad_false h1 h2 h3 h4 h5 h6
  rw [covar_eq _ _ _ _ _ _ _ hpos, covar_eq _ _ _ _ _ _ _ hpos] at hf
  have s1 := hS (fun i j => w i j * (fv i j - fi i j) * (ff i j - fi i j))
  have s2 := hS (fun i j => w i j * (ff i j - fi i j) * (ff i j - fi i j))
  have s3 := hS (fun i j => w i j * (fv i j - fi i j) * (fv i j - fi i j))
  have s4 := hS (fun i j => w i j * (ff i j - fi i j))
  have s5 := hS (fun i j => w i j * (fv i j - fi i j))
  rw [corcof, hb, if_neg (by simp), if_neg (by omega), corcof_fold]
  simp only [zero_add, s1, s2, s3, s4, s5, hS w, if_neg hpos]
  simp only [mean, mul_eq_zero, hpos, false_or] at hf
  rw [if_pos hf]
  rfl

/-! ## C138 -/

theorem s1_fold (f v : Int → Int → ℝ) (l : List (Int × Int)) (s : ℝ × ℝ) :
    l.foldl (fun (s : ℝ × ℝ) p =>
      let vij := v p.1 p.2
      let fij := f p.1 p.2
      let fi1j := f (p.1 + 1) p.2
      let vi1j := v (p.1 + 1) p.2
      let fij1 := f p.1 (p.2 + 1)
      let vij1 := v p.1 (p.2 + 1)
      (s.1 + |fij - fi1j - vij + vi1j| + |fij - fij1 - vij + vij1|,
        s.2 + max |fij - fi1j| |vij - vi1j| + max |fij - fij1| |vij - vij1|)) s =
    (s.1 + S l (fun p => |f p.1 p.2 - f (p.1 + 1) p.2 - v p.1 p.2 + v (p.1 + 1) p.2| +
        |f p.1 p.2 - f p.1 (p.2 + 1) - v p.1 p.2 + v p.1 (p.2 + 1)|),
      s.2 + S l (fun p => max |f p.1 p.2 - f (p.1 + 1) p.2| |v p.1 p.2 - v (p.1 + 1) p.2| +
        max |f p.1 p.2 - f p.1 (p.2 + 1)| |v p.1 p.2 - v p.1 (p.2 + 1)|)) := by
  induction l generalizing s with
  | nil => simp [S]
  | cons p l ih =>
    rw [List.foldl_cons, ih]
    simp only [S_cons, Prod.mk.injEq]
    refine ⟨?_, ?_⟩ <;> ring

/-- The difference of a field from a point to the next in x and in y. -/
def dx (g : Int → Int → ℝ) (i j : Int) : ℝ := g (i + 1) j - g i j
def dy (g : Int → Int → ℝ) (i j : Int) : ℝ := g i (j + 1) - g i j

theorem two_max (a b c d : ℝ) : |a - b - c + d| ≤ 2 * max |a - b| |c - d| := by
  have h1 : |a - b - c + d| ≤ |a - b| + |c - d| := by
    rw [show a - b - c + d = (a - b) - (c - d) by ring]
    exact abs_sub _ _
  have h2 := le_max_left |a - b| |c - d|
  have h3 := le_max_right |a - b| |c - d|
  linarith

/-- C138: the score is 100 times the ratio of the sum of the errors of the gradients and the sum of the larger
gradients, at every point or every second; it is from 0 to 200. -/
theorem C138 (f v : Int → Int → ℝ) {ni nj iw1 iw2 nw1 nw2 : Int} {igl : Nat} (hg : igl = 1 ∨ igl = 2) (h1 : 1 ≤ iw1)
    (h2 : iw1 + igl ≤ nw1) (h3 : nw1 ≤ ni) (h4 : 1 ≤ iw2) (h5 : iw2 + igl ≤ nw2) (h6 : nw2 ≤ nj)
    (hpos : ∑ j ∈ places iw2 (nw2 - igl) igl, ∑ i ∈ places iw1 (nw1 - igl) igl,
      (max |dx f i j| |dx v i j| + max |dy f i j| |dy v i j|) ≠ 0) :
    ∃ s, s1scor f v ni nj iw1 iw2 nw1 nw2 igl = some s ∧ 0 ≤ s ∧ s ≤ 200 ∧
      s * (∑ j ∈ places iw2 (nw2 - igl) igl, ∑ i ∈ places iw1 (nw1 - igl) igl,
        (max |dx f i j| |dx v i j| + max |dy f i j| |dy v i j|)) =
      100 * ∑ j ∈ places iw2 (nw2 - igl) igl, ∑ i ∈ places iw1 (nw1 - igl) igl,
        (|dx f i j - dx v i j| + |dy f i j - dy v i j|) := by
  have hc : 1 ≤ igl := by omega
  have hb := bad_false (ni := ni) (nj := nj) h1 (show iw1 ≤ nw1 by omega) h3 h4 (show iw2 ≤ nw2 by omega) h6
  have hW := fun g => window_sum iw1 iw2 (nw1 - igl) (nw2 - igl) hc g
  rw [← hW] at hpos ⊢
  rw [← hW]
  have e1 : ((window iw1 iw2 (nw1 - igl) (nw2 - igl) igl).map fun p =>
      (max |dx f p.1 p.2| |dx v p.1 p.2| + max |dy f p.1 p.2| |dy v p.1 p.2|)).sum =
      S (window iw1 iw2 (nw1 - igl) (nw2 - igl) igl) (fun p => max |f p.1 p.2 - f (p.1 + 1) p.2| |v p.1 p.2 - v (p.1 + 1) p.2| +
        max |f p.1 p.2 - f p.1 (p.2 + 1)| |v p.1 p.2 - v p.1 (p.2 + 1)|) := by
    unfold S
    congr 2
    funext p
    simp only [dx, dy]
    rw [abs_sub_comm (f (p.1 + 1) p.2), abs_sub_comm (v (p.1 + 1) p.2), abs_sub_comm (f p.1 (p.2 + 1)), abs_sub_comm (v p.1 (p.2 + 1))]
  have e2 : ((window iw1 iw2 (nw1 - igl) (nw2 - igl) igl).map fun p =>
      (|dx f p.1 p.2 - dx v p.1 p.2| + |dy f p.1 p.2 - dy v p.1 p.2|)).sum =
      S (window iw1 iw2 (nw1 - igl) (nw2 - igl) igl) (fun p => |f p.1 p.2 - f (p.1 + 1) p.2 - v p.1 p.2 + v (p.1 + 1) p.2| +
        |f p.1 p.2 - f p.1 (p.2 + 1) - v p.1 p.2 + v p.1 (p.2 + 1)|) := by
    unfold S
    congr 2
    funext p
    simp only [dx, dy]
    congr 1
    · rw [← abs_neg]; congr 1; ring
    · rw [← abs_neg]; congr 1; ring
  rw [e1] at hpos ⊢
  rw [e2]
  have e : s1scor f v ni nj iw1 iw2 nw1 nw2 igl = some
      (S (window iw1 iw2 (nw1 - igl) (nw2 - igl) igl) (fun p => |f p.1 p.2 - f (p.1 + 1) p.2 - v p.1 p.2 + v (p.1 + 1) p.2| +
        |f p.1 p.2 - f p.1 (p.2 + 1) - v p.1 p.2 + v p.1 (p.2 + 1)|) /
       S (window iw1 iw2 (nw1 - igl) (nw2 - igl) igl) (fun p => max |f p.1 p.2 - f (p.1 + 1) p.2| |v p.1 p.2 - v (p.1 + 1) p.2| +
        max |f p.1 p.2 - f p.1 (p.2 + 1)| |v p.1 p.2 - v p.1 (p.2 + 1)|) * 100) := by
    rw [s1scor, if_neg (by omega), if_neg (by omega), hb, if_neg (by simp), if_neg (by omega), s1_fold]
    simp only [zero_add, Int.toNat_natCast]
    rw [if_pos hpos]
  refine ⟨_, e, ?_⟩
  have hA : 0 ≤ S (window iw1 iw2 (nw1 - igl) (nw2 - igl) igl) (fun p => |f p.1 p.2 - f (p.1 + 1) p.2 - v p.1 p.2 + v (p.1 + 1) p.2| +
        |f p.1 p.2 - f p.1 (p.2 + 1) - v p.1 p.2 + v p.1 (p.2 + 1)|) := S_nonneg _ fun p _ => by positivity
  have hB : 0 ≤ S (window iw1 iw2 (nw1 - igl) (nw2 - igl) igl) (fun p => max |f p.1 p.2 - f (p.1 + 1) p.2| |v p.1 p.2 - v (p.1 + 1) p.2| +
        max |f p.1 p.2 - f p.1 (p.2 + 1)| |v p.1 p.2 - v p.1 (p.2 + 1)|) :=
    S_nonneg _ fun p _ => add_nonneg (le_max_of_le_left (abs_nonneg _)) (le_max_of_le_left (abs_nonneg _))
  have hAB : S (window iw1 iw2 (nw1 - igl) (nw2 - igl) igl) (fun p => |f p.1 p.2 - f (p.1 + 1) p.2 - v p.1 p.2 + v (p.1 + 1) p.2| +
        |f p.1 p.2 - f p.1 (p.2 + 1) - v p.1 p.2 + v p.1 (p.2 + 1)|) ≤ 2 *
      S (window iw1 iw2 (nw1 - igl) (nw2 - igl) igl) (fun p => max |f p.1 p.2 - f (p.1 + 1) p.2| |v p.1 p.2 - v (p.1 + 1) p.2| +
        max |f p.1 p.2 - f p.1 (p.2 + 1)| |v p.1 p.2 - v p.1 (p.2 + 1)|) := by
    have : ∀ (l : List (Int × Int)) (g : Int × Int → ℝ), 2 * S l g = S l fun p => 2 * g p := by
      intro l g
      induction l with
      | nil => simp [S]
      | cons p l ih => rw [S_cons, S_cons, mul_add, ih]
    rw [this]
    refine S_le _ fun p _ => ?_
    have a1 := two_max (f p.1 p.2) (f (p.1 + 1) p.2) (v p.1 p.2) (v (p.1 + 1) p.2)
    have a2 := two_max (f p.1 p.2) (f p.1 (p.2 + 1)) (v p.1 p.2) (v p.1 (p.2 + 1))
    linarith
  generalize S (window iw1 iw2 (nw1 - igl) (nw2 - igl) igl) (fun p => |f p.1 p.2 - f (p.1 + 1) p.2 - v p.1 p.2 + v (p.1 + 1) p.2| +
        |f p.1 p.2 - f p.1 (p.2 + 1) - v p.1 p.2 + v p.1 (p.2 + 1)|) = A at *
  generalize S (window iw1 iw2 (nw1 - igl) (nw2 - igl) igl) (fun p => max |f p.1 p.2 - f (p.1 + 1) p.2| |v p.1 p.2 - v (p.1 + 1) p.2| +
        max |f p.1 p.2 - f p.1 (p.2 + 1)| |v p.1 p.2 - v p.1 (p.2 + 1)|) = B at *
  have hBp : 0 < B := lt_of_le_of_ne hB (Ne.symm hpos)
  refine ⟨by positivity, ?_, ?_⟩
  · have : A / B ≤ 2 := by rw [div_le_iff₀ hBp]; exact hAB
    linarith
  · field_simp

/-- The gradient of one field is the double of that of the other. -/
example : (∑ j ∈ places 1 (2 - 1) 1, ∑ i ∈ places 1 (2 - 1) 1, (max |dx (fun i _ => 2 * (i : ℝ)) i j| |dx (fun i _ => (i : ℝ)) i j| +
    max |dy (fun i _ => 2 * (i : ℝ)) i j| |dy (fun i _ => (i : ℝ)) i j|)) = 2 := by
  have : places 1 (2 - 1) 1 = {1} := by decide
  simp only [this, Finset.sum_singleton, dx, dy]
  norm_num

end Verif.Stats
