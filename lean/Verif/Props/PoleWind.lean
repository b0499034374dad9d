import Verif.PoleWind
import Mathlib.Tactic

namespace Verif.PoleWind

/-! # C166: the wind at a pole -/

theorem acc_sum (f : Nat → ℝ) (n : Nat) : acc f n = ∑ i ∈ Finset.Icc 1 n, f i := by
  induction n with
  | zero => simp [acc]
  | succ n ih => rw [acc, ih, Finset.sum_Icc_succ_top (by omega)]

/-- The wind with the components `u` to the east and `v` to the north at longitude `x`, as a vector of the plane of the pole, in which
the east is `i·exp(i·x)` and the north, towards the pole, is `-exp(i·x)`. -/
noncomputable def polar (u v x : ℝ) : ℂ := u * (Complex.I * Complex.exp (x * Complex.I)) + v * (-Complex.exp (x * Complex.I))

theorem polar_re (u v x : ℝ) : (polar u v x).re = -Real.sin x * u - Real.cos x * v := by
  rw [polar, Complex.exp_mul_I, ← Complex.ofReal_cos, ← Complex.ofReal_sin]
  simp [-Complex.ofReal_cos, -Complex.ofReal_sin]
  ring

theorem polar_im (u v x : ℝ) : (polar u v x).im = Real.cos x * u + -Real.sin x * v := by
  rw [polar, Complex.exp_mul_I, ← Complex.ofReal_cos, ← Complex.ofReal_sin]
  simp [-Complex.ofReal_cos, -Complex.ofReal_sin]
  ring

/-- The mean of a row as a vector of the plane of the pole. -/
noncomputable def mean (u v : Nat → Nat → ℝ) (li j : Nat) (d : ℝ) : ℂ :=
  (∑ i ∈ Finset.Icc 1 li, polar (u i j) (v i j) (((i : ℝ) - 1) * d * (Real.pi / 180))) / li

theorem pole_parts (u v : Nat → Nat → ℝ) (li j1 j2 : Nat) (d : ℝ) (h : 0 < li) (P Q : ℂ)
    (h1 : mean u v li j1 d = P + Q / 4) (h2 : mean u v li j2 d = P + 9 * Q / 4) :
    polin (acc (ui d (fun i => u i j1) (fun i => v i j1)) li) (acc (ui d (fun i => u i j2) (fun i => v i j2)) li) li = P.re ∧
    polin (acc (vi d (fun i => u i j1) (fun i => v i j1)) li) (acc (vi d (fun i => u i j2) (fun i => v i j2)) li) li = P.im := by
  have hl : (li : ℝ) ≠ 0 := by positivity
  have hc : (li : ℂ) ≠ 0 := by exact_mod_cast hl
  have key : ∀ j, (∑ i ∈ Finset.Icc 1 li, polar (u i j) (v i j) (((i : ℝ) - 1) * d * (Real.pi / 180))) = (li : ℝ) * mean u v li j d := by
    intro j; rw [mean, Complex.ofReal_natCast, mul_div_cancel₀ _ hc]
  have re : ∀ j, acc (ui d (fun i => u i j) (fun i => v i j)) li = li * (mean u v li j d).re := by
    intro j
    have := congrArg Complex.re (key j)
    rw [Complex.re_sum, Complex.re_ofReal_mul] at this
    rw [acc_sum, ← this]
    exact Finset.sum_congr rfl fun i _ => (polar_re _ _ _).symm
  have im : ∀ j, acc (vi d (fun i => u i j) (fun i => v i j)) li = li * (mean u v li j d).im := by
    intro j
    have := congrArg Complex.im (key j)
    rw [Complex.im_sum, Complex.im_ofReal_mul] at this
    rw [acc_sum, ← this]
    exact Finset.sum_congr rfl fun i _ => (polar_im _ _ _).symm
  have q1 : (P + Q / 4).re = P.re + Q.re / 4 ∧ (P + Q / 4).im = P.im + Q.im / 4 := by
    constructor <;> simp
  have q2 : (P + 9 * Q / 4).re = P.re + 9 * Q.re / 4 ∧ (P + 9 * Q / 4).im = P.im + 9 * Q.im / 4 := by
    constructor <;> simp
  constructor
  · rw [re, re, h1, h2, polin, q1.1, q2.1]; field_simp; ring
  · rw [im, im, h1, h2, polin, q1.2, q2.2]; field_simp; ring

/-- C166.  If the means of the wind over the two circles nearest to the pole, half a step and one and a half steps from it, are those
of a field which is `P` at the pole and changes with the square of the distance, then speed and direction, between 0 and 360 degrees,
are those of `P`; without wind the direction is the arbitrary one. -/
theorem C166 (u v : Nat → Nat → ℝ) (li lj : Nat) (kase : Int) (phi arbpsi d : ℝ) (P Q : ℂ) (h : 0 < li) (harb : 0 ≤ arbpsi)
    (h1 : mean u v li (if phi > 90 ∧ kase = 0 then lj else 1) d = P + Q / 4)
    (h2 : mean u v li (if phi > 90 ∧ kase = 0 then lj - 1 else 2) d = P + 9 * Q / 4) :
    let r := npspin u v li lj kase phi arbpsi d
    r.1 = ‖P‖ ∧ (P = 0 → r.2 = arbpsi) ∧
    (P ≠ 0 → 0 ≤ r.2 ∧ r.2 < 360 ∧ P = r.1 * Complex.exp ((r.2 * (Real.pi / 180) : ℝ) * Complex.I)) := by
  have e1 : (rows lj kase phi).1 = if phi > 90 ∧ kase = 0 then lj else 1 := by rw [rows]; split <;> rfl
  have e2 : (rows lj kase phi).2 = if phi > 90 ∧ kase = 0 then lj - 1 else 2 := by rw [rows]; split <;> rfl
  rw [← e1] at h1
  rw [← e2] at h2
  obtain ⟨a, b⟩ := pole_parts u v li _ _ d h P Q h1 h2
  have hs : √(P.re ^ 2 + P.im ^ 2) = ‖P‖ := by
    rw [Complex.norm_def, Complex.normSq_apply, ← sq, ← sq]
  simp only [npspin]
  rw [a, b, hs]
  refine ⟨rfl, ?_, ?_⟩
  · rintro rfl
    simp [not_lt.2 harb]
  · intro hP
    rw [if_pos (norm_ne_zero_iff.2 hP), Complex.eta]
    have hpi := Real.pi_pos
    have lo := Complex.neg_pi_lt_arg P
    have hi := Complex.arg_le_pi P
    have id : Complex.exp ((Complex.arg P : ℝ) * Complex.I) * ‖P‖ = P := by rw [mul_comm]; exact Complex.norm_mul_exp_arg_mul_I P
    have hk : 180 / Real.pi * P.arg * (Real.pi / 180) = P.arg := by field_simp
    have hlo : -180 < 180 / Real.pi * P.arg := by
      have : 180 / Real.pi * -Real.pi < 180 / Real.pi * P.arg := mul_lt_mul_of_pos_left lo (by positivity)
      have e : 180 / Real.pi * -Real.pi = -180 := by field_simp
      linarith
    have hhi : 180 / Real.pi * P.arg ≤ 180 := by
      have : 180 / Real.pi * P.arg ≤ 180 / Real.pi * Real.pi := mul_le_mul_of_nonneg_left hi (by positivity)
      have e : 180 / Real.pi * Real.pi = 180 := by field_simp
      linarith
    split
    · rename_i hn
      refine ⟨by linarith, by linarith, ?_⟩
      have : ((180 / Real.pi * P.arg + 360) * (Real.pi / 180) : ℝ) = P.arg + 2 * Real.pi := by rw [add_mul, hk]; ring
      rw [this]
      push_cast
      rw [add_mul, Complex.exp_add, Complex.exp_two_pi_mul_I, mul_one, mul_comm]
      exact id.symm
    · rename_i hn
      refine ⟨by linarith, by linarith, ?_⟩
      rw [hk, mul_comm]
      exact id.symm

/-- Four points on each circle of a wind which is 1 along Greenwich at the pole. -/
noncomputable def su (i _j : Nat) : ℝ := if i = 2 then -1 else if i = 4 then 1 else 0

noncomputable def sv (i _j : Nat) : ℝ := if i = 1 then -1 else if i = 3 then 1 else 0

theorem sample_sums (d : ℝ) (j : Nat) :
    acc (ui d (fun i => su i j) (fun i => sv i j)) 4 = 1 + Real.sin (d * (Real.pi / 180)) - Real.cos (2 * d * (Real.pi / 180)) - Real.sin (3 * d * (Real.pi / 180)) ∧
    acc (vi d (fun i => su i j) (fun i => sv i j)) 4 = -Real.cos (d * (Real.pi / 180)) - Real.sin (2 * d * (Real.pi / 180)) + Real.cos (3 * d * (Real.pi / 180)) := by
  have l1 : lam d 1 = 0 := by simp [lam]
  have l2 : lam d 2 = d * (Real.pi / 180) := by rw [lam]; push_cast; ring
  have l3 : lam d 3 = 2 * d * (Real.pi / 180) := by rw [lam]; push_cast; ring
  have l4 : lam d 4 = 3 * d * (Real.pi / 180) := by rw [lam]; push_cast; ring
  constructor
  · simp [acc, ui, l1, l2, l3, l4, su, sv]; ring
  · simp [acc, vi, l1, l2, l3, l4, su, sv]; ring

theorem sample (d : ℝ) (hd : d = 0 ∨ d = 90) : npspin su sv 4 4 0 0 99999 d = if d = 0 then (0, 99999) else (1, 0) := by
  have hr : rows 4 0 0 = (1, 2) := by simp [rows]
  obtain ⟨a1, b1⟩ := sample_sums d 1
  obtain ⟨a2, b2⟩ := sample_sums d 2
  simp only [npspin, hr, a1, a2, b1, b2]
  rcases hd with rfl | rfl
  · simp [polin]
  · have t1 : (90 : ℝ) * (Real.pi / 180) = Real.pi / 2 := by ring
    have t2 : 2 * (90 : ℝ) * (Real.pi / 180) = Real.pi := by ring
    have t3 : 3 * (90 : ℝ) * (Real.pi / 180) = Real.pi + Real.pi / 2 := by ring
    have c3 : Real.cos (Real.pi + Real.pi / 2) = 0 := by rw [Real.cos_add]; simp
    have s3 : Real.sin (Real.pi + Real.pi / 2) = -1 := by rw [Real.sin_add]; simp
    rw [t1, t2, t3, c3, s3]
    have p1 : polin (1 + Real.sin (Real.pi / 2) - Real.cos Real.pi - -1) (1 + Real.sin (Real.pi / 2) - Real.cos Real.pi - -1) 4 = 1 := by
      simp [polin]; norm_num
    have p2 : polin (-Real.cos (Real.pi / 2) - Real.sin Real.pi + 0) (-Real.cos (Real.pi / 2) - Real.sin Real.pi + 0) 4 = 0 := by
      simp [polin]
    rw [p1, p2]
    have : Complex.arg ⟨1, 0⟩ = 0 := Complex.arg_one
    simp [this]

/-- C166.  `VGLO` calls with a step of longitude which is not set yet: for a wind of speed 1 at the pole the answer is right if the
memory happens to hold the right step, and no wind if it holds 0. -/
theorem C166_step_witness : vgloPole su sv 4 4 0 0 0 90 = some (1, 0) ∧ vgloPole su sv 4 4 0 0 0 0 = some (0, 99999) := by
  have hc : (0 : ℝ) ≤ 0 ∧ (0 : ℝ) ≤ 180 ∧ -180 ≤ (0 : ℝ) ∧ (0 : ℝ) < 360 ∧ 4 ≤ 4 ∧ 4 ≤ 4 ∧ 4 * 4 < 70000 ∧
      ¬ ((0 : ℝ) > 1 / 10 ^ 8 ∧ (0 : ℝ) < 180 - 1 / 10 ^ 8) := by norm_num
  constructor
  · rw [vgloPole, if_pos hc, sample 90 (Or.inr rfl), if_neg (by norm_num)]
  · rw [vgloPole, if_pos hc, sample 0 (Or.inl rfl), if_pos rfl]

/-- The sample meets the hypotheses of C166 with `P = 1` and `Q = 0`: its means are 1. -/
example (j : Nat) : (mean su sv 4 j 90).re = 1 := by
  have h := (sample_sums 90 j).1
  have t1 : (90 : ℝ) * (Real.pi / 180) = Real.pi / 2 := by ring
  have t2 : 2 * (90 : ℝ) * (Real.pi / 180) = Real.pi := by ring
  have t3 : 3 * (90 : ℝ) * (Real.pi / 180) = Real.pi + Real.pi / 2 := by ring
  have s3 : Real.sin (Real.pi + Real.pi / 2) = -1 := by rw [Real.sin_add]; simp
  rw [t1, t2, t3, s3, Real.sin_pi_div_two, Real.cos_pi, acc_sum] at h
  rw [mean, show ((4 : ℕ) : ℂ) = ((4 : ℝ) : ℂ) by norm_num, Complex.div_ofReal_re, Complex.re_sum]
  have e : ∀ i ∈ Finset.Icc 1 4, (polar (su i j) (sv i j) (((i : ℝ) - 1) * 90 * (Real.pi / 180))).re = ui 90 (fun i => su i j) (fun i => sv i j) i :=
    fun i _ => polar_re _ _ _
  rw [Finset.sum_congr rfl e, h]
  norm_num


end Verif.PoleWind
