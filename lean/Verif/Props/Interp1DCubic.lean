import Verif.Props.Interp1D

/-!
Vertical interpolation, continued: nearest neighbour, the two cubics, clamps, extrapolations, and the threads of the
Lagrange interpolation.
-/
namespace Verif.Interp1D

/-- A level equal to the target is one of the two of the position. -/
theorem Placed.level {inc : Bool} {lev : List ℚ} {d : ℚ} {p k : Int} (h : Placed inc lev d p)
    (hk : get lev k = some d) : k = p ∨ k = p + 1 := by
  obtain ⟨k1, k2⟩ := get_lt _ _ _ hk
  by_contra hc
  cases h with
  | up h hl hp =>
    obtain ⟨a, b, ha, hb, h1, h2⟩ := hp
    rcases Int.lt_or_gt_of_ne (fun q => hc (Or.inl q) : k ≠ p) with c | c
    · have := pairwise_get _ lev hl _ _ d a c hk ha
      rcases h1 with h1 | h1
      · omega
      · linarith
    · have := pairwise_get _ lev hl _ _ b d (by omega : p + 1 < k) hb hk
      rcases h2 with h2 | h2
      · omega
      · linarith
  | down h hl hp =>
    obtain ⟨a, b, ha, hb, h1, h2⟩ := hp
    rcases Int.lt_or_gt_of_ne (fun q => hc (Or.inl q) : k ≠ p) with c | c
    · have := pairwise_get _ lev hl _ _ d a c hk ha
      rcases h1 with h1 | h1
      · omega
      · linarith
    · have := pairwise_get _ lev hl _ _ b d (by omega : p + 1 < k) hb hk
      rcases h2 with h2 | h2
      · omega
      · linarith

theorem inside_level {lev : List ℚ} {d : ℚ} {k : Int} (hk : get lev k = some d) : Inside lev d :=
  have hm : d ∈ lev := (mem_get _ _).mpr ⟨k, hk⟩
  ⟨⟨d, hm, le_refl _⟩, d, hm, le_refl _⟩

theorem Placed.states {inc : Bool} {lev : List ℚ} {d : ℚ} {p : Int} (h : Placed inc lev d p) (st : List ℚ)
    (hs : st.length = lev.length) : ∃ s t, get st p = some s ∧ get st (p + 1) = some t := by
  obtain ⟨a, b, ha, hb, _⟩ := h.pair
  obtain ⟨s, h1⟩ := get_some st p (get_lt _ _ _ ha).1 (by rw [hs]; exact (get_lt _ _ _ ha).2)
  obtain ⟨t, h2⟩ := get_some st (p + 1) (get_lt _ _ _ hb).1 (by rw [hs]; exact (get_lt _ _ _ hb).2)
  exact ⟨s, t, h1, h2⟩

/-- C67.  In exact arithmetic linear interpolation gives the state of any level at that level. -/
theorem C67_linear_exact {inc : Bool} {lev : List ℚ} {d : ℚ} {p k : Int} (h : Placed inc lev d p) (e : Enable)
    (st : List ℚ) (hs : st.length = lev.length) (hk : get lev k = some d) :
    linear id inc e lev st p d = get st k := by
  obtain ⟨a, b, ha, hb, hab, _⟩ := h.pair
  obtain ⟨s, t, h1, h2⟩ := h.states st hs
  have hba : b - a ≠ 0 := sub_ne_zero.mpr (Ne.symm hab)
  rw [linear_eq id h e st hs a b s t ha hb h1 h2 (Or.inl (inside_level hk)), line_exact _ _ _ _ _ hab]
  rcases h.level hk with rfl | rfl
  · rw [ha] at hk
    cases hk
    rw [h1]
    simp
  · rw [hb] at hk
    cases hk
    rw [h2, div_self hba]
    simp

/-! #### Nearest neighbour -/

/-- A rounding that keeps order and sign. -/
structure Orderly (r : ℚ → ℚ) : Prop where
  mono : ∀ x y, x ≤ y → r x ≤ r y
  odd : ∀ x, r (-x) = -r x

theorem Orderly.abs {r : ℚ → ℚ} (h : Orderly r) (x : ℚ) : |r x| = r |x| := by
  have h0 : r 0 = 0 := by
    have := h.odd 0
    rw [neg_zero] at this
    linarith
  rcases le_total 0 x with c | c
  · have := h.mono _ _ c
    rw [abs_of_nonneg c, abs_of_nonneg (by linarith)]
  · have := h.mono _ _ c
    rw [abs_of_nonpos c, abs_of_nonpos (by linarith), h.odd]

theorem Orderly.le {r : ℚ → ℚ} (h : Orderly r) {x y : ℚ} (hxy : |x| ≤ |y|) : |r x| ≤ |r y| := by
  rw [h.abs, h.abs]
  exact h.mono _ _ hxy

/-- C67.  Nearest neighbour gives the state of a level at the smallest distance of the target among all levels, as
distances are computed. -/
theorem C67_nearest (r : ℚ → ℚ) (hr : Orderly r) {inc : Bool} {lev : List ℚ} {d : ℚ} {p : Int}
    (h : Placed inc lev d p) (st : List ℚ) (hs : st.length = lev.length) :
    ∃ k a s, get lev k = some a ∧ get st k = some s ∧ nearest r lev st p d = some s ∧
      ∀ x ∈ lev, |r (d - a)| ≤ |r (d - x)| := by
  obtain ⟨s, t, h1, h2⟩ := h.states st hs
  have key : ∃ a b, get lev p = some a ∧ get lev (p + 1) = some b ∧
      ∀ x ∈ lev, |d - a| ≤ |d - x| ∨ |d - b| ≤ |d - x| := by
    cases h with
    | up h hl hp =>
      obtain ⟨a, b, ha, hb, c1, c2⟩ := hp
      refine ⟨a, b, ha, hb, fun x hx => ?_⟩
      obtain ⟨k, hk⟩ := (mem_get _ _).mp hx
      obtain ⟨k1, k2⟩ := get_lt _ _ _ hk
      rcases le_or_gt k p with c | c
      · left
        have := up_le lev hl k p x a c hk ha
        rcases c1 with c1 | c1
        · have : k = p := by omega
          subst this
          rw [ha] at hk
          cases hk
          exact le_refl _
        · rw [abs_of_nonneg (by linarith), abs_of_nonneg (by linarith)]
          linarith
      · right
        have := up_le lev hl (p + 1) k b x (by omega) hb hk
        rcases c2 with c2 | c2
        · have : k = p + 1 := by omega
          subst this
          rw [hb] at hk
          cases hk
          exact le_refl _
        · rw [abs_of_nonpos (by linarith), abs_of_nonpos (by linarith)]
          linarith
    | down h hl hp =>
      obtain ⟨a, b, ha, hb, c1, c2⟩ := hp
      refine ⟨a, b, ha, hb, fun x hx => ?_⟩
      obtain ⟨k, hk⟩ := (mem_get _ _).mp hx
      obtain ⟨k1, k2⟩ := get_lt _ _ _ hk
      rcases le_or_gt k p with c | c
      · left
        have := down_le lev hl k p x a c hk ha
        rcases c1 with c1 | c1
        · have : k = p := by omega
          subst this
          rw [ha] at hk
          cases hk
          exact le_refl _
        · rw [abs_of_nonpos (by linarith), abs_of_nonpos (by linarith)]
          linarith
      · right
        have := down_le lev hl (p + 1) k b x (by omega) hb hk
        rcases c2 with c2 | c2
        · have : k = p + 1 := by omega
          subst this
          rw [hb] at hk
          cases hk
          exact le_refl _
        · rw [abs_of_nonneg (by linarith), abs_of_nonneg (by linarith)]
          linarith
  obtain ⟨a, b, ha, hb, hm⟩ := key
  unfold nearest
  simp only [ha, hb, h1, h2, Option.bind_eq_bind, Option.bind_some, Option.pure_def]
  by_cases c : |r (d - a)| < |r (d - b)|
  · refine ⟨p, a, s, ha, h1, by rw [if_pos c], fun x hx => ?_⟩
    rcases hm x hx with q | q
    · exact hr.le q
    · exact le_trans (le_of_lt c) (hr.le q)
  · refine ⟨p + 1, b, t, hb, h2, by rw [if_neg c], fun x hx => ?_⟩
    rcases hm x hx with q | q
    · exact le_trans (not_lt.mp c) (hr.le q)
    · exact hr.le q

/-! #### Lagrange -/

theorem newton_cubic (x1 x2 x3 x4 c0 c1 c2 c3 d : ℚ) (h12 : x1 ≠ x2) (h13 : x1 ≠ x3) (h14 : x1 ≠ x4) (h23 : x2 ≠ x3)
    (h24 : x2 ≠ x4) (h34 : x3 ≠ x4) :
    newton id x1 x2 x3 x4 (c0 + c1 * x1 + c2 * x1 ^ 2 + c3 * x1 ^ 3) (c0 + c1 * x2 + c2 * x2 ^ 2 + c3 * x2 ^ 3)
      (c0 + c1 * x3 + c2 * x3 ^ 2 + c3 * x3 ^ 3) (c0 + c1 * x4 + c2 * x4 ^ 2 + c3 * x4 ^ 3) d =
      c0 + c1 * d + c2 * d ^ 2 + c3 * d ^ 3 := by
  have e12 : x2 - x1 ≠ 0 := sub_ne_zero.mpr (Ne.symm h12)
  have e13 : x3 - x1 ≠ 0 := sub_ne_zero.mpr (Ne.symm h13)
  have e14 : x4 - x1 ≠ 0 := sub_ne_zero.mpr (Ne.symm h14)
  have e23 : x3 - x2 ≠ 0 := sub_ne_zero.mpr (Ne.symm h23)
  have e24 : x4 - x2 ≠ 0 := sub_ne_zero.mpr (Ne.symm h24)
  have e34 : x4 - x3 ≠ 0 := sub_ne_zero.mpr (Ne.symm h34)
  have d12 : 1 / (x2 - x1) * (c0 + c1 * x2 + c2 * x2 ^ 2 + c3 * x2 ^ 3 - (c0 + c1 * x1 + c2 * x1 ^ 2 + c3 * x1 ^ 3)) =
      c1 + c2 * (x1 + x2) + c3 * (x1 ^ 2 + x1 * x2 + x2 ^ 2) := by field_simp; ring
  have d23 : 1 / (x3 - x2) * (c0 + c1 * x3 + c2 * x3 ^ 2 + c3 * x3 ^ 3 - (c0 + c1 * x2 + c2 * x2 ^ 2 + c3 * x2 ^ 3)) =
      c1 + c2 * (x2 + x3) + c3 * (x2 ^ 2 + x2 * x3 + x3 ^ 2) := by field_simp; ring
  have d34 : 1 / (x4 - x3) * (c0 + c1 * x4 + c2 * x4 ^ 2 + c3 * x4 ^ 3 - (c0 + c1 * x3 + c2 * x3 ^ 2 + c3 * x3 ^ 3)) =
      c1 + c2 * (x3 + x4) + c3 * (x3 ^ 2 + x3 * x4 + x4 ^ 2) := by field_simp; ring
  have d13 : 1 / (x3 - x1) * (c1 + c2 * (x2 + x3) + c3 * (x2 ^ 2 + x2 * x3 + x3 ^ 2) -
      (c1 + c2 * (x1 + x2) + c3 * (x1 ^ 2 + x1 * x2 + x2 ^ 2))) = c2 + c3 * (x1 + x2 + x3) := by field_simp; ring
  have d24 : 1 / (x4 - x2) * (c1 + c2 * (x3 + x4) + c3 * (x3 ^ 2 + x3 * x4 + x4 ^ 2) -
      (c1 + c2 * (x2 + x3) + c3 * (x2 ^ 2 + x2 * x3 + x3 ^ 2))) = c2 + c3 * (x2 + x3 + x4) := by field_simp; ring
  have d14 : 1 / (x4 - x1) * (c2 + c3 * (x2 + x3 + x4) - (c2 + c3 * (x1 + x2 + x3))) = c3 := by field_simp; ring
  unfold newton
  simp only [id]
  rw [d12, d23, d34, d13, d24, d14]
  ring

/-- The cubic through four points takes the value of each of them. -/
theorem newton_node (x1 x2 x3 x4 z1 z2 z3 z4 : ℚ) (h12 : x1 ≠ x2) (h13 : x1 ≠ x3) (h14 : x1 ≠ x4) (h23 : x2 ≠ x3)
    (h24 : x2 ≠ x4) (h34 : x3 ≠ x4) :
    newton id x1 x2 x3 x4 z1 z2 z3 z4 x1 = z1 ∧ newton id x1 x2 x3 x4 z1 z2 z3 z4 x2 = z2 ∧
    newton id x1 x2 x3 x4 z1 z2 z3 z4 x3 = z3 ∧ newton id x1 x2 x3 x4 z1 z2 z3 z4 x4 = z4 := by
  have e12 : x2 - x1 ≠ 0 := sub_ne_zero.mpr (Ne.symm h12)
  have e13 : x3 - x1 ≠ 0 := sub_ne_zero.mpr (Ne.symm h13)
  have e14 : x4 - x1 ≠ 0 := sub_ne_zero.mpr (Ne.symm h14)
  have e23 : x3 - x2 ≠ 0 := sub_ne_zero.mpr (Ne.symm h23)
  have e24 : x4 - x2 ≠ 0 := sub_ne_zero.mpr (Ne.symm h24)
  have e34 : x4 - x3 ≠ 0 := sub_ne_zero.mpr (Ne.symm h34)
  unfold newton
  simp only [id]
  refine ⟨?_, ?_, ?_, ?_⟩
  · ring
  · field_simp
    ring
  · field_simp
    ring
  · field_simp
    ring

theorem Placed.distinct {inc : Bool} {lev : List ℚ} {d : ℚ} {p : Int} (h : Placed inc lev d p) (i j : Int) (a b : ℚ)
    (hij : i < j) (ha : get lev i = some a) (hb : get lev j = some b) : a ≠ b := by
  cases h with
  | up h hl hp => exact ne_of_lt (pairwise_get _ lev hl i j a b hij ha hb)
  | down h hl hp => exact ne_of_gt (pairwise_get _ lev hl i j a b hij ha hb)

/-- The four levels of a position: inside of the array, with the two of the position among them. -/
theorem firstLevel_range (n : Nat) (hn : 4 ≤ n) (p : Int) (h1 : 1 ≤ p) (h2 : p + 1 ≤ n) :
    1 ≤ firstLevel n p ∧ firstLevel n p + 3 ≤ n ∧ firstLevel n p ≤ p ∧ p + 1 ≤ firstLevel n p + 3 := by
  unfold firstLevel
  omega

theorem stencil_eq (w : ℚ → ℚ) (lev st : List ℚ) (f : Int) (d : ℚ) (hs : st.length = lev.length) (h1 : 1 ≤ f)
    (h2 : f + 3 ≤ lev.length) : ∃ x1 x2 x3 x4 z1 z2 z3 z4,
      get lev f = some x1 ∧ get lev (f + 1) = some x2 ∧ get lev (f + 2) = some x3 ∧ get lev (f + 3) = some x4 ∧
      get st f = some z1 ∧ get st (f + 1) = some z2 ∧ get st (f + 2) = some z3 ∧ get st (f + 3) = some z4 ∧
      stencil w lev st (fun _ => f) d = some (newton w x1 x2 x3 x4 z1 z2 z3 z4 d) := by
  obtain ⟨x1, a1⟩ := get_some lev f (by omega) (by omega)
  obtain ⟨x2, a2⟩ := get_some lev (f + 1) (by omega) (by omega)
  obtain ⟨x3, a3⟩ := get_some lev (f + 2) (by omega) (by omega)
  obtain ⟨x4, a4⟩ := get_some lev (f + 3) (by omega) (by omega)
  obtain ⟨z1, b1⟩ := get_some st f (by omega) (by omega)
  obtain ⟨z2, b2⟩ := get_some st (f + 1) (by omega) (by omega)
  obtain ⟨z3, b3⟩ := get_some st (f + 2) (by omega) (by omega)
  obtain ⟨z4, b4⟩ := get_some st (f + 3) (by omega) (by omega)
  refine ⟨x1, x2, x3, x4, z1, z2, z3, z4, a1, a2, a3, a4, b1, b2, b3, b4, ?_⟩
  unfold stencil
  simp only [a1, a2, a3, a4, b1, b2, b3, b4, Option.bind_eq_bind, Option.bind_some, Option.pure_def]

theorem get_map (lev : List ℚ) (f : ℚ → ℚ) (k : Int) (x : ℚ) (h : get lev k = some x) :
    get (lev.map f) k = some (f x) := by
  unfold get at h ⊢
  split at h
  case isTrue c => rw [if_pos c, List.getElem?_map, h]; rfl
  case isFalse => simp at h

theorem Placed.range {inc : Bool} {lev : List ℚ} {d : ℚ} {p : Int} (h : Placed inc lev d p) :
    1 ≤ p ∧ p + 1 ≤ lev.length := by
  obtain ⟨a, b, ha, hb, _⟩ := h.pair
  exact ⟨(get_lt _ _ _ ha).1, (get_lt _ _ _ hb).2⟩

/-- C67.  Lagrange interpolation in exact arithmetic, four levels at least: when the state is a cubic polynomial of the
level, its value at the target is given. -/
theorem C67_lagrange_cubic {inc : Bool} {lev : List ℚ} {d : ℚ} {p : Int} (h : Placed inc lev d p) (e : Enable)
    (hi : Inside lev d ∨ (e.down = true ∧ e.up = true)) (h4 : 4 ≤ lev.length) (c0 c1 c2 c3 : ℚ) :
    lagrange id id inc e lev (lev.map fun x => c0 + c1 * x + c2 * x ^ 2 + c3 * x ^ 3) p d =
      some (c0 + c1 * d + c2 * d ^ 2 + c3 * d ^ 3) := by
  obtain ⟨r1, r2⟩ := h.range
  obtain ⟨f1, f2, _, _⟩ := firstLevel_range lev.length h4 p r1 r2
  obtain ⟨x1, x2, x3, x4, z1, z2, z3, z4, a1, a2, a3, a4, b1, b2, b3, b4, hst⟩ :=
    stencil_eq id lev (lev.map fun x => c0 + c1 * x + c2 * x ^ 2 + c3 * x ^ 3) (firstLevel lev.length p) d (by simp)
      f1 f2
  rw [get_map _ _ _ _ a1] at b1
  rw [get_map _ _ _ _ a2] at b2
  rw [get_map _ _ _ _ a3] at b3
  rw [get_map _ _ _ _ a4] at b4
  cases b1
  cases b2
  cases b3
  cases b4
  unfold lagrange
  rw [if_neg (by omega), hst]
  simp only [Option.bind_eq_bind, Option.bind_some]
  rw [clamp_inside h e _ (by simp) _ hi, newton_cubic]
  · rfl
  · exact h.distinct _ _ _ _ (by omega) a1 a2
  · exact h.distinct _ _ _ _ (by omega) a1 a3
  · exact h.distinct _ _ _ _ (by omega) a1 a4
  · exact h.distinct _ _ _ _ (by omega) a2 a3
  · exact h.distinct _ _ _ _ (by omega) a2 a4
  · exact h.distinct _ _ _ _ (by omega) a3 a4

/-- C67.  Lagrange interpolation in exact arithmetic gives the state of any level at that level. -/
theorem C67_lagrange_level {inc : Bool} {lev : List ℚ} {d : ℚ} {p k : Int} (h : Placed inc lev d p) (e : Enable)
    (h4 : 4 ≤ lev.length) (st : List ℚ) (hs : st.length = lev.length) (hk : get lev k = some d) :
    lagrange id id inc e lev st p d = get st k := by
  obtain ⟨r1, r2⟩ := h.range
  obtain ⟨f1, f2, f3, f4⟩ := firstLevel_range lev.length h4 p r1 r2
  obtain ⟨x1, x2, x3, x4, z1, z2, z3, z4, a1, a2, a3, a4, b1, b2, b3, b4, hst⟩ :=
    stencil_eq id lev st (firstLevel lev.length p) d hs f1 f2
  have hn := newton_node x1 x2 x3 x4 z1 z2 z3 z4 (h.distinct _ _ _ _ (by omega) a1 a2)
    (h.distinct _ _ _ _ (by omega) a1 a3) (h.distinct _ _ _ _ (by omega) a1 a4) (h.distinct _ _ _ _ (by omega) a2 a3)
    (h.distinct _ _ _ _ (by omega) a2 a4) (h.distinct _ _ _ _ (by omega) a3 a4)
  obtain ⟨n1, n2, n3, n4⟩ := hn
  unfold lagrange
  rw [if_neg (by omega), hst]
  simp only [Option.bind_eq_bind, Option.bind_some]
  rw [clamp_inside h e _ hs _ (Or.inl (inside_level hk))]
  have hkf : k = firstLevel lev.length p ∨ k = firstLevel lev.length p + 1 ∨ k = firstLevel lev.length p + 2 ∨
      k = firstLevel lev.length p + 3 := by
    rcases h.level hk with c | c <;> omega
  rcases hkf with rfl | rfl | rfl | rfl
  · rw [a1] at hk; cases hk; rw [n1, b1]; rfl
  · rw [a2] at hk; cases hk; rw [n2, b2]; rfl
  · rw [a3] at hk; cases hk; rw [n3, b3]; rfl
  · rw [a4] at hk; cases hk; rw [n4, b4]; rfl

/-! #### Cubic with derivatives -/

theorem hermite_cubic (a b c0 c1 c2 c3 d : ℚ) (h : a ≠ b) :
    hermite id a b (c0 + c1 * a + c2 * a ^ 2 + c3 * a ^ 3) (c0 + c1 * b + c2 * b ^ 2 + c3 * b ^ 3)
      (c1 + 2 * c2 * a + 3 * c3 * a ^ 2) (c1 + 2 * c2 * b + 3 * c3 * b ^ 2) d =
      (c0 + c1 * d + c2 * d ^ 2 + c3 * d ^ 3, c1 + 2 * c2 * d + 3 * c3 * d ^ 2) := by
  have hba : b - a ≠ 0 := sub_ne_zero.mpr (Ne.symm h)
  have s1 : (c0 + c1 * b + c2 * b ^ 2 + c3 * b ^ 3 - (c0 + c1 * a + c2 * a ^ 2 + c3 * a ^ 3)) * (1 / (b - a)) =
      c1 + c2 * (a + b) + c3 * (a ^ 2 + a * b + b ^ 2) := by field_simp; ring
  have s2 : (c1 + 2 * c2 * b + 3 * c3 * b ^ 2 - (c1 + 2 * c2 * a + 3 * c3 * a ^ 2)) * (1 / (b - a)) =
      2 * c2 + 3 * c3 * (a + b) := by field_simp; ring
  have s3 : (c1 + 2 * c2 * b + 3 * c3 * b ^ 2 - (c1 + c2 * (a + b) + c3 * (a ^ 2 + a * b + b ^ 2)) -
      (c1 + c2 * (a + b) + c3 * (a ^ 2 + a * b + b ^ 2) - (c1 + 2 * c2 * a + 3 * c3 * a ^ 2))) * (1 / (b - a)) *
      (1 / (b - a)) = c3 := by field_simp; ring
  unfold hermite
  simp only [id]
  rw [s1, s2, s3]
  ext
  · dsimp only
    ring
  · dsimp only
    ring

theorem hermite_node (a b s t u v : ℚ) (h : a ≠ b) :
    hermite id a b s t u v a = (s, u) ∧ hermite id a b s t u v b = (t, v) := by
  have hba : b - a ≠ 0 := sub_ne_zero.mpr (Ne.symm h)
  unfold hermite
  simp only [id]
  refine ⟨?_, ?_⟩ <;> ext <;> dsimp only <;> field_simp <;> ring

theorem cubic_eq (r w : ℚ → ℚ) {inc : Bool} {lev : List ℚ} {d : ℚ} {p : Int} (h : Placed inc lev d p) (e : Enable)
    (st dv : List ℚ) (hs : st.length = lev.length) (hv : dv.length = lev.length) (a b s t u v : ℚ)
    (ha : get lev p = some a) (hb : get lev (p + 1) = some b) (h1 : get st p = some s) (h2 : get st (p + 1) = some t)
    (h3 : get dv p = some u) (h4 : get dv (p + 1) = some v) (hi : Inside lev d ∨ (e.down = true ∧ e.up = true)) :
    cubicWithDerivs r w inc e lev st dv p d =
      some (r (hermite w a b s t u v d).1, r (hermite w a b s t u v d).2) := by
  have l1 := get_lt _ _ _ ha
  have l2 := get_lt _ _ _ hb
  unfold cubicWithDerivs
  rw [if_neg (by omega)]
  simp only [ha, hb, h1, h2, h3, h4, Option.bind_eq_bind, Option.bind_some]
  rw [clamp_inside h e st hs _ hi, clamp_inside h e dv hv _ hi]
  rfl

/-- C67.  Cubic interpolation with derivatives in exact arithmetic: when the state is a cubic polynomial of the level
and the derivative its derivative, both are given at the target. -/
theorem C67_hermite_cubic {inc : Bool} {lev : List ℚ} {d : ℚ} {p : Int} (h : Placed inc lev d p) (e : Enable)
    (hi : Inside lev d ∨ (e.down = true ∧ e.up = true)) (c0 c1 c2 c3 : ℚ) :
    cubicWithDerivs id id inc e lev (lev.map fun x => c0 + c1 * x + c2 * x ^ 2 + c3 * x ^ 3)
      (lev.map fun x => c1 + 2 * c2 * x + 3 * c3 * x ^ 2) p d =
      some (c0 + c1 * d + c2 * d ^ 2 + c3 * d ^ 3, c1 + 2 * c2 * d + 3 * c3 * d ^ 2) := by
  obtain ⟨a, b, ha, hb, hab, _⟩ := h.pair
  rw [cubic_eq id id h e _ _ (by simp) (by simp) a b _ _ _ _ ha hb (get_map _ _ _ _ ha) (get_map _ _ _ _ hb)
    (get_map _ _ _ _ ha) (get_map _ _ _ _ hb) hi, hermite_cubic _ _ _ _ _ _ _ hab]
  rfl

/-- C67.  Cubic interpolation with derivatives in exact arithmetic gives the state and the derivative of any level at
that level. -/
theorem C67_hermite_level {inc : Bool} {lev : List ℚ} {d : ℚ} {p k : Int} (h : Placed inc lev d p) (e : Enable)
    (st dv : List ℚ) (hs : st.length = lev.length) (hv : dv.length = lev.length) (hk : get lev k = some d) :
    ∃ s u, get st k = some s ∧ get dv k = some u ∧ cubicWithDerivs id id inc e lev st dv p d = some (s, u) := by
  obtain ⟨a, b, ha, hb, hab, _⟩ := h.pair
  obtain ⟨s, t, h1, h2⟩ := h.states st hs
  obtain ⟨u, v, h3, h4⟩ := h.states dv hv
  rw [cubic_eq id id h e st dv hs hv a b s t u v ha hb h1 h2 h3 h4 (Or.inl (inside_level hk))]
  obtain ⟨n1, n2⟩ := hermite_node a b s t u v hab
  rcases h.level hk with rfl | rfl
  · rw [ha] at hk
    cases hk
    exact ⟨s, u, h1, h3, by rw [n1]; rfl⟩
  · rw [hb] at hk
    cases hk
    exact ⟨t, v, h2, h4, by rw [n2]; rfl⟩

/-! #### Clamps -/

/-- The state of the lowest (`lo`) or of the highest level. -/
def AtEnd (lo : Bool) (lev st : List ℚ) (s : ℚ) : Prop :=
  ∃ k a, get lev k = some a ∧ (∀ x ∈ lev, if lo then a ≤ x else x ≤ a) ∧ get st k = some s

/-- C67.  Where extrapolation is not enabled, a target beyond the levels is given the state of the closest end by the
three routines that clamp, in any arithmetic. -/
theorem C67_clamp (r w : ℚ → ℚ) {inc : Bool} {lev : List ℚ} {d : ℚ} {p : Int} (h : Placed inc lev d p) (e : Enable)
    (st dv : List ℚ) (hs : st.length = lev.length) (hv : dv.length = lev.length) (lo : Bool)
    (hd : ∀ x ∈ lev, if lo then d < x else x < d) (he : (if lo then e.down else e.up) = false) :
    ∃ s u, AtEnd lo lev st s ∧ AtEnd lo lev dv u ∧ linear r inc e lev st p d = some s ∧
      cubicWithDerivs r w inc e lev st dv p d = some (s, u) ∧
      (4 ≤ lev.length → lagrange r w inc e lev st p d = some s) := by
  obtain ⟨a, b, ha, hb, _⟩ := h.pair
  obtain ⟨s, t, h1, h2⟩ := h.states st hs
  obtain ⟨u, v, h3, h4⟩ := h.states dv hv
  obtain ⟨r1, r2⟩ := h.range
  have cl : ∀ l : List ℚ, l.length = lev.length → ∃ s, AtEnd lo lev l s ∧ ∀ v, clamp inc e lev l d v = some s := by
    intro l hl
    obtain ⟨A, B, hA, hB, hm⟩ := h.ends
    obtain ⟨S, g1⟩ := get_some l (smallest inc lev.length) (get_lt _ _ _ hA).1 (by rw [hl]; exact (get_lt _ _ _ hA).2)
    obtain ⟨T, g2⟩ := get_some l (largest inc lev.length) (get_lt _ _ _ hB).1 (by rw [hl]; exact (get_lt _ _ _ hB).2)
    have mA : A ∈ lev := (mem_get _ _).mpr ⟨_, hA⟩
    have mB : B ∈ lev := (mem_get _ _).mpr ⟨_, hB⟩
    cases lo with
    | true =>
      simp only [if_true] at *
      refine ⟨S, ⟨_, A, hA, by simpa using fun x hx => (hm x hx).1, g1⟩, fun v => ?_⟩
      unfold clamp
      simp only [hA, hB, g1, g2, Option.bind_eq_bind, Option.bind_some]
      rw [if_pos (by simp [he, hd A mA])]
    | false =>
      simp only [Bool.false_eq_true, if_false] at *
      refine ⟨T, ⟨_, B, hB, by simpa using fun x hx => (hm x hx).2, g2⟩, fun v => ?_⟩
      unfold clamp
      simp only [hA, hB, g1, g2, Option.bind_eq_bind, Option.bind_some]
      have := hd A mA
      rw [if_neg (by simp only [Bool.and_eq_true, decide_eq_true_eq]; rintro ⟨_, q⟩; linarith),
        if_pos (by simp [he, hd B mB])]
  obtain ⟨S, hS, cS⟩ := cl st hs
  obtain ⟨V, hV, cV⟩ := cl dv hv
  refine ⟨S, V, hS, hV, ?_, ?_, fun hn => ?_⟩
  · unfold linear
    rw [if_neg (by omega)]
    simp only [ha, hb, h1, h2, Option.bind_eq_bind, Option.bind_some]
    exact cS _
  · unfold cubicWithDerivs
    rw [if_neg (by omega)]
    simp only [ha, hb, h1, h2, h3, h4, Option.bind_eq_bind, Option.bind_some]
    rw [cS, cV]
    rfl
  · obtain ⟨f1, f2, f3, f4⟩ := firstLevel_range lev.length hn p r1 r2
    obtain ⟨x1, x2, x3, x4, z1, z2, z3, z4, a1, a2, a3, a4, b1, b2, b3, b4, hst⟩ :=
      stencil_eq w lev st (firstLevel lev.length p) d hs f1 f2
    unfold lagrange
    rw [if_neg (by omega), hst]
    simp only [Option.bind_eq_bind, Option.bind_some]
    exact cS _

/-! ### C68: extrapolations -/

/-- Which targets the extrapolations act on, when there are three levels or one of the two sides is not enabled. -/
theorem side_spec {inc : Bool} {lev : List ℚ} {d : ℚ} {p : Int} (h : Placed inc lev d p) (e : Enable)
    (hn : 3 ≤ lev.length ∨ e.down = false ∨ e.up = false) :
    (e.down = true → (∀ x ∈ lev, d < x) → side inc e lev p d = some .below) ∧
    (e.up = true → (∀ x ∈ lev, x < d) → side inc e lev p d = some .above) ∧
    (¬ (e.down = true ∧ ∀ x ∈ lev, d < x) → ¬ (e.up = true ∧ ∀ x ∈ lev, x < d) →
      side inc e lev p d = some .inside) := by
  obtain ⟨A, B, hA, hB, hm⟩ := h.ends
  obtain ⟨r1, r2⟩ := h.range
  have mA : A ∈ lev := (mem_get _ _).mpr ⟨_, hA⟩
  have mB : B ∈ lev := (mem_get _ _).mpr ⟨_, hB⟩
  have iA : (∀ x ∈ lev, d < x) ↔ d < A := ⟨fun q => q A mA, fun q x hx => lt_of_lt_of_le q (hm x hx).1⟩
  have iB : (∀ x ∈ lev, x < d) ↔ B < d := ⟨fun q => q B mB, fun q x hx => lt_of_le_of_lt (hm x hx).2 q⟩
  have hAB := (hm B mB).1
  have pA : d < A → p = lowestPosn inc lev.length := by
    intro q
    cases h with
    | up h hl hp =>
      subst h
      obtain ⟨a, b, ha, hb, c1, c2⟩ := hp
      rcases c1 with c | c
      · exact c
      · have := (hm a ((mem_get _ _).mpr ⟨_, ha⟩)).1
        linarith
    | down h hl hp =>
      subst h
      obtain ⟨a, b, ha, hb, c1, c2⟩ := hp
      rcases c2 with c | c
      · unfold lowestPosn
        simp only [Bool.false_eq_true, if_false]
        omega
      · have := (hm b ((mem_get _ _).mpr ⟨_, hb⟩)).1
        linarith
  have pB : B < d → p = highestPosn inc lev.length := by
    intro q
    cases h with
    | up h hl hp =>
      subst h
      obtain ⟨a, b, ha, hb, c1, c2⟩ := hp
      rcases c2 with c | c
      · unfold highestPosn
        simp only [if_true]
        omega
      · have := (hm b ((mem_get _ _).mpr ⟨_, hb⟩)).2
        linarith
    | down h hl hp =>
      subst h
      obtain ⟨a, b, ha, hb, c1, c2⟩ := hp
      rcases c1 with c | c
      · exact c
      · have := (hm a ((mem_get _ _).mpr ⟨_, ha⟩)).2
        linarith
  have hne : 3 ≤ lev.length → lowestPosn inc lev.length ≠ highestPosn inc lev.length := by
    intro q
    unfold lowestPosn highestPosn
    cases inc <;> simp <;> omega
  rw [iA, iB]
  unfold side
  simp only [hA, hB, Option.bind_eq_bind, Option.bind_some, Option.pure_def]
  refine ⟨fun q1 q2 => ?_, fun q1 q2 => ?_, fun q1 q2 => ?_⟩
  · rw [if_pos (by simp [q1, pA q2]), if_pos q2]
  · have hc : ¬ ((e.down && p == lowestPosn inc lev.length) = true) := by
      simp only [Bool.and_eq_true, beq_iff_eq]
      rintro ⟨k1, k2⟩
      rcases hn with c | c | c
      · exact hne c (k2.symm.trans (pB q2))
      · rw [c] at k1; exact absurd k1 (by decide)
      · rw [c] at q1; exact absurd q1 (by decide)
    rw [if_neg hc, if_pos (by simp [q1, pB q2]), if_pos q2]
  · by_cases k1 : (e.down && p == lowestPosn inc lev.length) = true
    · rw [if_pos k1]
      simp only [Bool.and_eq_true] at k1
      rw [if_neg fun c => q1 ⟨k1.1, c⟩]
    · rw [if_neg k1]
      by_cases k2 : (e.up && p == highestPosn inc lev.length) = true
      · rw [if_pos k2]
        simp only [Bool.and_eq_true] at k2
        rw [if_neg fun c => q2 ⟨k2.1, c⟩]
      · rw [if_neg k2]

/-- C68.  Extrapolation by fixed values, by lapse rates, and the one that stops the program: below all levels and above
all levels, where enabled, the fixed value, the line of the given slope from the end level, and the stop; elsewhere the
previous value and no stop.  Missing: two levels with both sides enabled. -/
theorem C68_extrapolation_partial (r : ℚ → ℚ) {inc : Bool} {lev : List ℚ} {d : ℚ} {p : Int} (h : Placed inc lev d p)
    (e : Enable) (hn : 3 ≤ lev.length ∨ e.down = false ∨ e.up = false) (st : List ℚ) (hs : st.length = lev.length)
    (down up v : ℚ) :
    (e.down = true → (∀ x ∈ lev, d < x) → fixed inc e lev down up p d v = some down ∧
      abort inc e lev p d = some true ∧
      ∃ k a s, get lev k = some a ∧ (∀ x ∈ lev, a ≤ x) ∧ get st k = some s ∧
        lapseRate r inc e lev st down up p d v = some (r (s + r (down * r (d - a))))) ∧
    (e.up = true → (∀ x ∈ lev, x < d) → fixed inc e lev down up p d v = some up ∧
      abort inc e lev p d = some true ∧
      ∃ k b s, get lev k = some b ∧ (∀ x ∈ lev, x ≤ b) ∧ get st k = some s ∧
        lapseRate r inc e lev st down up p d v = some (r (s + r (up * r (d - b))))) ∧
    (¬ (e.down = true ∧ ∀ x ∈ lev, d < x) → ¬ (e.up = true ∧ ∀ x ∈ lev, x < d) →
      fixed inc e lev down up p d v = some v ∧ abort inc e lev p d = some false ∧
      lapseRate r inc e lev st down up p d v = some v) := by
  obtain ⟨s1, s2, s3⟩ := side_spec h e hn
  obtain ⟨A, B, hA, hB, hm⟩ := h.ends
  obtain ⟨S, g1⟩ := get_some st (smallest inc lev.length) (get_lt _ _ _ hA).1 (by rw [hs]; exact (get_lt _ _ _ hA).2)
  obtain ⟨T, g2⟩ := get_some st (largest inc lev.length) (get_lt _ _ _ hB).1 (by rw [hs]; exact (get_lt _ _ _ hB).2)
  refine ⟨fun q1 q2 => ?_, fun q1 q2 => ?_, fun q1 q2 => ?_⟩
  · have := s1 q1 q2
    refine ⟨?_, ?_, _, A, S, hA, fun x hx => (hm x hx).1, g1, ?_⟩
    · unfold fixed; rw [this]; rfl
    · unfold abort; rw [this]; rfl
    · unfold lapseRate; rw [this, g1, hA]; rfl
  · have := s2 q1 q2
    refine ⟨?_, ?_, _, B, T, hB, fun x hx => (hm x hx).2, g2, ?_⟩
    · unfold fixed; rw [this]; rfl
    · unfold abort; rw [this]; rfl
    · unfold lapseRate; rw [this, g2, hB]; rfl
  · have := s3 q1 q2
    refine ⟨?_, ?_, ?_⟩
    · unfold fixed; rw [this]; rfl
    · unfold abort; rw [this]; rfl
    · unfold lapseRate; rw [this]; rfl

/-- C68.  With two levels the first and the last position are the same, and the test for below hides the test for
above: with both sides enabled a target above the levels is left as it was, and the program is not stopped. -/
theorem C68_two_levels_witness (v : ℚ) :
    fixed true ⟨true, true⟩ [1, 2] 10 20 1 5 v = some v ∧
    lapseRate id true ⟨true, true⟩ [1, 2] [7, 8] 10 20 1 5 v = some v ∧
    abort true ⟨true, true⟩ [1, 2] 1 5 = some false ∧
    position id true [1, 2] 5 = some 1 := by
  have f : ⌊(3 / 2 : ℚ)⌋ = 1 := floor_num _ _ (by norm_num) (by norm_num)
  refine ⟨?_, ?_, ?_, ?_⟩
  · norm_num [fixed, side, lowestPosn, highestPosn, smallest, largest, get]
  · norm_num [lapseRate, side, lowestPosn, highestPosn, smallest, largest, get]
  · norm_num [abort, side, lowestPosn, highestPosn, smallest, largest, get]
  · norm_num [position, search, lim, f]

/-- Three levels, targets below, inside and above: extrapolated, kept, extrapolated. -/
example : Placed true [1, 2, 4] (-1) 1 ∧ Placed true [1, 2, 4] 3 2 ∧ Placed false [4, 2, 1] 5 1 := by
  have u : Up [1, 2, 4] := by unfold Up; norm_num
  have w : Down [4, 2, 1] := by unfold Down; norm_num
  refine ⟨.up rfl u ⟨1, 2, rfl, rfl, by norm_num, by norm_num⟩, .up rfl u ⟨2, 4, rfl, rfl, by norm_num, by norm_num⟩,
    .down rfl w ⟨4, 2, rfl, rfl, by norm_num, by norm_num⟩⟩

/-- A search, and then an interpolation at the position found: any target, any number of levels. -/
theorem position_placed (r : ℚ → ℚ) (hr : Keeps r) (inc : Bool) (lev : List ℚ) (d : ℚ) (hn : 2 ≤ lev.length)
    (hn' : lev.length ≤ 2800) (hm : if inc then Up lev else Down lev) :
    ∃ p : Int, position r inc lev d = some p ∧ Placed inc lev d p := by
  obtain ⟨p, h1, h2, h3, a, b, ha, hb, h4⟩ := position_ok r hr inc lev d hn hn' hm
  refine ⟨p, h1, ?_⟩
  cases inc with
  | true =>
    simp only [if_true] at *
    exact .up rfl hm ⟨a, b, ha, hb, h4⟩
  | false =>
    simp only [Bool.false_eq_true, if_false] at *
    exact .down rfl hm ⟨a, b, ha, hb, h4⟩

/-- The cubic `x³` on four levels. -/
example : ∃ p : Int, position id true [0, 1, 2, 4] 3 = some p ∧
    lagrange id id true ⟨false, false⟩ [0, 1, 2, 4] [0, 1, 8, 64] p 3 = some 27 := by
  have u : Up [0, 1, 2, 4] := by unfold Up; norm_num
  obtain ⟨p, h1, h2⟩ := position_placed id keeps_id true [0, 1, 2, 4] 3 (by simp) (by simp) (by simpa using u)
  refine ⟨p, h1, ?_⟩
  have := C67_lagrange_cubic h2 ⟨false, false⟩ (Or.inl ⟨⟨0, by simp, by norm_num⟩, 4, by simp, by norm_num⟩) (by simp)
    0 0 0 1
  norm_num at this
  exact this

/-! ### C69: threads -/

theorem access_other (s : Shared) (t t' : Nat) (h : t ≠ t') : (access s t').threads[t]? = s.threads[t]? := by
  unfold access
  split
  · rfl
  · split
    · split
      · simp [List.getElem?_set_ne (Ne.symm h)]
      · rfl
    · simp [List.getElem?_set_ne (Ne.symm h)]

theorem run_other (t : Nat) (l : List Nat) : ∀ s : Shared, t ∉ l → (runThreads s l).threads[t]? = s.threads[t]? := by
  induction l with
  | nil => intro s _; rfl
  | cons x l ih =>
    intro s h
    simp only [List.mem_cons, not_or] at h
    have : runThreads s (x :: l) = runThreads (access s x) l := rfl
    rw [this, ih _ h.2, access_other s t x h.1]

/-- A thread that has done its eight reads changes no more. -/
theorem run_done (t : Nat) (h : Thread) (hw : h.wrote = true) (h8 : h.reads.length = 8) (l : List Nat) :
    ∀ s : Shared, s.threads[t]? = some h → (runThreads s l).threads[t]? = some h := by
  induction l with
  | nil => intro s hs; exact hs
  | cons x l ih =>
    intro s hs
    have e : runThreads s (x :: l) = runThreads (access s x) l := rfl
    rw [e]
    apply ih
    by_cases c : t = x
    · subst c
      unfold access
      rw [hs]
      simp [hw, h8, hs]
    · rw [access_other s t x c]
      exact hs

theorem access_write (s : Shared) (t : Nat) (f : Int) (hs : s.threads[t]? = some ⟨f, false, []⟩) :
    (access s t).first = f ∧ (access s t).threads[t]? = some ⟨f, true, []⟩ := by
  unfold access
  rw [hs]
  obtain ⟨hl, _⟩ := List.getElem?_eq_some_iff.mp hs
  simp [hl]

theorem access_read (s : Shared) (t : Nat) (f : Int) (l : List Int) (hl : l.length < 8) (hf : s.first = f)
    (hs : s.threads[t]? = some ⟨f, true, l⟩) :
    (access s t).first = f ∧ (access s t).threads[t]? = some ⟨f, true, l ++ [f]⟩ := by
  unfold access
  rw [hs]
  obtain ⟨ht, _⟩ := List.getElem?_eq_some_iff.mp hs
  simp [hl, ht, hf]

theorem run_reads (t : Nat) (f : Int) (n : Nat) : ∀ (s : Shared) (l : List Int), l.length + n ≤ 8 → s.first = f →
    s.threads[t]? = some ⟨f, true, l⟩ →
    (runThreads s (List.replicate n t)).threads[t]? = some ⟨f, true, l ++ List.replicate n f⟩ := by
  induction n with
  | zero => intro s l _ _ h; simpa [runThreads] using h
  | succ n ih =>
    intro s l hl hf hs
    obtain ⟨a1, a2⟩ := access_read s t f l (by omega) hf hs
    have e : runThreads s (List.replicate (n + 1) t) = runThreads (access s t) (List.replicate n t) := rfl
    rw [e, ih _ (l ++ [f]) (by simp; omega) a1 a2]
    simp [List.replicate_succ]

theorem value_own (w : ℚ → ℚ) (lev st : List ℚ) (s : Shared) (t : Nat) (d : ℚ) (o f : Int)
    (h : s.threads[t]? = some ⟨o, true, List.replicate 8 f⟩) :
    threadValue w lev st s t d = stencil w lev st (fun _ => f) d := by
  unfold threadValue
  rw [h]
  simp only [Option.bind_eq_bind, Option.bind_some, List.length_replicate, if_true]
  congr 1
  funext i
  have : (i : Nat) < (List.replicate 8 f).length := by rw [List.length_replicate]; exact i.isLt
  rw [List.getD_eq_getElem?_getD, List.getElem?_eq_getElem this, List.getElem_replicate]
  rfl

theorem run_append (s : Shared) (a b : List Nat) : runThreads s (a ++ b) = runThreads (runThreads s a) b := by
  unfold runThreads
  rw [List.foldl_append]

/-- C69.  A thread whose nine accesses to `firstLevel` follow one another without an access by any other thread computes
the polynomial of its own four levels, whatever runs before and after.  Missing: schedules in which threads alternate,
for which it is false (`C69_race_witness`). -/
theorem C69_undisturbed_partial (w : ℚ → ℚ) (lev st : List ℚ) (s : Shared) (t : Nat) (d : ℚ) (f : Int)
    (before after : List Nat) (hs : s.threads[t]? = some ⟨f, false, []⟩) (hb : t ∉ before) :
    threadValue w lev st (runThreads s (before ++ List.replicate 9 t ++ after)) t d =
      stencil w lev st (fun _ => f) d := by
  apply value_own (o := f)
  rw [run_append, run_append]
  apply run_done t _ rfl (by simp)
  have h1 := run_other t before s hb
  rw [hs] at h1
  generalize runThreads s before = s' at h1
  obtain ⟨a1, a2⟩ := access_write s' t f h1
  have e : runThreads s' (List.replicate 9 t) = runThreads (access s' t) (List.replicate 8 t) := rfl
  rw [e]
  have := run_reads t f 8 (access s' t) [] (by simp) a1 a2
  simpa using this

/-- All threads write `f`, and have read nothing else so far. -/
def Same (f : Int) (s : Shared) : Prop :=
  (∀ h ∈ s.threads, h.own = f ∧ h.reads = List.replicate h.reads.length f ∧ (h.wrote = false → h.reads = [])) ∧
  ((∃ h ∈ s.threads, h.wrote = true) → s.first = f)

theorem access_same (f : Int) (s : Shared) (t : Nat) (hs : Same f s) : Same f (access s t) := by
  obtain ⟨h1, h2⟩ := hs
  unfold access
  cases ht : s.threads[t]? with
  | none => exact ⟨h1, h2⟩
  | some h =>
    have hm : h ∈ s.threads := List.mem_of_getElem? ht
    obtain ⟨a1, a2, a3⟩ := h1 h hm
    dsimp only
    by_cases c : h.wrote = true
    · rw [if_pos c]
      have hf := h2 ⟨h, hm, c⟩
      by_cases c8 : h.reads.length < 8
      · rw [if_pos c8]
        refine ⟨fun g hg => ?_, fun _ => hf⟩
        rcases List.mem_or_eq_of_mem_set hg with q | q
        · exact h1 g q
        · subst q
          refine ⟨a1, ?_, fun q => ?_⟩
          · dsimp only
            rw [hf, List.length_append, List.length_singleton, List.replicate_succ', ← a2]
          · rw [c] at q
            exact absurd q (by decide)
      · rw [if_neg c8]
        exact ⟨h1, h2⟩
    · rw [if_neg c]
      refine ⟨fun g hg => ?_, fun _ => a1⟩
      rcases List.mem_or_eq_of_mem_set hg with q | q
      · exact h1 g q
      · subst q
        exact ⟨a1, a2, fun q => absurd q (by simp)⟩

/-- C69.  When all threads use the same four levels, each computes the polynomial of these, in every schedule. -/
theorem C69_same_levels_partial (w : ℚ → ℚ) (lev st : List ℚ) (first f : Int) (n t : Nat) (d : ℚ)
    (schedule : List Nat) :
    let s := runThreads ⟨first, List.replicate n ⟨f, false, []⟩⟩ schedule
    threadValue w lev st s t d = none ∨ threadValue w lev st s t d = stencil w lev st (fun _ => f) d := by
  have h0 : Same f ⟨first, List.replicate n ⟨f, false, []⟩⟩ := by
    refine ⟨fun h hh => ?_, ?_⟩
    · rw [List.eq_of_mem_replicate hh]
      simp
    · rintro ⟨h, hh, hw⟩
      rw [List.eq_of_mem_replicate hh] at hw
      exact absurd hw (by simp)
  have hall : ∀ (l : List Nat) (s : Shared), Same f s → Same f (runThreads s l) := by
    intro l
    induction l with
    | nil => intro s hs; exact hs
    | cons x l ih => intro s hs; exact ih _ (access_same f s x hs)
  have hs := hall schedule _ h0
  intro s
  change Same f s at hs
  cases ht : s.threads[t]? with
  | none => left; unfold threadValue; rw [ht]; rfl
  | some h =>
    obtain ⟨a1, a2, a3⟩ := hs.1 h (List.mem_of_getElem? ht)
    by_cases c8 : h.reads.length = 8
    · right
      apply value_own (o := f)
      rw [ht]
      rw [c8] at a2
      have hw : h.wrote = true := by
        by_contra c
        rw [a3 (by simpa using c)] at c8
        simp at c8
      cases h
      simp_all
    · left
      unfold threadValue
      rw [ht]
      simp [c8]

/-- C69.  Two threads, for a target between the first two and a target between the last two of five levels: the first
writes 1, the second writes 2, and the first then reads 2.  It computes its value from the levels 2 to 5 instead of 1 to
4, and the value differs. -/
theorem C69_race_witness :
    let s := runThreads ⟨0, [⟨1, false, []⟩, ⟨2, false, []⟩]⟩ ([0, 1] ++ List.replicate 8 0 ++ List.replicate 8 1)
    let lev : List ℚ := [1, 2, 3, 4, 5]
    let st : List ℚ := [1, 0, 0, 0, 0]
    firstLevel 5 1 = 1 ∧ firstLevel 5 4 = 2 ∧ threadValue id lev st s 0 (3 / 2) = some 0 ∧
      stencil id lev st (fun _ => 1) (3 / 2) = some (5 / 16) := by
  refine ⟨by decide, by decide, ?_, ?_⟩
  · have e : stencil id [1, 2, 3, 4, 5] [1, 0, 0, 0, 0] (fun _ => 2) (3 / 2) =
        some (newton id 2 3 4 5 0 0 0 0 (3 / 2)) := rfl
    rw [value_own id _ _ _ 0 _ 1 2 (by simp [runThreads, access]), e]
    norm_num [newton]
  · have e : stencil id [1, 2, 3, 4, 5] [1, 0, 0, 0, 0] (fun _ => 1) (3 / 2) =
        some (newton id 1 2 3 4 1 0 0 0 (3 / 2)) := rfl
    rw [e]
    norm_num [newton]

/-- C69.  The second thread may also write between the reads of the first: the first two of the four levels of the
polynomial are then the same level, and the program divides by zero. -/
theorem C69_equal_levels_witness :
    let s := runThreads ⟨0, [⟨2, false, []⟩, ⟨1, false, []⟩]⟩ [0, 0, 1, 0, 0, 0, 0, 0, 0, 0]
    ∃ h, s.threads[0]? = some h ∧ h.reads.length = 8 ∧
      get [1, 2, 3, 4, 5] (h.reads.getD 0 0) = get [1, 2, 3, 4, 5] (h.reads.getD 1 0 + 1) := by
  refine ⟨⟨2, true, [2, 1, 1, 1, 1, 1, 1, 1]⟩, by simp [runThreads, access], rfl, rfl⟩

end Verif.Interp1D
