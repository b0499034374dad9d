import Verif.EwFdr
import Mathlib.Tactic
import Mathlib.Analysis.SpecialFunctions.Trigonometric.Deriv

namespace Verif.EwFdr

/-! # C162: the east-west derivative -/

section
variable {K : Type} [CommRing K]

/-- Two arrays of `n` cells are the same array or have no common cell. -/
def Clear (a b n : Nat) : Prop := a = b ∨ a + n ≤ b ∨ b + n ≤ a

omit [CommRing K] in
theorem fold_spec (a b c n : Nat) (G : Nat → K × K → K × K → K × K) (hb : Clear a b n) (hc : Clear a c n)
    (L : List (Nat × Nat)) (hL : ∀ p ∈ L, p.2 < n) (hn : (L.map (·.2)).Nodup) (s : Mem K) :
    (∀ p ∈ L, L.foldl (fun s p => put s (a + p.2) (G p.1 (s (b + p.2)) (s (c + p.2)))) s (a + p.2)
        = G p.1 (s (b + p.2)) (s (c + p.2))) ∧
    (∀ x, (∀ p ∈ L, x ≠ a + p.2) → L.foldl (fun s p => put s (a + p.2) (G p.1 (s (b + p.2)) (s (c + p.2)))) s x = s x) := by
  induction L generalizing s with
  | nil => exact ⟨fun p hp => absurd hp (by simp), fun _ _ => rfl⟩
  | cons p L ih =>
    rw [List.map_cons, List.nodup_cons] at hn
    have hL' : ∀ p ∈ L, p.2 < n := fun q hq => hL q (List.mem_cons_of_mem _ hq)
    obtain ⟨i1, i2⟩ := ih hL' hn.2 (put s (a + p.2) (G p.1 (s (b + p.2)) (s (c + p.2))))
    have hne : ∀ r ∈ L, r.2 ≠ p.2 := fun r hr h => hn.1 (h ▸ List.mem_map_of_mem hr)
    have hp := hL p List.mem_cons_self
    rw [List.foldl_cons]
    refine ⟨fun r hr => ?_, fun x hx => ?_⟩
    · rcases List.mem_cons.1 hr with rfl | hr
      · rw [i2 _ (fun t ht h => hne t ht (by omega)), put, if_pos rfl]
      · have hr' := hL' r hr
        have h3 := hne r hr
        rw [i1 r hr]
        have e1 : b + r.2 ≠ a + p.2 := by rcases hb with h | h | h <;> omega
        have e2 : c + r.2 ≠ a + p.2 := by rcases hc with h | h | h <;> omega
        rw [put, put, if_neg e1, if_neg e2]
    · rw [i2 x (fun t ht => hx t (List.mem_cons_of_mem _ ht)), put, if_neg (hx p List.mem_cons_self)]

theorem mem_places {ilgh ilev lm : Nat} {p : Nat × Nat} :
    p ∈ places ilgh ilev lm ↔ ∃ l < ilev, ∃ m < lm, p = (m, m + ilgh * l) := by
  simp only [places, List.mem_flatMap, List.mem_map, List.mem_range]
  constructor
  · rintro ⟨l, hl, m, hm, rfl⟩; exact ⟨l, hl, m, hm, rfl⟩
  · rintro ⟨l, hl, m, hm, rfl⟩; exact ⟨l, hl, m, hm, rfl⟩

theorem place_inj {ilgh l l' m m' : Nat} (h1 : m < ilgh) (h2 : m' < ilgh) (h : m + ilgh * l = m' + ilgh * l') : l = l' ∧ m = m' := by
  have a := congrArg (· / ilgh) h
  have b := congrArg (· % ilgh) h
  simp only [Nat.add_mul_div_left _ _ (by omega : 0 < ilgh), Nat.div_eq_of_lt h1, Nat.div_eq_of_lt h2, Nat.add_mul_mod_self_left,
    Nat.mod_eq_of_lt h1, Nat.mod_eq_of_lt h2] at a b
  exact ⟨by omega, b⟩

theorem place_lt {ilgh ilev l m : Nat} (h1 : m < ilgh) (h2 : l < ilev) : m + ilgh * l < ilgh * ilev := by
  have : ilgh * (l + 1) ≤ ilgh * ilev := Nat.mul_le_mul_left _ h2
  rw [Nat.mul_succ] at this; omega

theorem nodup_places {ilgh ilev lm : Nat} (h : lm ≤ ilgh) : ((places ilgh ilev lm).map (·.2)).Nodup := by
  rw [places, List.map_flatMap, List.nodup_flatMap]
  refine ⟨fun l _ => ?_, ?_⟩
  · rw [List.map_map]
    refine List.Nodup.map_on ?_ List.nodup_range
    intro x _ y _ e
    simp only [Function.comp] at e
    omega
  · refine List.Pairwise.imp_of_mem ?_ (List.nodup_range (n := ilev))
    intro l l' _ _ hne
    rw [Function.onFun, List.disjoint_left]
    intro o ho ho'
    simp only [List.mem_map, List.mem_range] at ho ho'
    obtain ⟨_, ⟨m, hm, rfl⟩, rfl⟩ := ho
    obtain ⟨_, ⟨m', hm', rfl⟩, e⟩ := ho'
    exact hne (place_inj (by omega) (by omega) e).1.symm

/-- C162.  The first `lm` coefficients of each level are `±` those of the second array plus `i·m·q` times those of the third, as
they were before the call, also if the result replaces one of the two; no other cell changes. -/
theorem C162_cells (s : Mem K) (af bf cf ilgh ilev lm : Nat) (q : K) (ign : Int) (hlm : lm ≤ ilgh)
    (hign : ign = 0 ∨ ign = 1 ∨ ign = -1) (hb : Clear af bf (ilgh * ilev)) (hc : Clear af cf (ilgh * ilev)) :
    let t := ewfdr2 s af bf cf ilgh ilev lm q ign
    (∀ l < ilev, ∀ m < lm,
      (t (af + (m + ilgh * l))).1 = ign * (s (bf + (m + ilgh * l))).1 - m * q * (s (cf + (m + ilgh * l))).2 ∧
      (t (af + (m + ilgh * l))).2 = ign * (s (bf + (m + ilgh * l))).2 + m * q * (s (cf + (m + ilgh * l))).1) ∧
    (∀ x, (∀ l < ilev, ∀ m < lm, x ≠ af + (m + ilgh * l)) → t x = s x) := by
  have hL : ∀ p ∈ places ilgh ilev lm, p.2 < ilgh * ilev := by
    intro p hp
    obtain ⟨l, hl, m, hm, rfl⟩ := mem_places.1 hp
    exact place_lt (by omega) hl
  obtain ⟨h1, h2⟩ := fold_spec af bf cf (ilgh * ilev) (cell ign q) hb hc _ hL (nodup_places hlm) s
  simp only [ewfdr2, if_pos hign]
  refine ⟨fun l hl m hm => ?_, fun x hx => h2 x ?_⟩
  · rw [h1 (m, m + ilgh * l) (mem_places.2 ⟨l, hl, m, hm, rfl⟩)]
    rcases hign with rfl | rfl | rfl
    · constructor <;> simp [cell, turn]
    · constructor <;> simp [cell, turn, sub_eq_add_neg]
    · constructor <;> simp [cell, turn, sub_eq_add_neg]
  · intro p hp
    obtain ⟨l, hl, m, hm, rfl⟩ := mem_places.1 hp
    exact hx l hl m hm

/-- C162.  Any other sign leaves the result as it was. -/
theorem C162_refused (s : Mem K) (af bf cf ilgh ilev lm : Nat) (q : K) (ign : Int) (h0 : ign ≠ 0) (h1 : ign ≠ 1) (h2 : ign ≠ -1) :
    ewfdr2 s af bf cf ilgh ilev lm q ign = s := by
  simp [ewfdr2, h0, h1, h2]

end

/-- The field at longitude `x` whose Fourier coefficients are the `lm` pairs at address `a`. -/
noncomputable def field (s : Mem ℝ) (a lm : Nat) (x : ℝ) : ℝ :=
  ∑ m ∈ Finset.range lm, ((s (a + m)).1 * Real.cos (m * x) - (s (a + m)).2 * Real.sin (m * x))

/-- C162.  The stored coefficients are those of the derivative with respect to the longitude, times `q`, plus or minus the second
field, at each level. -/
theorem C162_derivative (s : Mem ℝ) (af bf cf ilgh ilev lm : Nat) (q : ℝ) (ign : Int) (hlm : lm ≤ ilgh)
    (hign : ign = 0 ∨ ign = 1 ∨ ign = -1) (hb : Clear af bf (ilgh * ilev)) (hc : Clear af cf (ilgh * ilev)) (l : Nat) (hl : l < ilev)
    (x : ℝ) :
    ∃ d, HasDerivAt (field s (cf + ilgh * l) lm) d x ∧
      field (ewfdr2 s af bf cf ilgh ilev lm q ign) (af + ilgh * l) lm x = ign * field s (bf + ilgh * l) lm x + q * d := by
  refine ⟨∑ m ∈ Finset.range lm, ((s (cf + ilgh * l + m)).1 * (-Real.sin (m * x) * m) - (s (cf + ilgh * l + m)).2 * (Real.cos (m * x) * m)), ?_, ?_⟩
  · unfold field
    refine HasDerivAt.fun_sum fun m _ => ?_
    have hm : HasDerivAt (fun y : ℝ => (m : ℝ) * y) (m : ℝ) x := by simpa using (hasDerivAt_id x).const_mul (m : ℝ)
    exact (((Real.hasDerivAt_cos _).comp x hm).const_mul _).sub (((Real.hasDerivAt_sin _).comp x hm).const_mul _)
  · have h := (C162_cells s af bf cf ilgh ilev lm q ign hlm hign hb hc).1 l hl
    unfold field
    rw [Finset.mul_sum, Finset.mul_sum, ← Finset.sum_add_distrib]
    refine Finset.sum_congr rfl fun m hm => ?_
    obtain ⟨e1, e2⟩ := h m (Finset.mem_range.1 hm)
    rw [show ∀ a, a + ilgh * l + m = a + (m + ilgh * l) from fun a => by omega, e1, e2,
      show cf + ilgh * l + m = cf + (m + ilgh * l) by omega, show bf + ilgh * l + m = bf + (m + ilgh * l) by omega]
    ring

/-- In place, two levels of three coefficients of which two are treated, added to another array. -/
example :
    let s : Mem Int := fun x => (x, 10 + x)
    let t := ewfdr2 s 0 6 0 3 2 2 5 1
    Clear 0 6 (3 * 2) ∧ Clear 0 0 (3 * 2) ∧ (List.range 6).map t = [(6, 16), (7 - 55, 17 + 5), (2, 12), (9, 19), (10 - 70, 20 + 20), (5, 15)] := by
  refine ⟨Or.inr (Or.inl (by decide)), Or.inl rfl, by decide +kernel⟩


end Verif.EwFdr
