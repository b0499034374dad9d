import Mathlib.Data.List.Forall2
import Verif.EzGrid

/-! Property C74: table of grids. -/

namespace Verif.EzGrid

/-- Not a number. -/
def IsNan (x : Real32) : Prop := 0x7f800000#32 < x &&& 0x7fffffff#32

/-- Two numbers of the same value: equal bits, or zeros of any sign. -/
def SameValue (a b : Real32) : Prop := a = b ∨ (a &&& 0x7fffffff#32 = 0 ∧ b &&& 0x7fffffff#32 = 0)

/-- Arguments of `c_ezgdef_fmem` that are allowed here: any type but `#` and `U`; axes of types `Y`
and `Z` have as many elements as the grid needs, and all are numbers. -/
def Valid (c : Call) : Prop :=
  c.typ ≠ '#' ∧ c.typ ≠ 'U' ∧
    (c.typ = 'Z' → c.ax.length = c.ni ∧ c.ay.length = c.nj) ∧
    (c.typ = 'Y' → c.ax.length = c.ni * c.nj ∧ c.ay.length = c.ni * c.nj) ∧
    (c.typ = 'Z' ∨ c.typ = 'Y' → (∀ x ∈ c.ax, ¬ IsNan x) ∧ ∀ x ∈ c.ay, ¬ IsNan x)

/-- The same grid: all arguments which have a meaning for its type are equal. -/
def Same (a b : Call) : Prop :=
  a.typ = b.typ ∧ a.ni = b.ni ∧ a.nj = b.nj ∧ a.ig = b.ig ∧
    (a.typ = 'G' ∨ a.typ = 'Z' ∨ a.typ = 'Y' → a.ref = b.ref) ∧
    (a.typ = 'Z' ∨ a.typ = 'Y' → a.ax = b.ax ∧ a.ay = b.ay)

/-- The same type, size, parameters and values of the axes; the reference grids may differ. -/
def Alike (a b : Call) : Prop :=
  a.typ = b.typ ∧ a.ni = b.ni ∧ a.nj = b.nj ∧ a.ig = b.ig ∧
    (a.typ = 'Z' ∨ a.typ = 'Y' →
      List.Forall₂ SameValue a.ax b.ax ∧ List.Forall₂ SameValue a.ay b.ay)

/-- Grid number `id` of the table is the one of `c`. -/
def Holds (s : Table) (id : Int) (c : Call) : Prop :=
  let d := (s.slots id).d
  0 ≤ id ∧ id < s.n ∧ d.typ = c.typ ∧ d.ni = c.ni ∧ d.nj = c.nj ∧ d.ig = c.ig ∧
    (c.typ = 'Z' ∨ c.typ = 'Y' → ∃ x y, d.ax = some x ∧ d.ay = some y ∧
      List.Forall₂ SameValue x c.ax ∧ List.Forall₂ SameValue y c.ay)

/-! ### Values -/

theorem numEq_iff {a b : Real32} (ha : ¬ IsNan a) (hb : ¬ IsNan b) :
    numEq a b = true ↔ SameValue a b := by
  have h0 : (a ||| b) &&& 0x7fffffff#32 = 0 ↔
      a &&& 0x7fffffff#32 = 0 ∧ b &&& 0x7fffffff#32 = 0 := by
    constructor
    · intro h
      constructor <;>
      · apply BitVec.eq_of_getLsbD_eq
        intro i hi
        have := congrArg (fun v => v.getLsbD i) h
        simp only [BitVec.getLsbD_and, BitVec.getLsbD_or] at this ⊢
        cases h1 : a.getLsbD i <;> cases h2 : b.getLsbD i <;>
          cases h3 : (0x7fffffff#32).getLsbD i <;> simp_all
    · rintro ⟨h1, h2⟩
      apply BitVec.eq_of_getLsbD_eq
      intro i hi
      have e1 := congrArg (fun v => v.getLsbD i) h1
      have e2 := congrArg (fun v => v.getLsbD i) h2
      simp only [BitVec.getLsbD_and, BitVec.getLsbD_or] at e1 e2 ⊢
      cases h1 : a.getLsbD i <;> cases h2 : b.getLsbD i <;>
          cases h3 : (0x7fffffff#32).getLsbD i <;> simp_all
  unfold IsNan at ha hb
  unfold numEq SameValue
  simp only [gt_iff_lt, ha, hb, decide_false, Bool.not_false, Bool.true_and,
    Bool.or_eq_true, beq_iff_eq]
  rw [← h0]

theorem SameValue.refl (a : Real32) : SameValue a a := Or.inl rfl

theorem SameValue.symm {a b : Real32} (h : SameValue a b) : SameValue b a := by
  rcases h with rfl | ⟨h1, h2⟩
  · exact Or.inl rfl
  · exact Or.inr ⟨h2, h1⟩

theorem SameValue.trans {a b c : Real32} (h : SameValue a b) (h' : SameValue b c) :
    SameValue a c := by
  rcases h with rfl | ⟨h1, h2⟩
  · exact h'
  · rcases h' with rfl | ⟨h3, h4⟩
    · exact Or.inr ⟨h1, h2⟩
    · exact Or.inr ⟨h1, h4⟩

theorem SameValue.nan {a b : Real32} (h : SameValue a b) (hb : ¬ IsNan b) : ¬ IsNan a := by
  rcases h with rfl | ⟨h1, h2⟩
  · exact hb
  · unfold IsNan
    rw [h1]
    decide

theorem near_refl (l : List Real32) : List.Forall₂ SameValue l l := by
  induction l with
  | nil => exact .nil
  | cons a l ih => exact .cons (.refl a) ih

theorem near_symm {l m : List Real32} (h : List.Forall₂ SameValue l m) :
    List.Forall₂ SameValue m l := by
  induction h with
  | nil => exact .nil
  | cons a _ ih => exact .cons a.symm ih

theorem near_trans {l m k : List Real32} (h : List.Forall₂ SameValue l m)
    (h' : List.Forall₂ SameValue m k) : List.Forall₂ SameValue l k := by
  induction h generalizing k with
  | nil => exact h'
  | cons a _ ih =>
    cases h' with
    | cons b t => exact .cons (a.trans b) (ih t)

theorem near_length {l m : List Real32} (h : List.Forall₂ SameValue l m) : l.length = m.length := by
  induction h with
  | nil => rfl
  | cons a _ ih => simp [ih]

theorem near_nan {l m : List Real32} (h : List.Forall₂ SameValue l m) (hm : ∀ x ∈ m, ¬ IsNan x) :
    ∀ x ∈ l, ¬ IsNan x := by
  induction h with
  | nil => simp
  | cons a _ ih =>
    intro x hx
    rcases List.mem_cons.1 hx with rfl | hx
    · exact a.nan (hm _ (by simp))
    · exact ih (fun y hy => hm y (by simp [hy])) x hx

open Classical in
theorem axisEq_eq {m : Nat} {a b : List Real32} (ha : a.length = m) (hb : b.length = m)
    (na : ∀ x ∈ a, ¬ IsNan x) (nb : ∀ x ∈ b, ¬ IsNan x) :
    axisEq m a b = .ok (decide (List.Forall₂ SameValue a b)) := by
  induction m generalizing a b with
  | zero =>
    rw [List.length_eq_zero_iff.1 ha, List.length_eq_zero_iff.1 hb, axisEq]
    simp
  | succ m ih =>
    match a, b with
    | x :: a, y :: b =>
      rw [axisEq]
      by_cases h : SameValue x y
      · rw [if_pos ((numEq_iff (na x (by simp)) (nb y (by simp))).2 h),
          ih (by simpa using ha) (by simpa using hb) (fun z hz => na z (by simp [hz]))
            (fun z hz => nb z (by simp [hz]))]
        simp [h]
      · rw [if_neg (fun h' => h ((numEq_iff (na x (by simp)) (nb y (by simp))).1 h'))]
        simp [h]

/-! ### Alike -/

theorem Same.alike {a b : Call} (h : Same a b) : Alike a b := by
  obtain ⟨h1, h2, h3, h4, h5, h6⟩ := h
  refine ⟨h1, h2, h3, h4, fun h => ?_⟩
  rw [(h6 h).1, (h6 h).2]
  exact ⟨near_refl _, near_refl _⟩

theorem Alike.refl (a : Call) : Alike a a :=
  ⟨rfl, rfl, rfl, rfl, fun _ => ⟨near_refl _, near_refl _⟩⟩

theorem Alike.symm {a b : Call} (h : Alike a b) : Alike b a := by
  obtain ⟨h1, h2, h3, h4, h5⟩ := h
  exact ⟨h1.symm, h2.symm, h3.symm, h4.symm, fun h => by
    rw [← h1] at h
    exact ⟨near_symm (h5 h).1, near_symm (h5 h).2⟩⟩

theorem Alike.trans {a b c : Call} (h : Alike a b) (h' : Alike b c) : Alike a c := by
  obtain ⟨h1, h2, h3, h4, h5⟩ := h
  obtain ⟨g1, g2, g3, g4, g5⟩ := h'
  refine ⟨h1.trans g1, h2.trans g2, h3.trans g3, h4.trans g4, fun h => ?_⟩
  have := g5 (h1 ▸ h)
  exact ⟨near_trans (h5 h).1 this.1, near_trans (h5 h).2 this.2⟩

/-- What the table has for the grid of call `c`, or of one like it. -/
def Stored (c : Call) (d : Desc) : Prop :=
  d.typ = c.typ ∧ d.ni = c.ni ∧ d.nj = c.nj ∧ d.ig = c.ig ∧
    (c.typ = 'Z' ∨ c.typ = 'Y' → d.igref = c.ig ∧ ∃ x y, d.ax = some x ∧ d.ay = some y ∧
      List.Forall₂ SameValue x c.ax ∧ List.Forall₂ SameValue y c.ay) ∧
    (irregular c.typ = false → d.igref = (0, 0, 0, 0) ∧ d.ax = none)

open Classical in
theorem compare_eq {c k : Call} (hc : Valid c) (hk : Valid k) {d : Desc} (hd : Stored k d) :
    compare (newGrid c) d = .ok (if Alike c k then .same else .next) := by
  obtain ⟨t, n1, n2, g, yz, reg⟩ := hd
  have htyp : (newGrid c).typ = c.typ := by unfold newGrid; split <;> rfl
  have hni : (newGrid c).ni = c.ni := by unfold newGrid; split <;> rfl
  have hnj : (newGrid c).nj = c.nj := by unfold newGrid; split <;> rfl
  have hig : (newGrid c).ig = c.ig := by unfold newGrid; split <;> rfl
  unfold compare
  rw [if_neg (by rw [htyp]; exact fun h => hc.2.1 h.1)]
  rw [htyp, hni, hnj, hig, t, n1, n2, g]
  by_cases hb : c.typ = k.typ ∧ c.ni = k.ni ∧ c.nj = k.nj ∧ c.ig = k.ig
  · rw [if_pos hb]
    by_cases hG : c.typ = 'G'
    · rw [if_pos hG, if_pos]
      refine ⟨hb.1, hb.2.1, hb.2.2.1, hb.2.2.2, fun h => ?_⟩
      rw [hG] at h
      simp at h
    · rw [if_neg hG]
      by_cases hyz : c.typ = 'Z' ∨ c.typ = 'Y'
      · have hyz' : k.typ = 'Z' ∨ k.typ = 'Y' := hb.1 ▸ hyz
        obtain ⟨ir, x, y, hx, hy, nx, ny⟩ := yz hyz'
        have hirr : irregular c.typ = true := by rcases hyz with h | h <;> rw [h] <;> decide
        have e1 : (newGrid c).igref = c.ig := by unfold newGrid; rw [if_pos hirr]
        have e2 : (newGrid c).ax = some c.ax := by unfold newGrid; rw [if_pos hirr]; simp [hG]
        have e3 : (newGrid c).ay = some c.ay := by unfold newGrid; rw [if_pos hirr]; simp [hG]
        rw [e1, e2, e3, ir, hb.2.2.2, if_pos rfl, hx, hy]
        have nanc := hc.2.2.2.2 hyz
        have nank := hk.2.2.2.2 hyz'
        have lx := near_length nx
        have ly := near_length ny
        have main : ∀ mx my : Nat, c.ax.length = mx → c.ay.length = my → k.ax.length = mx →
            k.ay.length = my →
            (do
              let ex ← axisEq mx x c.ax
              if ex then
                let ey ← axisEq my y c.ay
                .ok (if ey then Verdict.same else .next)
              else .ok .next : Except Fault Verdict) = .ok (if Alike c k then .same else .next) := by
          intro mx my h1 h2 h3 h4
          rw [axisEq_eq (lx.trans h3) h1 (near_nan nx nank.1) nanc.1,
            axisEq_eq (ly.trans h4) h2 (near_nan ny nank.2) nanc.2]
          have hal : Alike c k ↔
              List.Forall₂ SameValue x c.ax ∧ List.Forall₂ SameValue y c.ay := by
            constructor
            · intro h
              have := h.2.2.2.2 hyz
              exact ⟨near_trans nx (near_symm this.1), near_trans ny (near_symm this.2)⟩
            · rintro ⟨p, q⟩
              exact ⟨hb.1, hb.2.1, hb.2.2.1, hb.2.2.2, fun _ =>
                ⟨near_trans (near_symm p) nx, near_trans (near_symm q) ny⟩⟩
          by_cases p : List.Forall₂ SameValue x c.ax
          · by_cases q : List.Forall₂ SameValue y c.ay
            · simp [hal, p, q, bind, Except.bind]
            · simp [hal, p, q, bind, Except.bind]
          · simp [hal, p, bind, Except.bind]
        apply main
        · rcases hyz with h | h
          · rw [if_pos (hb.1 ▸ h)]; exact (hc.2.2.1 h).1
          · rw [if_neg (by rw [← hb.1, h]; decide)]; exact (hc.2.2.2.1 h).1
        · rcases hyz with h | h
          · rw [if_pos (hb.1 ▸ h)]; exact (hc.2.2.1 h).2
          · rw [if_neg (by rw [← hb.1, h]; decide)]; exact (hc.2.2.2.1 h).2
        · rcases hyz' with h | h
          · rw [if_pos h, hb.2.1]; exact (hk.2.2.1 h).1
          · rw [if_neg (by rw [h]; decide), hb.2.1, hb.2.2.1]; exact (hk.2.2.2.1 h).1
        · rcases hyz' with h | h
          · rw [if_pos h, hb.2.2.1]; exact (hk.2.2.1 h).2
          · rw [if_neg (by rw [h]; decide), hb.2.1, hb.2.2.1]; exact (hk.2.2.2.1 h).2
      · have hirr : irregular c.typ = false := by
          have := hc.1
          simp only [not_or] at hyz
          simp [irregular, hyz.1, hyz.2, hG, this]
        have hirr' : irregular k.typ = false := hb.1 ▸ hirr
        obtain ⟨ir, hx⟩ := reg hirr'
        have e1 : (newGrid c).igref = (0, 0, 0, 0) := by
          unfold newGrid; rw [if_neg (by rw [hirr]; decide)]
        have hal : Alike c k := ⟨hb.1, hb.2.1, hb.2.2.1, hb.2.2.2, fun h => absurd h hyz⟩
        rw [e1, ir, if_pos rfl, hx, if_pos hal]
  · rw [if_neg hb, if_neg (fun h => hb ⟨h.1, h.2.1, h.2.2.1, h.2.2.2.1⟩)]

end Verif.EzGrid
