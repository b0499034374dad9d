import Verif.EzYinYang
import Verif.Props.EzOpt
import Verif.Props.EzZones

/-! # Pairs of grids: positions, options and interpolation -/

namespace Verif.EzYinYang
open Verif.EzOpt Verif.EzZones Verif.EzInterp

/-! ## C115: positions on a pair -/

theorem band_skip (lo hi : ℚ) (l : List ℚ) (i : ℕ) (b : Band) (h : ∀ a ∈ l, ¬ (lo ≤ a ∧ a ≤ hi)) :
    band lo hi l i b = b := by
  induction l generalizing i with
  | nil => rfl
  | cons a l ih =>
    simp only [band, if_neg (h a (by simp))]
    exact ih _ fun c hc => h c (by simp [hc])

/-- With entries already found, the run goes on and then stops. -/
theorem band_run (lo hi : ℚ) (l : List ℚ) (i : ℕ) (b : Band) (hs : l.Pairwise (· < ·))
    (hlo : ∀ a ∈ l, lo ≤ a) (hb : 1 ≤ b.n) (hi1 : b.i1 + 1 = i) :
    let k := (l.takeWhile fun a => decide (a ≤ hi)).length
    band lo hi l i b = ⟨b.n + k, b.i0, b.i1 + k⟩ := by
  induction l generalizing i b with
  | nil => rfl
  | cons a l ih =>
    obtain ⟨ha, hl⟩ := List.pairwise_cons.1 hs
    by_cases h : a ≤ hi
    · have := ih (i + 1) ⟨b.n + 1, if b.n + 1 = 1 then i else b.i0, i⟩ hl
        (fun c hc => hlo c (by simp [hc])) (by simp) rfl
      simp only [band, if_pos (show lo ≤ a ∧ a ≤ hi from ⟨hlo a (by simp), h⟩)]
      rw [this]
      simp only [List.takeWhile_cons, h, decide_true, if_true, List.length_cons]
      simp only [Band.mk.injEq]
      refine ⟨by omega, if_neg (by omega), by omega⟩
    · simp only [List.takeWhile_cons, h, decide_false, Bool.false_eq_true, if_false, List.length_nil]
      rw [band_skip]
      · rfl
      · intro c hc hcc
        rcases List.mem_cons.1 hc with rfl | hc
        · exact h hcc.2
        · exact h (le_trans (le_of_lt (ha c hc)) hcc.2)

theorem filter_eq_takeWhile (hi : ℚ) (l : List ℚ) (hs : l.Pairwise (· < ·)) :
    l.filter (fun a => decide (a ≤ hi)) = l.takeWhile fun a => decide (a ≤ hi) := by
  induction l with
  | nil => rfl
  | cons a l ih =>
    obtain ⟨ha, hl⟩ := List.pairwise_cons.1 hs
    by_cases h : a ≤ hi
    · simp [h, ih hl]
    · simp only [List.filter_cons, List.takeWhile_cons, h, decide_false, Bool.false_eq_true, if_false]
      rw [List.filter_eq_nil_iff]
      intro c hc
      have := ha c hc
      simp only [decide_eq_true_eq, not_le]
      linarith

theorem take_takeWhile (p : ℚ → Bool) (l : List ℚ) :
    l.take (l.takeWhile p).length = l.takeWhile p := by
  induction l with
  | nil => rfl
  | cons a l ih => by_cases h : p a <;> simp [h, ih]

theorem band_spec (lo hi : ℚ) (l : List ℚ) (i : ℕ) (hs : l.Pairwise (· < ·)) :
    let b := band lo hi l i {}
    let f := l.filter fun a => decide (lo ≤ a ∧ a ≤ hi)
    b.n = f.length ∧ (f ≠ [] → i ≤ b.i0 ∧ b.i1 + 1 = b.i0 + b.n ∧ (l.drop (b.i0 - i)).take b.n = f) := by
  induction l generalizing i with
  | nil => simp [band]
  | cons a l ih =>
    obtain ⟨ha, hl⟩ := List.pairwise_cons.1 hs
    by_cases h : lo ≤ a ∧ a ≤ hi
    · have hlo : ∀ c ∈ l, lo ≤ c := fun c hc => le_trans h.1 (le_of_lt (ha c hc))
      have hr := band_run lo hi l (i + 1) ⟨1, i, i⟩ hl hlo le_rfl rfl
      simp only at hr
      have hf : l.filter (fun a => decide (lo ≤ a ∧ a ≤ hi)) = l.takeWhile fun a => decide (a ≤ hi) := by
        rw [← filter_eq_takeWhile hi l hl]
        refine List.filter_congr fun c hc => ?_
        simp [hlo c hc]
      simp only [band, if_pos h, Nat.zero_add, if_true, hr]
      simp only [List.filter_cons, decide_eq_true h, if_true, hf, List.length_cons]
      refine ⟨by omega, fun _ => ⟨le_rfl, by omega, ?_⟩⟩
      rw [Nat.sub_self, List.drop_zero, Nat.add_comm, List.take_succ_cons, take_takeWhile]
    · have := ih (i + 1) hl
      simp only at this
      simp only [band, if_neg h, List.filter_cons, decide_eq_false h, Bool.false_eq_true, if_false]
      refine ⟨this.1, fun hf => ?_⟩
      obtain ⟨h1, h2, h3⟩ := this.2 hf
      refine ⟨by omega, h2, ?_⟩
      rw [show (band lo hi l (i + 1) {}).i0 - i = ((band lo hi l (i + 1) {}).i0 - (i + 1)) + 1 by omega,
        List.drop_succ_cons, h3]

/-- **C115, mask.**  The axis of the mask grid of a grid with an ascending axis has exactly the entries
within the limits, in order, and the limits kept with the grid are the 0-based numbers of the first and
the last of them. -/
theorem C115_mask (lo hi : ℚ) (ax : List ℚ) (hs : ax.Pairwise (· < ·)) :
    bandAxis lo hi ax = ax.filter (fun a => decide (lo ≤ a ∧ a ≤ hi)) ∧
      ((∃ a ∈ ax, lo ≤ a ∧ a ≤ hi) → ∀ (k : ℕ) (hk : k < ax.length),
        ((band lo hi ax 0 {}).i0 ≤ k ∧ k ≤ (band lo hi ax 0 {}).i1 ↔ lo ≤ ax[k] ∧ ax[k] ≤ hi)) := by
  obtain ⟨h1, h2⟩ := band_spec lo hi ax 0 hs
  have h3 : bandAxis lo hi ax = ax.filter (fun a => decide (lo ≤ a ∧ a ≤ hi)) := by
    by_cases hf : ax.filter (fun a => decide (lo ≤ a ∧ a ≤ hi)) = []
    · simp only [bandAxis, h1, hf]; simp
    · exact (h2 hf).2.2
  refine ⟨h3, fun ⟨c, hc, hcl⟩ k hk => ?_⟩
  have hne : ax.filter (fun a => decide (lo ≤ a ∧ a ≤ hi)) ≠ [] := fun h =>
    absurd (List.filter_eq_nil_iff.1 h c hc) (by simpa using hcl)
  obtain ⟨-, h4, h5⟩ := h2 hne
  simp only [Nat.sub_zero] at h5
  generalize (band lo hi ax 0 {}).i0 = i0 at *
  generalize (band lo hi ax 0 {}).i1 = i1 at *
  generalize (band lo hi ax 0 {}).n = n at *
  have hlen := congrArg List.length h5
  rw [← h1, List.length_take, List.length_drop] at hlen
  have hn : 1 ≤ n := by rw [h1]; exact List.length_pos_iff.2 hne
  have hin : ∀ (m : ℕ) (hm : m < ax.length), i0 ≤ m → m ≤ i1 → lo ≤ ax[m] ∧ ax[m] ≤ hi := by
    intro m hm ha hb
    have : ax[m] ∈ (ax.drop i0).take n := by
      rw [List.mem_take_iff_getElem]
      refine ⟨m - i0, by rw [List.length_drop]; omega, ?_⟩
      rw [List.getElem_drop]
      congr 1; omega
    rw [h5] at this
    simpa using (List.mem_filter.1 this).2
  refine ⟨fun ⟨ha, hb⟩ => hin k hk ha hb, fun hkk => ?_⟩
  have hmem : ax[k] ∈ (ax.drop i0).take n := by
    rw [h5]; exact List.mem_filter.2 ⟨List.getElem_mem _, by simpa using hkk⟩
  obtain ⟨m, hm, he⟩ := List.mem_take_iff_getElem.1 hmem
  rw [List.getElem_drop] at he
  rw [List.length_drop] at hm
  have hnd : ax.Nodup := hs.imp (fun h => ne_of_lt h)
  have := (List.Nodup.getElem_inj_iff hnd).1 he
  omega

example : bandAxis 45 315 [30, 40, 60, 180, 300, 320] = [60, 180, 300] ∧
    band 45 315 [30, 40, 60, 180, 300, 320] 0 {} = ⟨3, 2, 4⟩ := by decide +kernel

/-- Within the grid, as positions. -/
def Sub.Inside (s : Sub) (q : ℚ × ℚ) : Prop := 1 ≤ q.1 ∧ q.1 ≤ s.ni ∧ 1 ≤ q.2 ∧ q.2 ≤ s.nj

theorem core_inside (s : Sub) (q : ℚ × ℚ) (h1 : 1 ≤ s.i0) (h2 : 1 ≤ s.j0) (h3 : s.i1 ≤ s.ni)
    (h4 : s.j1 ≤ s.nj) (h : s.core q = true) : s.Inside q := by
  simp only [Sub.core, decide_eq_true_eq] at h
  have a1 : (1 : ℚ) ≤ s.i0 := by exact_mod_cast h1
  have a2 : (1 : ℚ) ≤ s.j0 := by exact_mod_cast h2
  have a3 : (s.i1 : ℚ) ≤ s.ni := by exact_mod_cast h3
  have a4 : (s.j1 : ℚ) ≤ s.nj := by exact_mod_cast h4
  exact ⟨by linarith [h.1], by linarith [h.2.1], by linarith [h.2.2.1], by linarith [h.2.2.2]⟩

theorem not_bad (s : Sub) (q : ℚ × ℚ) : s.bad q = false ↔ s.Inside q := by
  simp only [Sub.bad, Sub.Inside, decide_eq_false_iff_not, not_or, not_lt]
  tauto

/-- **C115.**  Where both masks leave out the first row and the first column, a point within at least
one of the two grids gets a position within one of them, from that grid: with row at most `nj` within
yin, with a greater row within yang once `nj` is taken off. -/
theorem C115_partial (yin yan : Sub) (p : ℚ × ℚ) (a1 : 1 ≤ yin.i0) (a2 : 1 ≤ yin.j0)
    (a3 : yin.i1 ≤ yin.ni) (a4 : yin.j1 ≤ yin.nj) (b1 : 1 ≤ yan.i0) (b2 : 1 ≤ yan.j0)
    (b3 : yan.i1 ≤ yan.ni) (b4 : yan.j1 ≤ yan.nj)
    (hp : yin.Inside (yin.xy p) ∨ yan.Inside (yan.xy p)) :
    let q := gdxyfll yin yan p
    (q.2 ≤ yin.nj ∧ q = yin.xy p ∧ yin.Inside q) ∨
      ((yin.nj : ℚ) < q.2 ∧ (q.1, q.2 - yin.nj) = yan.xy p ∧ yan.Inside (q.1, q.2 - yin.nj)) := by
  intro q
  have key : (q = yin.xy p ∧ yin.Inside (yin.xy p)) ∨
      (q = ((yan.xy p).1, (yan.xy p).2 + yin.nj) ∧ yan.Inside (yan.xy p)) := by
    by_cases h1 : yin.core (yin.xy p) = true
    · exact Or.inl ⟨by simp only [q, gdxyfll, h1, if_true], core_inside _ _ a1 a2 a3 a4 h1⟩
    · by_cases h2 : yan.core (yan.xy p) = true
      · exact Or.inr ⟨by simp only [q, gdxyfll, h1, h2, if_true, if_false, Bool.false_eq_true],
          core_inside _ _ b1 b2 b3 b4 h2⟩
      · cases h3 : yin.bad (yin.xy p)
        · exact Or.inl ⟨by simp only [q, gdxyfll, h1, h2, h3, if_false, Bool.false_eq_true],
            (not_bad _ _).1 h3⟩
        · refine Or.inr ⟨by simp only [q, gdxyfll, h1, h2, h3, if_true, if_false, Bool.false_eq_true], ?_⟩
          rcases hp with hp | hp
          · rw [(not_bad _ _).2 hp] at h3; cases h3
          · exact hp
  rcases key with ⟨h, hin⟩ | ⟨h, hin⟩
  · refine Or.inl ⟨?_, h, h ▸ hin⟩
    rw [h]; exact hin.2.2.2
  · have e : (q.1, q.2 - yin.nj) = yan.xy p := by rw [h]; ext <;> simp
    refine Or.inr ⟨?_, e, e ▸ hin⟩
    rw [h]
    have := hin.2.2.1
    show (yin.nj : ℚ) < (yan.xy p).2 + yin.nj
    linarith

/-- **C115, there and back.**  Where the functions of the two grids are inverse, so are those of the
pair, under the same conditions. -/
theorem C115_back_partial (yin yan : Sub) (p : ℚ × ℚ) (a1 : 1 ≤ yin.i0) (a2 : 1 ≤ yin.j0)
    (a3 : yin.i1 ≤ yin.ni) (a4 : yin.j1 ≤ yin.nj) (b1 : 1 ≤ yan.i0) (b2 : 1 ≤ yan.j0)
    (b3 : yan.i1 ≤ yan.ni) (b4 : yan.j1 ≤ yan.nj)
    (hp : yin.Inside (yin.xy p) ∨ yan.Inside (yan.xy p))
    (h1 : yin.ll (yin.xy p) = p) (h2 : yan.ll (yan.xy p) = p) :
    gdllfxy yin yan (gdxyfll yin yan p) = p := by
  rcases C115_partial yin yan p a1 a2 a3 a4 b1 b2 b3 b4 hp with ⟨h, e, -⟩ | ⟨h, e, -⟩
  · simp only [gdllfxy, row, if_neg (not_lt.2 h)]
    rw [Prod.mk.eta, e, h1]
  · simp only [gdllfxy, row, if_pos h]
    rw [e, h2]

/-- **C115, values.**  Under the same conditions the value at a point is that of one of the grids at the
position of the point in it, and the point is within that grid. -/
theorem C115_value_partial (yin yan : Sub) (vyin vyan : ℚ × ℚ → Option ℚ) (p : ℚ × ℚ)
    (a1 : 1 ≤ yin.i0) (a2 : 1 ≤ yin.j0) (a3 : yin.i1 ≤ yin.ni) (a4 : yin.j1 ≤ yin.nj)
    (b1 : 1 ≤ yan.i0) (b2 : 1 ≤ yan.j0) (b3 : yan.i1 ≤ yan.ni) (b4 : yan.j1 ≤ yan.nj)
    (hp : yin.Inside (yin.xy p) ∨ yan.Inside (yan.xy p)) :
    (gdllsval yin yan vyin vyan p = vyin (yin.xy p) ∧ yin.Inside (yin.xy p)) ∨
      (gdllsval yin yan vyin vyan p = vyan (yan.xy p) ∧ yan.Inside (yan.xy p)) := by
  rcases C115_partial yin yan p a1 a2 a3 a4 b1 b2 b3 b4 hp with ⟨h, e, hin⟩ | ⟨h, e, hin⟩
  · refine Or.inl ⟨?_, e ▸ hin⟩
    simp only [gdllsval, gdxysval, row, if_neg (not_lt.2 h)]
    rw [Prod.mk.eta, e]
  · refine Or.inr ⟨?_, e ▸ hin⟩
    simp only [gdllsval, gdxysval, row, if_pos h]
    rw [e]

/-- **C115, choice.**  Yin is preferred: a point of the region kept for yin is taken from yin, another
point of the region kept for yang from yang, and any other point from yin if it is within yin. -/
theorem C115_choice (yin yan : Sub) (p : ℚ × ℚ) :
    let core : Sub → ℚ × ℚ → Prop := fun s q =>
      (s.i0 : ℚ) ≤ q.1 ∧ q.1 ≤ s.i1 ∧ (s.j0 : ℚ) ≤ q.2 ∧ q.2 ≤ s.j1
    (core yin (yin.xy p) → gdxyfll yin yan p = yin.xy p) ∧
      (¬ core yin (yin.xy p) → core yan (yan.xy p) →
        gdxyfll yin yan p = ((yan.xy p).1, (yan.xy p).2 + yin.nj)) ∧
      (¬ core yan (yan.xy p) → yin.Inside (yin.xy p) → gdxyfll yin yan p = yin.xy p) := by
  intro core
  have hc : ∀ (s : Sub) q, s.core q = true ↔ core s q := fun s q => by
    simp only [Sub.core, decide_eq_true_eq, core]
  refine ⟨fun h => ?_, fun h h' => ?_, fun h h' => ?_⟩
  · simp only [gdxyfll, (hc _ _).2 h, if_true]
  · rw [← hc] at h h'
    simp only [gdxyfll, h, h', if_true, if_false, Bool.false_eq_true]
  · rw [← hc] at h
    simp only [gdxyfll, h, (not_bad _ _).2 h', if_false, Bool.false_eq_true, ite_self]

/-- Two grids of 6 by 5 points whose masks leave out the first and last rows and columns; a point of
both, one of yin only and one of yang only. -/
def exYin : Sub := ⟨6, 5, 1, 4, 1, 3, fun p => p, fun p => p⟩
/-- Its companion, shifted by three cells. -/
def exYan : Sub := ⟨6, 5, 1, 4, 1, 3, fun p => (p.1 - 3, p.2), fun p => (p.1 + 3, p.2)⟩

example : gdxyfll exYin exYan (2, 2) = (2, 2) ∧ gdxyfll exYin exYan (5, 2) = (2, 7) ∧
    gdxyfll exYin exYan (8, 4) = (5, 9) ∧ gdllfxy exYin exYan (5, 9) = (8, 4) := by decide +kernel

/-- **C115 fails for a mask from the first column on.**  The numbers of the mask count from 0 and
positions from 1, so that a position less than 1 is taken from yin though the point is outside yin and
within yang. -/
theorem C115_first_witness :
    ∃ (yin yan : Sub) (p : ℚ × ℚ), band 45 315 [50, 100, 200, 300, 330, 340] 0 {} = ⟨4, 0, 3⟩ ∧
      yin.i0 = 0 ∧ yin.i1 = 3 ∧ yan.Inside (yan.xy p) ∧ ¬ yin.Inside (yin.xy p) ∧
      gdxyfll yin yan p = yin.xy p := by
  refine ⟨⟨6, 5, 0, 3, 1, 3, fun p => p, fun p => p⟩,
    ⟨6, 5, 1, 4, 1, 3, fun p => (p.1 + 3, p.2), fun p => (p.1 - 3, p.2)⟩, (1 / 2, 2), by decide +kernel,
    rfl, rfl, ?_, ?_, by decide +kernel⟩ <;> simp only [Sub.Inside] <;> norm_num

/-- **The last column of a mask is not kept.**  Position 5 is the last column of the mask 1..4 counted
from 0; a point there is taken from yang. -/
theorem C115_last_witness :
    gdxyfll exYin exYan (5, 2) = (2, 7) ∧ exYin.xy (5, 2) = (((exYin.i1 + 1 : ℕ) : ℚ), 2) := by
  decide +kernel

/-! ## C116: the options after the mask is made -/

theorem lower_interp : lower "interp_degree" = "interp_degree" := by decide +kernel
theorem lower_extrap : lower "extrap_degree" = "extrap_degree" := by decide +kernel
theorem lower_value : lower "extrap_value" = "extrap_value" := by decide +kernel

theorem get_interp (o : Opts) (w : String) :
    getopt o "interp_degree" w = some (interpName o.interp false) := by
  simp only [getopt, lower_interp]
  rfl

theorem get_extrap (o : Opts) (w : String) :
    getopt o "extrap_degree" w = some (extrapName o.extrap false) := by
  simp only [getopt, lower_extrap]
  rfl

theorem get_value {F : Type} (ofInt : Int → F) (v : Vals F) (g : F) :
    getval ofInt v "extrap_value" g = some v.extrap := by
  simp only [getval, lower_value]
  rfl

theorem set_value {F : Type} (v : Vals F) (f : F) :
    setfval v "extrap_value" f = some { v with extrap := f } := by
  simp only [setfval, lower_value]
  rfl

theorem set_interp (o : Opts) (t : String) (ht : t.length < 32) :
    setopt o "interp_degree" t =
      some (match assign o "interp_degree" (englishVal (lower t)) with
        | some o' => (0, o')
        | none => (-1, o)) := by
  rw [setopt_short _ _ _ (by decide) ht, lower_interp]
  rfl

theorem set_extrap (o : Opts) (t : String) (ht : t.length < 32) :
    setopt o "extrap_degree" t =
      some (match assign o "extrap_degree" (englishVal (lower t)) with
        | some o' => (0, o')
        | none => (-1, o)) := by
  rw [setopt_short _ _ _ (by decide) ht, lower_extrap]
  rfl

/-- Names of degrees of interpolation set again. -/
theorem set_interpName (o : Opts) (d : Int) :
    setopt o "interp_degree" (interpName d false) =
      if d = 0 ∨ d = 1 ∨ d = 3 then some (0, { o with interp := d }) else some (-1, o) := by
  by_cases h0 : d = 0
  · subst h0
    show setopt o "interp_degree" "nearest" = _
    rw [set_interp _ _ (by decide), show lower "nearest" = "nearest" by decide +kernel]; rfl
  by_cases h1 : d = 1
  · subst h1
    show setopt o "interp_degree" "linear" = _
    rw [set_interp _ _ (by decide), show lower "linear" = "linear" by decide +kernel]; rfl
  by_cases h3 : d = 3
  · subst h3
    show setopt o "interp_degree" "cubic" = _
    rw [set_interp _ _ (by decide), show lower "cubic" = "cubic" by decide +kernel]; rfl
  · rw [if_neg (by tauto), show interpName d false = "error" by simp [interpName, h0, h1, h3],
      set_interp _ _ (by decide), show lower "error" = "error" by decide +kernel]; rfl

/-- Names of degrees of extrapolation set again. -/
theorem set_extrapName (o : Opts) (d : Int) (hd : d ∈ [0, 1, 3, 4, 5, 6, 13]) :
    setopt o "extrap_degree" (extrapName d false) = some (0, { o with extrap := d }) := by
  simp only [List.mem_cons, List.not_mem_nil, or_false] at hd
  rcases hd with rfl | rfl | rfl | rfl | rfl | rfl | rfl
  · show setopt o "extrap_degree" "nearest" = _
    rw [set_extrap _ _ (by decide), show lower "nearest" = "nearest" by decide +kernel]; rfl
  · show setopt o "extrap_degree" "linear" = _
    rw [set_extrap _ _ (by decide), show lower "linear" = "linear" by decide +kernel]; rfl
  · show setopt o "extrap_degree" "cubic" = _
    rw [set_extrap _ _ (by decide), show lower "cubic" = "cubic" by decide +kernel]; rfl
  · show setopt o "extrap_degree" "maximum" = _
    rw [set_extrap _ _ (by decide), show lower "maximum" = "maximum" by decide +kernel]; rfl
  · show setopt o "extrap_degree" "minimum" = _
    rw [set_extrap _ _ (by decide), show lower "minimum" = "minimum" by decide +kernel]; rfl
  · show setopt o "extrap_degree" "value" = _
    rw [set_extrap _ _ (by decide), show lower "value" = "value" by decide +kernel]; rfl
  · show setopt o "extrap_degree" "abort" = _
    rw [set_extrap _ _ (by decide), show lower "abort" = "abort" by decide +kernel]; rfl

theorem extrapName_value (d : Int) (hd : d ∈ [0, 1, 3, 4, 5, 6, 13]) :
    extrapName d false = "value" ↔ d = 6 := by
  simp only [List.mem_cons, List.not_mem_nil, or_false] at hd
  rcases hd with rfl | rfl | rfl | rfl | rfl | rfl | rfl <;> decide +kernel

/-- What `c_ezyymint` does to the options, for every degree of interpolation. -/
theorem yymint_eq {F : Type} (ofInt : Int → F) (one : F) (junk : String) (g : F) (o : Opts)
    (v : Vals F) (he : o.extrap ∈ [0, 1, 3, 4, 5, 6, 13]) :
    yymintOpts ofInt one junk g o v =
      some (({ o with interp := 0, extrap := 6 }, { v with extrap := one }),
        ({ o with interp := if o.interp = 0 ∨ o.interp = 1 ∨ o.interp = 3 then o.interp else 0 },
          if o.extrap = 6 then v else { v with extrap := one })) := by
  have hn : ∀ o : Opts, setopt o "interp_degree" "nearest" = some (0, { o with interp := 0 }) :=
    fun o => set_interpName o 0
  have hv : ∀ o : Opts, setopt o "extrap_degree" "value" = some (0, { o with extrap := 6 }) :=
    fun o => set_extrapName o 6 (by decide)
  simp only [yymintOpts, get_interp, get_extrap, get_value, set_value, hn, hv, set_interpName,
    extrapName_value _ he, bind, Option.bind]
  by_cases h6 : o.extrap = 6 <;> by_cases hi : o.interp = 0 ∨ o.interp = 1 ∨ o.interp = 3 
  · simp only [if_pos h6, if_pos hi, set_extrapName _ _ he]; rfl
  · simp only [if_pos h6, if_neg hi, set_extrapName _ _ he]; rfl
  · simp only [if_neg h6, if_pos hi, set_extrapName _ _ he]; rfl
  · simp only [if_neg h6, if_neg hi, set_extrapName _ _ he]; rfl

/-- Degrees that can be set. -/
def Degrees (r : Option Opts) : Prop :=
  ∀ o, r = some o → o.interp ∈ [0, 1, 3, 4, 5] ∧ o.extrap ∈ [0, 1, 3, 4, 5, 6, 13]

theorem degrees_ite {c : Prop} [Decidable c] {r s : Option Opts} (hr : Degrees r) (hs : Degrees s) :
    Degrees (if c then r else s) := by
  by_cases h : c
  · rw [if_pos h]; exact hr
  · rw [if_neg h]; exact hs

theorem assign_degrees (o : Opts) (a b : String)
    (ho : o.interp ∈ [0, 1, 3, 4, 5] ∧ o.extrap ∈ [0, 1, 3, 4, 5, 6, 13]) : Degrees (assign o a b) := by
  obtain ⟨h1, h2⟩ := ho
  have h3 : o.interp ∈ [0, 1, 3, 4, 5, 6, 13] := by
    simp only [List.mem_cons, List.not_mem_nil, or_false] at h1 ⊢; tauto
  unfold assign
  repeat' apply degrees_ite
  all_goals (rintro o' ⟨⟩ <;> exact ⟨by simp_all, by simp_all⟩)

/-- **C116.**  Making the mask puts the degrees of interpolation and extrapolation back, where the
degree of interpolation has a name and the degree of extrapolation is one of those that can be set.
While the mask is made they are "nearest" and "value" with the value 1.  That value stays, unless the
degree of extrapolation was "value". -/
theorem C116_partial {F : Type} (ofInt : Int → F) (one : F) (junk : String) (g : F) (o : Opts)
    (v : Vals F) (hi : o.interp = 0 ∨ o.interp = 1 ∨ o.interp = 3)
    (he : o.extrap ∈ [0, 1, 3, 4, 5, 6, 13]) :
    yymintOpts ofInt one junk g o v =
      some (({ o with interp := 0, extrap := 6 }, { v with extrap := one }),
        (o, if o.extrap = 6 then v else { v with extrap := one })) := by
  rw [yymint_eq ofInt one junk g o v he, if_pos hi]

/-- **The degrees of extrapolation that calls of `c_ezsetopt` can leave** are those above, and the
degrees of interpolation are 0, 1, 3, 4 and 5. -/
theorem C116_degrees (calls : List (String × String)) (o : Opts)
    (h : calls.foldlM (fun o c => (setopt o c.1 c.2).map (·.2)) ({} : Opts) = some o) :
    o.interp ∈ [0, 1, 3, 4, 5] ∧ o.extrap ∈ [0, 1, 3, 4, 5, 6, 13] := by
  have step : ∀ (o o' : Opts) (c : String × String), (setopt o c.1 c.2).map (·.2) = some o' →
      o.interp ∈ [0, 1, 3, 4, 5] ∧ o.extrap ∈ [0, 1, 3, 4, 5, 6, 13] →
      o'.interp ∈ [0, 1, 3, 4, 5] ∧ o'.extrap ∈ [0, 1, 3, 4, 5, 6, 13] := by
    intro o o' c hc ho
    simp only [setopt] at hc
    split at hc
    · cases hc
    · generalize englishOpt (lower c.1) = a at hc
      generalize englishVal (lower c.2) = b at hc
      cases ha : assign o a b with
      | none => rw [ha] at hc; cases hc; exact ho
      | some o2 => rw [ha] at hc; cases hc; exact assign_degrees o a b ho _ ha
  have gen : ∀ (calls : List (String × String)) (o o' : Opts),
      calls.foldlM (fun o c => (setopt o c.1 c.2).map (·.2)) o = some o' →
      o.interp ∈ [0, 1, 3, 4, 5] ∧ o.extrap ∈ [0, 1, 3, 4, 5, 6, 13] →
      o'.interp ∈ [0, 1, 3, 4, 5] ∧ o'.extrap ∈ [0, 1, 3, 4, 5, 6, 13] := by
    intro calls
    induction calls with
    | nil => intro o o' h; cases h; exact id
    | cons c l ih =>
      intro o o' h ho
      rw [List.foldlM_cons] at h
      cases hc : (setopt o c.1 c.2).map (·.2) with
      | none => rw [hc] at h; cases h
      | some o1 => rw [hc] at h; exact ih o1 o' h (step o o1 c hc ho)
  exact gen calls _ _ h (by decide)

example : yymintOpts (F := ℚ) (fun i => i) 1 "" 0 { interp := 1, extrap := 6 } ⟨7, 0, 0, 0, 0, 0⟩ =
    some (({ interp := 0, extrap := 6 }, ⟨1, 0, 0, 0, 0, 0⟩),
      ({ interp := 1, extrap := 6 }, ⟨7, 0, 0, 0, 0, 0⟩)) :=
  C116_partial _ _ _ _ _ _ (by decide) (by decide)

example : ∃ o, [("DEGRE_INTERP", "LINEAIRE"), ("extrap_degree", "neutral"), ("x", "y")].foldlM
    (fun o c => (setopt o c.1 c.2).map (·.2)) ({} : Opts) = some o ∧ o.interp = 1 ∧ o.extrap = 1 :=
  ⟨{ interp := 1, extrap := 1 }, by decide +kernel, rfl, rfl⟩

/-- **C116 fails for the averages.**  They have no name for `c_ezgetopt`, and "nearest" stays. -/
theorem C116_average_witness {F : Type} (ofInt : Int → F) (one : F) (junk : String) (g : F) (v : Vals F) :
    ∃ o : Opts, setopt {} "INTERP_DEGREE" "AVERAGE" = some (0, o) ∧ o.interp = 4 ∧
      (yymintOpts ofInt one junk g o v).map (fun r => r.2.1.interp) = some 0 := by
  refine ⟨{ interp := 4 }, by decide +kernel, rfl, ?_⟩
  rw [yymint_eq ofInt one junk g _ v (by decide)]
  rfl

/-- **The value for points outside is lost** when it was set before the degree: value 7, then a mask,
then the degree "value" leaves 1. -/
theorem C116_value_witness {F : Type} (ofInt : Int → F) (one : F) (junk : String) (g : F) (v : Vals F) :
    ∃ r, yymintOpts ofInt one junk g {} v = some r ∧ r.2.2.extrap = one := by
  refine ⟨_, yymint_eq ofInt one junk g _ v (by decide), rfl⟩

/-! ## C117: interpolation from a pair -/

/-- **C117, mask.**  With the polar correction on, on a mask grid that points can leave, the mask is 1
exactly at the points half a cell or more outside the mask grid, and 0 elsewhere. -/
theorem C117_mask (m : Src) (n : ℕ) (x y : ℕ → ℚ) (ht : m.typ ≠ 'Y') (hs : mayLeave m = true)
    (hi : 1 ≤ m.ni) (hj : 1 ≤ m.nj) (h1 : m.j1 = 1) (h2 : m.j2 = m.nj) (k : ℕ) (hk : k < n) :
    maskout m true n x y k = some (if x k < 1 / 2 ∨ y k < 1 / 2 ∨ (m.ni : ℚ) + 1 / 2 ≤ x k ∨
      (m.nj : ℚ) + 1 / 2 ≤ y k then 1 else 0) := by
  have hz : ∀ k, gdinterp m 0 (fun _ _ => 0) (x k) (y k) = some 0 := by
    intro k
    simp only [gdinterp, if_neg ht, if_true, rgdint0]
    rw [rd_some] <;> omega
  obtain ⟨-, -, -, hin, -, hout, -⟩ := C112_points m { interp := 0, extrap := 6, valeur := 1 } (fun _ _ => 0)
    n x y (fun k => gdinterp m 0 (fun _ _ => 0) (x k) (y k)) hs hi hj
  simp only [maskout, if_true]
  by_cases h : x k < 1 / 2 ∨ y k < 1 / 2 ∨ (m.ni : ℚ) + 1 / 2 ≤ x k ∨ (m.nj : ℚ) + 1 / 2 ≤ y k
  · rw [if_pos h, hout k ⟨hk, h⟩ (by decide) (by decide)]
    exact (C112_value m { interp := 0, extrap := 6, valeur := 1 } (fun _ _ => 0) hi (by omega)).2.2.2 rfl rfl
  · rw [if_neg h, hin k (fun hc => h hc.2), hz]

/-- **C117 fails without the polar correction.**  The mask is then 0 everywhere: no point is taken from
yang. -/
theorem C117_polar_witness (m : Src) (n : ℕ) (x y : ℕ → ℚ) (ht : m.typ ≠ 'Y') (hi : 1 ≤ m.ni)
    (hj : m.j1 ≤ m.j2) (k : ℕ) : maskout m false n x y k = some 0 := by
  simp only [maskout, Bool.false_eq_true, if_false, gdinterp, if_neg ht, if_true, rgdint0]
  rw [rd_some] <;> omega

theorem merge_deal {α β : Type} (f g : α → β) (l : List (Bool × α)) :
    merge (l.map (·.1)) ((deal l).1.map f) ((deal l).2.map g) =
      some (l.map fun q => if q.1 then g q.2 else f q.2) := by
  induction l with
  | nil => rfl
  | cons q l ih =>
    obtain ⟨m, p⟩ := q
    cases m
    · simp only [List.map_cons, deal, Bool.false_eq_true, if_false, merge, ih, Option.map_some]
    · simp only [List.map_cons, deal, if_true, merge, ih, Option.map_some]

theorem both_eq (e : Env) (yin yan gout : ℕ) (z : List ℚ)
    (h : (e.mask yin gout).length = (e.points gout).length) :
    both e yin yan gout z = some (((e.mask yin gout).zip (e.points gout)).map fun q =>
      if q.1 then e.val yan (z.drop (e.size yin)) q.2 else e.val yin z q.2) := by
  have := merge_deal (e.val yin z) (e.val yan (z.drop (e.size yin)))
    ((e.mask yin gout).zip (e.points gout))
  rw [show ((e.mask yin gout).zip (e.points gout)).map (·.1) = e.mask yin gout from
    List.map_fst_zip (by omega)] at this
  exact this

/-- **C117.**  Interpolation from a pair to another grid, not one of the pair, gives at each point the
value of yang, from the second half of the field, where the mask is set, and that of yin elsewhere. -/
theorem C117_partial (e : Env) (sub : ℤ) (gin gout yi ya : ℕ) (z : List ℚ) (hg : gin ≠ gout)
    (h1 : yi ≠ gout) (h2 : ya ≠ gout) (hm : (e.mask yi gout).length = (e.points gout).length) :
    ∃ r, ezsint e false sub ⟨gout, none⟩ ⟨gin, some (yi, ya)⟩ z = some r ∧
      r.length = (e.points gout).length ∧
      ∀ (k : ℕ) (p : ℚ × ℚ) (b : Bool), (e.points gout)[k]? = some p → (e.mask yi gout)[k]? = some b →
        r[k]? = some (if b then e.val ya (z.drop (e.size yi)) p else e.val yi z p) := by
  refine ⟨_, by
    simp only [ezsint, if_neg hg, Option.isSome_some, true_or, if_true, ezyysint, if_neg h1, if_neg h2,
      Bool.false_eq_true, if_false]
    exact both_eq e yi ya gout z hm, by simp [hm], fun k p b hp hb => ?_⟩
  have : ((e.mask yi gout).zip (e.points gout))[k]? = some (b, p) := by
    rw [List.getElem?_zip_eq_some]; exact ⟨hb, hp⟩
  rw [List.getElem?_map, this]
  rfl

/-- **C117, from pair to pair.**  The two halves are the interpolations to the two grids. -/
theorem C117_pairs (e : Env) (sub : ℤ) (gin gout yi ya oi oa : ℕ) (z : List ℚ) (hg : gin ≠ gout)
    (h1 : yi ≠ gout) (h2 : ya ≠ gout) (i1 : gin ≠ oi) (i2 : yi ≠ oi) (i3 : ya ≠ oi) (a1 : gin ≠ oa)
    (a2 : yi ≠ oa) (a3 : ya ≠ oa) (hi : (e.mask yi oi).length = (e.points oi).length)
    (ha : (e.mask yi oa).length = (e.points oa).length) :
    ∃ r s, ezsint e false sub ⟨oi, none⟩ ⟨gin, some (yi, ya)⟩ z = some r ∧
      ezsint e false sub ⟨oa, none⟩ ⟨gin, some (yi, ya)⟩ z = some s ∧
      ezsint e false sub ⟨gout, some (oi, oa)⟩ ⟨gin, some (yi, ya)⟩ z = some (r ++ s) := by
  obtain ⟨r, hr, -⟩ := C117_partial e sub gin oi yi ya z i1 i2 i3 hi
  obtain ⟨s, hs, -⟩ := C117_partial e sub gin oa yi ya z a1 a2 a3 ha
  refine ⟨r, s, hr, hs, ?_⟩
  simp only [ezsint, if_neg i1, Option.isSome_some, true_or, if_true, ezyysint, if_neg i2, if_neg i3,
    Bool.false_eq_true, if_false] at hr
  simp only [ezsint, if_neg a1, Option.isSome_some, true_or, if_true, ezyysint, if_neg a2, if_neg a3,
    Bool.false_eq_true, if_false] at hs
  simp only [ezsint, if_neg hg, Option.isSome_some, true_or, if_true, ezyysint, if_neg h1, if_neg h2,
    Bool.false_eq_true, if_false, hr, hs]
  rfl

/-- **C117, own grids.**  Interpolation from a pair to one of its own grids copies the half of the field
that belongs to it, whatever the options. -/
theorem C117_own (e : Env) (use1 : Bool) (sub : ℤ) (gin yi ya : ℕ) (a b : List ℚ) (h : yi ≠ ya)
    (h1 : gin ≠ yi) (h2 : gin ≠ ya) (ha : a.length = e.size yi) (hb : b.length = e.size ya) :
    ezsint e use1 sub ⟨yi, none⟩ ⟨gin, some (yi, ya)⟩ (a ++ b) = some (a.map some) ∧
      ezsint e use1 sub ⟨ya, none⟩ ⟨gin, some (yi, ya)⟩ (a ++ b) = some (b.map some) := by
  constructor
  · simp only [ezsint, if_neg h1, Option.isSome_some, true_or, if_true, ezyysint, sintOrig, ← ha,
      List.take_left]
  · simp only [ezsint, if_neg h2, Option.isSome_some, true_or, if_true, ezyysint, if_neg h, sintOrig, ← ha,
      List.drop_left, ← hb, List.take_length]

/-- **C117, one grid of the pair.**  With `use_1subgrid`, interpolation to another grid is that from
the chosen grid of the pair with its half of the field; a number that is neither, or a pair as target,
is refused. -/
theorem C117_one (e : Env) (sub : ℤ) (gin gout yi ya : ℕ) (a b : List ℚ) (t : ℕ × ℕ) (hg : gin ≠ gout)
    (h : yi ≠ ya) (h1 : yi ≠ gout) (h2 : ya ≠ gout) (ha : a.length = e.size yi) :
    (sub = yi → ezsint e true sub ⟨gout, none⟩ ⟨gin, some (yi, ya)⟩ (a ++ b) =
        some (e.sint gout yi (a ++ b))) ∧
      (sub = ya → ezsint e true sub ⟨gout, none⟩ ⟨gin, some (yi, ya)⟩ (a ++ b) =
        some (e.sint gout ya b)) ∧
      (sub ≠ yi → sub ≠ ya → ezsint e true sub ⟨gout, none⟩ ⟨gin, some (yi, ya)⟩ (a ++ b) = none) ∧
      ezsint e true sub ⟨gout, some t⟩ ⟨gin, some (yi, ya)⟩ (a ++ b) = none := by
  refine ⟨fun hs => ?_, fun hs => ?_, fun hs hs' => ?_, ?_⟩
  · simp only [ezsint, if_neg hg, Option.isSome_some, true_or, if_true, ezyysint, if_neg h1, if_neg h2,
      Option.isSome_none, Bool.false_eq_true, if_false, hs, ne_eq, not_true, false_and, sintOrig]
  · have : ¬ ((ya : ℤ) = yi) := fun hc => h (by exact_mod_cast hc.symm)
    simp only [ezsint, if_neg hg, Option.isSome_some, true_or, if_true, ezyysint, if_neg h1, if_neg h2,
      Option.isSome_none, Bool.false_eq_true, if_false, hs, ne_eq, not_true, and_false, this, sintOrig, ← ha,
      List.drop_left]
  · simp only [ezsint, if_neg hg, Option.isSome_some, true_or, if_true, ezyysint, if_neg h1, if_neg h2,
      Option.isSome_none, Bool.false_eq_true, if_false, ne_eq, hs, hs', not_false_eq_true, and_self]
  · simp only [ezsint, if_neg hg, Option.isSome_some, true_or, if_true, ezyysint, if_neg h1, if_neg h2]

/-- **C117, to a pair.**  From a single grid each half is the interpolation to that grid of the pair. -/
theorem C117_to_pair (e : Env) (use1 : Bool) (sub : ℤ) (gin gout oi oa : ℕ) (z : List ℚ)
    (hg : gin ≠ gout) (h1 : gin ≠ oi) (h2 : gin ≠ oa) :
    ∃ r s, ezsint e use1 sub ⟨oi, none⟩ ⟨gin, none⟩ z = some r ∧
      ezsint e use1 sub ⟨oa, none⟩ ⟨gin, none⟩ z = some s ∧
      ezsint e use1 sub ⟨gout, some (oi, oa)⟩ ⟨gin, none⟩ z = some (r ++ s) := by
  refine ⟨sintOrig e oi gin z, sintOrig e oa gin z, ?_, ?_, ?_⟩
  · simp only [ezsint, if_neg h1, Option.isSome_none, or_self, Bool.false_eq_true, if_false]
  · simp only [ezsint, if_neg h2, Option.isSome_none, or_self, Bool.false_eq_true, if_false]
  · simp only [ezsint, if_neg hg, Option.isSome_some, or_true, if_true, ezyysint]

/-- **C117 fails from a pair to itself.**  `ni*nj` values are copied, those of yin: the size of a pair
is that of one of its grids. -/
theorem C117_same_witness (e : Env) (use1 : Bool) (sub : ℤ) (g yi ya : ℕ) (a b : List ℚ)
    (hs : e.size g = e.size yi) (ha : a.length = e.size yi) :
    ezsint e use1 sub ⟨g, some (yi, ya)⟩ ⟨g, some (yi, ya)⟩ (a ++ b) = some (a.map some) := by
  simp only [ezsint, if_true, hs, ← ha, List.take_left]

/-- Three points, the second of which is masked. -/
def exEnv : Env :=
  { size := fun _ => 2, points := fun _ => [(0, 0), (1, 1), (2, 2)], mask := fun _ _ => [false, true, false]
    val := fun g z p => some (g * 100 + z.headD 0 + p.1), sint := fun _ _ _ => [] }

example : ezsint exEnv false 0 ⟨9, none⟩ ⟨5, some (1, 2)⟩ [10, 11, 20, 21] =
    some [some 110, some 221, some 112] := by decide +kernel

example : (let m : Src := { typ := 'Z', ref := 'E', ni := 4, nj := 3, j1 := 1, j2 := 3, ext := 0, ax := fun i => 40 * i, ypn := 9, yps := -9 }
    mayLeave m = true ∧ maskout m true 3 (fun k => 2 * k) (fun _ => 2) 0 = some 1 ∧
    maskout m true 3 (fun k => 2 * k) (fun _ => 2) 1 = some 0) := by decide +kernel

end Verif.EzYinYang
