import Verif.GribTable
import Mathlib.Tactic

namespace Verif.GribTable

/-! # C143: the table of GRIB grids -/

/-- The records of a file, without the comments. -/
def records (file : List Line) : List (Option Rec) :=
  file.filterMap fun | .comment => none | .record r => some r

theorem load_spec (file : List Line) : ∀ t, t.length ≤ ncodemax →
    load file t = if t.length + (records file).length ≤ ncodemax then some (t ++ records file) else none := by
  induction file with
  | nil => intro t ht; simp [load, records, ht]
  | cons l ls ih =>
    intro t ht
    cases l with
    | comment =>
      have hr : records (.comment :: ls) = records ls := by simp [records]
      simp only [load, hr]
      exact ih t ht
    | record r =>
      have hr : records (.record r :: ls) = r :: records ls := by simp [records]
      simp only [load, hr, List.length_cons]
      by_cases h : t.length + 1 > ncodemax
      · rw [if_pos h, if_neg (by omega)]
      · rw [if_neg h, ih _ (by simp; omega)]
        simp only [List.length_append, List.length_cons, List.length_nil, List.append_assoc,
          List.cons_append, List.nil_append]
        by_cases h' : t.length + ((records ls).length + 1) ≤ ncodemax
        · rw [if_pos h', if_pos (by omega)]
        · rw [if_neg h', if_neg (by omega)]

theorem lookup_spec (ig1 ig2 : Int) (nxg : Nat) (hn : 14 ≤ nxg) (pre : List Rec) (r : Rec) (post : List (Option Rec)) :
    (∀ q ∈ pre, q.gribcode ≠ ig1) → r.gribcode = ig1 → ∀ i,
    lookup ig1 ig2 nxg i (pre.map some ++ some r :: post) = some (i + pre.length, r) := by
  induction pre with
  | nil => intro _ hr i; simp [lookup, hr]; omega
  | cons q pre ih =>
    intro hp hr i
    have hq : q.gribcode ≠ ig1 := hp q (by simp)
    simp only [List.map_cons, List.cons_append, lookup]
    rw [if_neg hq, ih (fun q hq => hp q (by simp [hq])) hr (i + 1)]
    simp; omega

theorem lookup_none (ig1 ig2 : Int) (nxg : Nat) (t : List Rec) (h : ∀ q ∈ t, q.gribcode ≠ ig1) : ∀ i,
    lookup ig1 ig2 nxg i (t.map some) = none := by
  induction t with
  | nil => intro i; rfl
  | cons q t ih =>
    intro i
    have hq : q.gribcode ≠ ig1 := h q (by simp)
    simp only [List.map_cons, lookup]
    rw [if_neg hq, ih (fun q hq => h q (by simp [hq])) (i + 1)]

/-- C143, for codes that are used by one centre only, or by the centre asked for first.  If the first record
with the code is of the centre asked for (or any is asked for) it is the one returned, and `ig3` holds its
sub-centre and projection. -/
theorem C143_partial (file : List Line) (pre : List Rec) (r : Rec) (post : List (Option Rec)) (ig1 ig2 ig3 ig4 : Int)
    (junk : List Int) (hf : records file = pre.map some ++ some r :: post) (hl : (records file).length ≤ 32)
    (hpre : ∀ q ∈ pre, q.gribcode ≠ ig1) (hr : r.gribcode = ig1) (_hc : ig2 = r.centre ∨ ig2 = 0)
    (hj : 14 ≤ junk.length) (hv : r.vals.length = 11) :
    igagds95 file ig1 ig2 = some (r.gds, r.proj) ∧
    (igaxg95 file ig1 ig2 ig3 ig4 junk).gtyp = r.gtyp ∧
    (igaxg95 file ig1 ig2 ig3 ig4 junk).xglst.take 14 = r.vals ++ [r.centre, r.subcentre, r.proj] ∧
    (igaxg95 file ig1 ig2 ig3 ig4 junk).ig3 = 256 * r.subcentre + r.proj := by
  have hload : load file [] = some (pre.map some ++ some r :: post) := by
    rw [load_spec file [] (by simp), if_pos (by simpa [ncodemax] using hl), hf]; rfl
  have h1 := lookup_spec ig1 ig2 20 (by omega) pre r post hpre hr 1
  have h2 := lookup_spec ig1 ig2 junk.length hj pre r post hpre hr 1
  refine ⟨?_, ?_, ?_, ?_⟩
  · simp [igagds95, hload, h1]
  · simp [igaxg95, hload, h2]
  · simp only [igaxg95, hload, h2, xg]
    rw [List.take_append_of_le_length (by simp [hv]), List.take_of_length_le (by simp [hv])]
  · simp [igaxg95, hload, h2]

def usa : Rec := ⟨21, 7, 0, 3, 'N', [1, 2, 3, 4, 5, 6, 7, 8, 9, 10, 11], "usa"⟩
def canada : Rec := ⟨21, 54, 2, 5, 'L', [1, 2, 3, 4, 5, 6, 7, 8, 9, 10, 11], "canada"⟩
def other : Rec := ⟨20, 54, 2, 5, 'L', [1, 2, 3, 4, 5, 6, 7, 8, 9, 10, 11], "other"⟩

example : igagds95 [.comment, .record (some other), .record (some canada), .record none] 21 54 = some ("canada", 5) :=
  (C143_partial [.comment, .record (some other), .record (some canada), .record none] [other] canada [none] 21 54 0 0
    (List.replicate 14 0) rfl (by decide) (by decide) rfl (Or.inl rfl) (by decide) rfl).1

/-- Whatever the centre, the first record with the code is returned: that of another centre. -/
theorem C143_centre_witness :
    igagds95 [.record (some usa), .record (some canada)] 21 54 = some ("usa", 3) ∧
    igagds95 [.record (some usa)] 21 54 = some ("usa", 3) := by decide

/-- A code that is not in the table is refused. -/
theorem C143_absent (file : List Line) (t : List Rec) (ig1 ig2 : Int) (hf : records file = t.map some)
    (h : ∀ q ∈ t, q.gribcode ≠ ig1) : igagds95 file ig1 ig2 = none := by
  unfold igagds95
  rw [load_spec file [] (by simp)]
  by_cases hl : ([] : List (Option Rec)).length + (records file).length ≤ ncodemax
  · rw [if_pos hl]
    simp [hf, lookup_none ig1 ig2 20 t h 1]
  · rw [if_neg hl]

example : igagds95 [.record (some usa)] 22 7 = none :=
  C143_absent _ [usa] 22 7 rfl (by decide)

/-- A file of more than 32 records is refused. -/
theorem C143_large (file : List Line) (ig1 ig2 : Int) (h : 32 < (records file).length) :
    igagds95 file ig1 ig2 = none := by
  unfold igagds95
  rw [load_spec file [] (by simp), if_neg (by simp [ncodemax]; omega)]

example : igagds95 (List.replicate 33 (.record (some usa))) 21 7 = none :=
  C143_large _ 21 7 (by decide)

/-- If the code is absent `igaxg95` nevertheless changes `ig3` to a value computed from what the list held
before, and `ig4` to 0. -/
theorem C143_ig3_witness : igaxg95 [.record (some usa)] 22 7 100 200
    [0, 1, 2, 3, 4, 5, 6, 7, 8, 9, 10, 11, 12, 13] =
    ⟨'*', [0, 1, 2, 3, 4, 5, 6, 7, 8, 9, 10, 11, 12, 13], 3085, 0⟩ := by decide

end Verif.GribTable
