import Mathlib.Data.List.Perm.Subperm
import Mathlib.Tactic.Linarith
import Mathlib.Tactic.Tauto
import Verif.Props.EzGridRelease

/-! Property C74: examples, and cases where the table of grids fails. -/

namespace Verif.EzGrid

theorem few {cs : List Call} (h : cs.length < 16384) (l : List Call) (hl : ∀ x ∈ l, x ∈ cs)
    (hp : l.Pairwise (fun a b => ¬ Same a b)) : l.length < 16384 := by
  have hnd : l.Nodup := hp.imp fun h e => h (by
    subst e
    exact ⟨rfl, rfl, rfl, rfl, fun _ => rfl, fun _ => ⟨rfl, rfl⟩⟩)
  exact Nat.lt_of_le_of_lt (List.subperm_of_subset hnd hl).length_le h

/-! ### Examples -/

def gridL : Call := ⟨10, 20, 'L', ' ', (1, 2, 3, 4), [], []⟩

def gridZ : Call := ⟨2, 1, 'Z', 'E', (1, 2, 3, 4), [0x3f800000#32, 0x40000000#32], [0x3f800000#32]⟩

def gridZ' : Call := ⟨2, 1, 'Z', 'E', (1, 2, 3, 4), [0x3f800000#32, 0x40400000#32], [0x3f800000#32]⟩

theorem valid_L : Valid gridL := by simp [Valid, gridL]

theorem valid_Z : Valid gridZ := by simp [Valid, gridZ, IsNan]

theorem valid_Z' : Valid gridZ' := by simp [Valid, gridZ', IsNan]

/-- All three grids in one chain. -/
example : ∃ (s' : Table) (ids : List Int),
    defAll (fun _ => 0) (fun _ _ => zeroSlot.d) ⟨fun _ => freshSlot, 0, fun _ => none, 0⟩
      [gridZ, gridZ', gridL, gridZ', gridZ] = .ok (s', ids) ∧ ids.length = 5 ∧
    (ids[1]? = ids[3]? ↔ True) ∧ (ids[0]? = ids[1]? ↔ False) := by
  obtain ⟨s', ids, h1, h2, h3, -⟩ := C74_define_partial (fun _ => 0) (fun _ _ => zeroSlot.d)
    ⟨fun _ => freshSlot, 0, fun _ => none, 0⟩ rfl [gridZ, gridZ', gridL, gridZ', gridZ]
    (by simp [valid_L, valid_Z, valid_Z'])
    (by simp [Alike, Same, gridZ, gridZ', gridL, SameValue])
    (few (by decide))
  refine ⟨s', ids, h1, h2, ?_, ?_⟩
  · rw [h3 1 3 gridZ' gridZ' rfl rfl]; simp [Same]
  · rw [h3 0 1 gridZ gridZ' rfl rfl]; simp [Same, gridZ, gridZ']

/-- A program with releases. -/
example : specRun [] [.define gridL, .define gridZ, .define gridL, .release 0, .release 1,
      .define gridZ', .define gridL]
    = some ([(gridL, 2), (gridZ', 1)],
      [some 0, some 1, some 0, none, none, some 1, some 0]) := by decide +kernel

/-! ### Release of a grid that is not the last one -/

/-- Three grids with different codes: after the release of the first one, the third one gets the
number of the second one, which was not released, and takes its place. -/
theorem C74_reuse_witness (crc : Desc → Nat) (gauss : Nat → Nat → Desc) (s : Table) (hs : s.n = 0)
    (a b c : Call) (ha : irregular a.typ = false) (hb : irregular b.typ = false)
    (hc : irregular c.typ = false)
    (hab : crc (newGrid a) ≠ crc (newGrid b)) (hac : crc (newGrid a) ≠ crc (newGrid c))
    (hbc : crc (newGrid b) ≠ crc (newGrid c)) :
    ∃ s', codeRun crc gauss s [.define a, .define b, .release 0, .define c]
        = .ok (s', [some 0, some 1, none, some 1]) ∧ (s'.slots 1).d = newGrid c := by
  simp [codeRun, codeStep, defMem, tables, hs, identify, add, link, place, slot, setSlot, release,
    bind, Except.bind, ha, hb, hc, hab.symm, hac.symm, hbc.symm]

/-- A search that fails counts as a use of the last grid of the chain: two grids with the same code,
both released by their only user; the first one stays in the table. -/
theorem C74_count_witness (crc : Desc → Nat) (gauss : Nat → Nat → Desc) (s : Table) (hs : s.n = 0)
    (a b : Call) (ha : irregular a.typ = false) (hb : irregular b.typ = false)
    (hab : crc (newGrid a) = crc (newGrid b)) (hd : compare (newGrid b) (newGrid a) = .ok .next) :
    ∃ s', codeRun crc gauss s [.define a, .define b, .release 1, .release 0]
        = .ok (s', [some 0, some 1, none, none]) ∧ s'.n = 1 ∧ (s'.slots 0).d = newGrid a ∧
      (s'.slots 0).access = 1 := by
  simp [codeRun, codeStep, defMem, tables, hs, identify, add, link, place, slot, setSlot, release,
    find, walk, last, bind, Except.bind, ha, hb, hab, hd]

/-! ### Grids from files -/

/-- Axes of grids of a file are not compared: a record with other axes gets the number of the
first one, whose axes stay. -/
theorem C74_axes_witness (xg : Char → Int × Int × Int × Int → Real32 × Real32 × Real32 × Real32)
    (s : Table) (hs : s.n = 0) (r : Record) (hr : r.typ = 'Z' ∨ r.typ = 'Y') (h4 : r.ig4 = 0)
    (ax ay : List Real32) :
    ∃ s1 s2, defFile xg s r = .ok (s1, 0) ∧ defFile xg s1 { r with ax := ax, ay := ay } = .ok (s2, 0) ∧
      (s2.slots 0).d.ax = some r.ax ∧ (s2.slots 0).d.ay = some r.ay := by
  have hw : words xg { r with ax := ax, ay := ay } = words xg r := rfl
  have hU : r.typ ≠ 'U' := by rcases hr with h | h <;> rw [h] <;> decide
  have hG : r.typ ≠ 'G' := by rcases hr with h | h <;> rw [h] <;> decide
  simp only [defFile, hw]
  generalize (calcCrc (words xg r)).toNat % 16381 = w
  simp [tables, hs, identify, add, link, place, slot, setSlot, find, walk, compare, hU, hG, h4,
    bind, Except.bind]

/-- With the argument `ig4` not zero a grid of a file is never found again. -/
theorem C74_again_witness (xg : Char → Int × Int × Int × Int → Real32 × Real32 × Real32 × Real32)
    (s : Table) (hs : s.n = 0) (r : Record) (hr : r.typ = 'Z' ∨ r.typ = 'Y') (h4 : r.ig4 ≠ 0) :
    ∃ s1 s2, defFile xg s r = .ok (s1, 0) ∧ defFile xg s1 r = .ok (s2, 1) := by
  have hU : r.typ ≠ 'U' := by rcases hr with h | h <;> rw [h] <;> decide
  have hG : r.typ ≠ 'G' := by rcases hr with h | h <;> rw [h] <;> decide
  simp [defFile, tables, hs, identify, add, link, place, slot, setSlot, find, walk, compare, hU, hG, h4,
    last, bind, Except.bind]

/-- Two grids on a polar stereographic reference, with the coordinates of the pole in the other
order and the same numbers of records: the second search does not end. The condition on `xg` is
igaxg.f90:53-57. -/
theorem C74_pole_witness (xg : Char → Int × Int × Int × Int → Real32 × Real32 × Real32 × Real32)
    (p q t : Int → Real32)
    (hx : ∀ i1 i2 i3 i4 : Int, i4 < 32768 → xg 'N' (i1, i2, i3, i4) = (p i2, p i1, q i4, t i3))
    (s : Table) (hs : s.n = 0) (r : Record) (hr : r.typ = 'Z' ∨ r.typ = 'Y') (h4 : r.ig4 = 0)
    (hN : r.ref = 'N') (a b c d : Int) (hab : a ≠ b) (hd : d < 32768) :
    ∃ s1, defFile xg s { r with igref := (a, b, c, d) } = .ok (s1, 0) ∧
      defFile xg s1 { r with igref := (b, a, c, d) } = .error .hang := by
  have hw : calcCrc (words xg { r with igref := (b, a, c, d) })
      = calcCrc (words xg { r with igref := (a, b, c, d) }) := by
    simp only [calcCrc, words, hN, hx _ _ _ _ hd, List.foldl_append, List.foldl_cons, List.foldl_nil]
    congr 1
    ac_rfl
  have hU : r.typ ≠ 'U' := by rcases hr with h | h <;> rw [h] <;> decide
  have hG : r.typ ≠ 'G' := by rcases hr with h | h <;> rw [h] <;> decide
  simp only [defFile, hw]
  generalize (calcCrc (words xg { r with igref := (a, b, c, d) })).toNat % 16381 = w
  simp [tables, hs, identify, add, link, place, slot, setSlot, find, walk, compare, hU, hG, h4,
    bind, Except.bind, hab.symm]

/-! ### Types and references -/

/-- Grids of the same code with different references get the same number. -/
theorem C74_reference_witness (crc : Desc → Nat) (gauss : Nat → Nat → Desc) (s : Table)
    (hs : s.n = 0) (a : Call) (ha : Valid a) (hz : a.typ = 'Z' ∨ a.typ = 'Y') (ref : Char)
    (hr : a.ref ≠ ref) (hc : crc (newGrid a) = crc (newGrid { a with ref := ref })) :
    ¬ Same a { a with ref := ref } ∧ ∃ s' id, defAll crc gauss s [a, { a with ref := ref }]
      = .ok (s', [id, id]) := by
  refine ⟨fun h => hr (h.2.2.2.2.1 (by tauto)), ?_⟩
  obtain ⟨s', ids, h1, h2, h3, -⟩ := C74_numbers crc gauss s hs [a, { a with ref := ref }]
    (by
      intro c hc
      simp only [List.mem_cons, List.not_mem_nil, or_false] at hc
      rcases hc with rfl | rfl
      · exact ha
      · exact ha)
    (few (by simp))
  have hal : Alike a { a with ref := ref } :=
    ⟨rfl, rfl, rfl, rfl, fun _ => ⟨near_refl _, near_refl _⟩⟩
  have := (h3 0 1 a _ rfl rfl).2 ⟨hc, hal⟩
  match ids, h2 with
  | [i, j], _ =>
    simp at this
    exact ⟨s', i, by rw [h1, this]⟩

theorem axisEq_short : ∀ (n m : Nat) (l : List Real32), n < m → n ≤ l.length →
    (∀ x ∈ l.take n, ¬ IsNan x) → axisEq m (l.take n) l = .error .outside
  | 0, m + 1, l, _, _, _ => by cases l <;> rfl
  | n + 1, m + 1, x :: l, h1, h2, h3 => by
    simp only [List.take_succ_cons, axisEq]
    rw [if_pos ((numEq_iff (h3 x (by simp)) (h3 x (by simp))).2 (.refl x))]
    exact axisEq_short n m l (by omega) (by simpa using h2) (fun y hy => h3 y (by simp [hy]))

/-- A grid `#` of more than one row that is defined twice: the comparison reads outside of the
axis. -/
theorem C74_sharp_witness (crc : Desc → Nat) (gauss : Nat → Nat → Desc) (s : Table) (hs : s.n = 0)
    (c : Call) (hc : c.typ = '#') (hni : 1 ≤ c.ni) (hnj : 2 ≤ c.nj) (hl : c.ni ≤ c.ax.length)
    (hnan : ∀ x ∈ c.ax.take c.ni, ¬ IsNan x) :
    defAll crc gauss s [c, c] = .error .outside := by
  have hlt : c.ni < c.ni * c.nj := by nlinarith
  have h := axisEq_short c.ni (c.ni * c.nj) c.ax hlt hl hnan
  simp [defAll, defMem, tables, hs, identify, add, link, place, slot, setSlot, find, walk, compare, newGrid,
    defAxes, irregular, hc, bind, Except.bind, h]

/-! ### Cases of the hypotheses -/

def gridL' : Call := { gridL with ni := 11 }

def gridL'' : Call := { gridL with ni := 12 }

example (gauss : Nat → Nat → Desc) : ∃ s', codeRun (fun d => d.ni) gauss
      ⟨fun _ => freshSlot, 0, fun _ => none, 0⟩ [.define gridL, .define gridL', .release 0, .define gridL'']
    = .ok (s', [some 0, some 1, none, some 1]) ∧ (s'.slots 1).d = newGrid gridL'' :=
  C74_reuse_witness _ gauss _ rfl _ _ _ rfl rfl rfl (by decide) (by decide) (by decide)

example (gauss : Nat → Nat → Desc) : ∃ s', codeRun (fun _ => 0) gauss
      ⟨fun _ => freshSlot, 0, fun _ => none, 0⟩ [.define gridL, .define gridL', .release 1, .release 0]
    = .ok (s', [some 0, some 1, none, none]) ∧ s'.n = 1 ∧ (s'.slots 0).d = newGrid gridL ∧
      (s'.slots 0).access = 1 :=
  C74_count_witness _ gauss _ rfl _ _ rfl rfl rfl (by decide)

example (gauss : Nat → Nat → Desc) : ∃ s' id, defAll (fun d => d.ni) gauss
      ⟨fun _ => freshSlot, 0, fun _ => none, 0⟩ [gridZ, { gridZ with ref := 'L' }]
    = .ok (s', [id, id]) :=
  (C74_reference_witness _ gauss _ rfl gridZ valid_Z (Or.inl rfl) 'L' (by decide) rfl).2

end Verif.EzGrid
