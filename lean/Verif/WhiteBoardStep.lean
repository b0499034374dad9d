import Mathlib.Data.List.Nodup
import Verif.WhiteBoardPut

/-!
`c_wb_put` and `c_wb_get` on a whole whiteboard.
-/
namespace WhiteBoard

/-! ### Get -/

/-- `c_wb_get` on one variable, after the checks of its arguments. -/
def getE (e : Ent) (q : Query) (size nbelem : Nat) (array : Bool) : Int × List Byte :=
  if e.fl.badval then (-1009, [])
  else if !e.fl.initialized then (-1008, [])
  else if e.fl.type ≠ q.type then (-1003, [])
  else if e.fl.type ≠ WB_CHAR ∧ (e.fl.elementsize : Int) ≠ size then (-1003, [])
  else if array && !e.fl.array then (-1004, [])
  else
    let n : Nat := if array && decide ((nbelem : Int) > e.max) then e.max.toNat else nbelem
    let result : Int := if array then e.max else 0
    let src := if array then e.area.drop 8 else e.area
    if e.fl.type = WB_CHAR then
      let r := getStrings e.fl.elementsize size n src
      (if r.2 then result else -1010, r.1)
    else if e.fl.type = WB_BOOL then (result, logicals n src)
    else (result, src.take (n * size))

theorem getStrings_append {element size n : Nat} {s : List Byte} (B : List Byte)
    (h : n * element ≤ s.length) :
    getStrings element size n (s ++ B) = getStrings element size n s := by
  induction n generalizing s with
  | zero => rfl
  | succ n ih =>
    rw [Nat.add_mul] at h
    unfold getStrings
    rw [List.take_append_of_le_length (by omega), List.drop_append_of_le_length (by omega),
      ih (by rw [List.length_drop]; omega)]

theorem logicals_append {n : Nat} {s : List Byte} (B : List Byte) (h : n * 4 ≤ s.length) :
    logicals n (s ++ B) = logicals n s := by
  induction n generalizing s with
  | zero => rw [logicals, logicals]
  | succ n ih =>
    rw [Nat.add_mul] at h
    rw [logicals, logicals, List.take_append_of_le_length (by omega),
      List.drop_append_of_le_length (by omega), ih (by rw [List.length_drop]; omega)]

/-- Size of the elements asked for. -/
def Query.len (q : Query) : Int := if q.type = WB_BOOL ∧ q.size = 1 then 4 else q.size

/-- The checks of the arguments of `c_wb_get`. -/
def Query.passed (q : Query) : Prop :=
  typeOk q.type q.len 520 = true ∧ 0 ≤ q.nbelem ∧ (trim q.name).length ≤ 27

/-- Number of elements asked for. -/
def Query.count (q : Query) : Nat := if q.nbelem = 0 then 1 else q.nbelem.toNat

/-- What a refused query gets. -/
def Query.refused (q : Query) : Int :=
  if !typeOk q.type q.len 520 then -1006 else if q.nbelem < 0 then -1004 else -1001

theorem get_early {w : List Page} {q : Query} (h : ¬ q.passed) : get w q = (q.refused, []) := by
  unfold get Query.refused
  unfold Query.passed at h
  simp only []
  rw [← Query.len]
  by_cases h1 : typeOk q.type q.len 520 = true
  · simp only [h1, Bool.not_true, Bool.false_eq_true, if_false]
    by_cases h2 : q.nbelem < 0
    · simp only [if_pos h2]
    · simp only [if_neg h2]
      rw [if_pos (by
        refine Nat.lt_of_not_le fun hc => h ⟨h1, by omega, hc⟩)]
  · have h1 : typeOk q.type q.len 520 = false := by simpa using h1
    simp [h1]

theorem getE_at {p : Page} {i : Nat} {e : Ent} {A B : List Byte} (h : At p i e A B)
    (ho : EntOk e) (q : Query) (size : Int) (hs : typeOk q.type size 520 = true)
    (nbelem : Nat) (array : Bool) (hn : array = false → nbelem = 1) :
    (let f := p.flagsAt i
     if f.badval then (-1009, [])
     else if !f.initialized then (-1008, [])
     else if f.type ≠ q.type then (-1003, [])
     else if f.type ≠ WB_CHAR ∧ (f.elementsize : Int) ≠ size then (-1003, [])
     else if array && !f.array then (-1004, [])
     else
       let n : Nat := if array && decide ((nbelem : Int) > p.maxAt i) then (p.maxAt i).toNat else nbelem
       let result : Int := if array then p.maxAt i else 0
       let src := if array then p.mem.drop (40 * (i + 1)) else p.mem.drop (40 * i + 32)
       if f.type = WB_CHAR then
         let r := getStrings f.elementsize size.toNat n src
         (if r.2 then result else -1010, r.1)
       else if f.type = WB_BOOL then (result, logicals n src)
       else (result, src.take (n * size.toNat))) = getE e q size.toNat nbelem array := by
  unfold getE
  rw [h.flagsAt ho.valid, h.maxAt ho.area_ge, h.drop32, h.drop40 ho.area_ge]
  have hsz : size = (size.toNat : Int) := by
    unfold typeOk at hs
    simp only [Bool.or_eq_true, decide_eq_true_eq] at hs
    omega
  rw [← hsz]
  simp only []
  by_cases h1 : e.fl.badval = true
  · simp only [if_pos h1]
  simp only [if_neg h1]
  by_cases h2 : (!e.fl.initialized) = true
  · simp only [if_pos h2]
  simp only [if_neg h2]
  by_cases h3 : e.fl.type ≠ q.type
  · simp only [if_pos h3]
  simp only [if_neg h3]
  by_cases h4 : e.fl.type ≠ WB_CHAR ∧ (e.fl.elementsize : Int) ≠ size
  · simp only [if_pos h4]
  simp only [if_neg h4]
  by_cases h5 : (array && !e.fl.array) = true
  · simp only [if_pos h5]
  simp only [if_neg h5]
  have h8 := ho.area_ge
  have hcases := hs
  unfold typeOk at hcases
  simp only [Bool.or_eq_true, decide_eq_true_eq] at hcases
  simp only [WB_CHAR, WB_BOOL, WB_REAL, WB_INT] at hcases
  simp only [WB_CHAR, WB_BOOL] at h4 ⊢
  have hchar := ho.scalar
  have harr := ho.array
  cases array with
  | true =>
    have ha : e.fl.array = true := by simpa using h5
    have hm := harr ha
    simp only [if_true, Bool.true_and, decide_eq_true_eq]
    have hle : (if (nbelem : Int) > e.max then e.max.toNat else nbelem) ≤ e.max.toNat := by
      split <;> omega
    generalize (if (nbelem : Int) > e.max then e.max.toNat else nbelem) = k at hle ⊢
    have hk : k * e.fl.elementsize ≤ (e.area.drop 8).length := by
      have := Nat.mul_le_mul_right e.fl.elementsize hle
      rw [List.length_drop]
      omega
    by_cases hc : e.fl.type = 3
    · simp only [if_pos hc]
      rw [getStrings_append B hk]
    · simp only [if_neg hc]
      have hes : (e.fl.elementsize : Int) = size := by omega
      by_cases hb : e.fl.type = 4
      · simp only [if_pos hb]
        rw [logicals_append B]
        have := ho.bool hb
        rw [this] at hk
        exact hk
      · simp only [if_neg hb]
        rw [List.take_append_of_le_length]
        rw [← hes, Int.toNat_natCast]
        exact hk
  | false =>
    simp only [Bool.false_and, Bool.false_eq_true, if_false]
    rw [hn rfl]
    by_cases hc : e.fl.type = 3
    · simp only [if_pos hc]
      rw [getStrings_append B]
      cases ha : e.fl.array with
      | true =>
        have hm := harr ha
        have := Nat.mul_le_mul_right e.fl.elementsize (show 1 ≤ e.max.toNat by omega)
        omega
      | false =>
        have := hchar ha
        omega
    · simp only [if_neg hc]
      by_cases hb : e.fl.type = 4
      · simp only [if_pos hb]
        rw [logicals_append B (by omega)]
      · simp only [if_neg hb]
        rw [List.take_append_of_le_length (by omega)]

theorem get_R {w : List Page} {ess : List (List Ent)} (h : R w ess) {q : Query}
    (hq : q.passed) (h0 : 0#8 ∉ q.name) :
    get w q = match findEnt ess.flatten (keyOf q.name) with
      | none => (-1001, [])
      | some e => getE e q q.len.toNat q.count (decide (q.nbelem > 0)) := by
  obtain ⟨h1, h2, h3⟩ := hq
  unfold get
  simp only []
  rw [← Query.len, ← Query.count]
  simp only [h1, Bool.not_true, Bool.false_eq_true, if_false]
  rw [if_neg (by omega), if_neg (by omega), fillLine_key]
  cases locate h.pages (keyOf_ok h0) with
  | absent ha hl =>
    rw [hl, findEnt_none ha]
  | found w₁ w₂ p ess₁ ess₂ es₁ es₂ e hw hess hr1 hr2 hp hk hn hl =>
    rw [hl]
    have hfind : findEnt ess.flatten (keyOf q.name) = some e := by
      rw [hess, List.flatten_append, List.flatten_cons, List.append_assoc, List.cons_append,
        ← List.append_assoc]
      exact findEnt_split hn hk
    rw [hfind]
    have hget : w[w₁.length]? = some p := by
      rw [hw]
      simp
    simp only [hget]
    obtain ⟨A, B, hat, _, _⟩ := hp.at
    exact getE_at hat (hp.ok e (by simp)) q q.len h1 q.count (decide (q.nbelem > 0)) (by
      intro hd
      have : ¬ q.nbelem > 0 := by simpa using hd
      unfold Query.count
      rw [if_pos (by omega)])

/-! ### Put -/

/-- Size of the elements put. -/
def Req.len (r : Req) : Int := if r.type = WB_BOOL ∧ r.size = 1 then 4 else r.size

/-- Number of elements put. -/
def Req.count (r : Req) : Nat := if r.nbelem = 0 then 1 else r.nbelem.toNat

/-- The checks of the arguments of `c_wb_put`. -/
def Req.passed (r : Req) : Prop :=
  typeOk r.type r.len r.len = true ∧ 0 ≤ r.nbelem ∧ (trim r.name).length ≤ 27

/-- What the caller of `c_wb_put` has to see to: names without null characters, a source that
holds the values, a size that fits in an `int`, and no contradictory options for a variable
of more than 31 lines. -/
structure Req.Wf (r : Req) : Prop where
  nonul : 0#8 ∉ r.name
  full : r.count * r.len.toNat ≤ r.src.length
  small : r.count * r.len.toNat < 2147483648
  options : r.conflict = true → r.count * r.len.toNat ≤ 1240

theorem Req.Wf.sized {r : Req} (h : r.Wf) (hp : r.passed) : Sized r r.len.toNat r.count := by
  obtain ⟨h1, h2, _⟩ := hp
  refine ⟨?_, ?_, h.full, h.small⟩
  · have : ((r.len.toNat : Nat) : Int) = r.len := by
      have hs := h1
      unfold typeOk at hs
      simp only [Bool.or_eq_true, decide_eq_true_eq] at hs
      omega
    rw [this]
    exact h1
  · unfold Req.count
    split <;> omega

/-- A page about to take `lines` more lines. -/
structure PreRep (p : Page) (es : List Ent) (lines : Nat) : Prop where
  mem : ∃ free, p.mem = es.flatMap Ent.enc ++ free
  len : p.mem.length = 40 * p.nbLines
  used : p.firstFree = (es.map Ent.span).sum
  ok : ∀ e ∈ es, EntOk e
  fits : p.firstFree + lines ≤ p.nbLines
  big : p.nbLines ≤ 32 ∨ es = [] ∧ p.nbLines = lines
  bound : p.nbLines < 2147483648

theorem newPage_rep : Rep (newPage 32) [] :=
  ⟨⟨_, rfl⟩, List.length_replicate, rfl, by simp, .inl (Nat.le_refl _),
    show (32 : Nat) < 2147483648 by omega,
    show 1 ≤ (32 : Nat) by omega⟩

theorem newPage_pre (lines : Nat) (hb : lines < 2147483648) :
    PreRep (newPage (if lines > 32 then lines else 32)) [] lines := by
  refine ⟨⟨_, rfl⟩, ?_, rfl, by simp, ?_, ?_, ?_⟩
  · exact List.length_replicate
  · simp only [newPage]
    split <;> omega
  · show (if lines > 32 then lines else 32) ≤ 32 ∨ _ ∧ (if lines > 32 then lines else 32) = lines
    by_cases hl : lines > 32
    · exact .inr ⟨rfl, if_pos hl⟩
    · rw [if_neg hl]
      exact .inl (Nat.le_refl _)
  · simp only [newPage]
    split <;> omega

theorem find_page {w : List Page} {ess : List (List Ent)} (h : List.Forall₂ Rep w ess)
    {lines k : Nat} (h1 : 1 ≤ lines)
    (hf : (w.findIdx? fun p => decide (p.firstFree + lines ≤ p.nbLines)) = some k) :
    ∃ w₁ p w₂ ess₁ es ess₂, w = w₁ ++ p :: w₂ ∧ k = w₁.length ∧ ess = ess₁ ++ es :: ess₂ ∧
      List.Forall₂ Rep w₁ ess₁ ∧ List.Forall₂ Rep w₂ ess₂ ∧ PreRep p es lines ∧
      p.nbLines ≤ 32 := by
  induction h generalizing k with
  | nil => simp at hf
  | cons hp hr ih =>
    rename_i p es w ess
    rw [List.findIdx?_cons] at hf
    split at hf
    · rename_i hfit
      simp only [decide_eq_true_eq] at hfit
      injection hf with hf
      subst hf
      have hs : p.nbLines ≤ 32 := by
        rcases hp.big with hb | hb
        · exact hb
        · omega
      exact ⟨[], p, w, [], es, ess, rfl, rfl, rfl, .nil, hr,
        ⟨hp.mem, hp.len, hp.used, hp.ok, hfit, .inl hs, hp.bound⟩, hs⟩
    · rw [Option.map_eq_some_iff] at hf
      obtain ⟨k', hk', rfl⟩ := hf
      obtain ⟨w₁, q, w₂, ess₁, es', ess₂, h1, h2, h3, h4, h5, h6, h7⟩ := ih hk'
      exact ⟨p :: w₁, q, w₂, es :: ess₁, es', ess₂, by rw [h1]; rfl, by rw [h2]; rfl,
        by rw [h3]; rfl, .cons hp h4, h5, h6, h7⟩

theorem newLine_spec {w : List Page} {ess : List (List Ent)} (h : List.Forall₂ Rep w ess)
    {lines : Nat} (h1 : 1 ≤ lines) (hb : lines < 2147483648) :
    ∃ w₁ p w₂ ess₁ es ess₂, newLine w lines = (w₁ ++ p :: w₂, w₁.length) ∧
      (ess₁ ++ es :: ess₂).flatten = ess.flatten ∧
      List.Forall₂ Rep w₁ ess₁ ∧ List.Forall₂ Rep w₂ ess₂ ∧ PreRep p es lines ∧
      (lines ≤ 32 → p.nbLines ≤ 32) := by
  have main : ∀ (w' : List Page) (ess' : List (List Ent)), List.Forall₂ Rep w' ess' →
      ess'.flatten = ess.flatten →
      ∃ w₁ p w₂ ess₁ es ess₂,
      (match w'.findIdx? fun p => decide (p.firstFree + lines ≤ p.nbLines) with
        | some k => (w', k)
        | none => (newPage (if lines > 32 then lines else 32) :: w', 0)) =
          (w₁ ++ p :: w₂, w₁.length) ∧
      (ess₁ ++ es :: ess₂).flatten = ess.flatten ∧
      List.Forall₂ Rep w₁ ess₁ ∧ List.Forall₂ Rep w₂ ess₂ ∧ PreRep p es lines ∧
      (lines ≤ 32 → p.nbLines ≤ 32) := by
    intro w' ess' hr hf
    cases hfi : w'.findIdx? fun p => decide (p.firstFree + lines ≤ p.nbLines) with
    | some k =>
      obtain ⟨w₁, p, w₂, ess₁, es, ess₂, g1, g2, g3, g4, g5, g6, g7⟩ := find_page hr h1 hfi
      exact ⟨w₁, p, w₂, ess₁, es, ess₂, by rw [← g1, ← g2], by rw [← g3, hf], g4, g5, g6,
        fun _ => g7⟩
    | none =>
      refine ⟨[], _, w', [], [], ess', rfl, by simpa using hf, .nil, hr, newPage_pre lines hb, ?_⟩
      intro hl
      rw [if_neg (by omega)]
      exact Nat.le_refl _
  unfold newLine
  cases h with
  | nil => exact main [newPage 32] [[]] (.cons newPage_rep .nil) (by simp)
  | cons hp hr => exact main _ _ (.cons hp hr) rfl

/-- The new variable before the copy of its value. -/
def newEnt (r : Req) (size n : Nat) (free : List Byte) : Ent where
  key := keyOf r.name
  fl := newFlags r size n (decide (r.nbelem > 0))
  area := (if decide (r.nbelem > 0) then le32 n ++ le32 n else List.replicate 8 0#8) ++ free

theorem newEnt_max (r : Req) (size n : Nat) (free : List Byte) (hn : n < 2147483648) :
    (newEnt r size n free).max = if r.nbelem > 0 then (n : Int) else 0 := by
  unfold Ent.max newEnt
  simp only []
  by_cases hp : r.nbelem > 0
  · simp only [hp, decide_true, if_true]
    rw [List.append_assoc, show (4 : Nat) = (le32 n).length from rfl, List.drop_left, rd32_le32,
      Nat.mod_eq_of_lt (by omega)]
    unfold int32
    rw [if_pos hn]
  · simp only [hp, decide_false, Bool.false_eq_true, if_false]
    rfl

theorem lines_pos (type size n : Nat) (array : Bool) : 1 ≤ linesFor type size n array := by
  unfold linesFor
  split <;> omega

theorem lines_bound {r : Req} {size n : Nat} (h : Sized r size n) (array : Bool) :
    linesFor r.type size n array < 2147483648 ∧
      (n * size ≤ 1240 → linesFor r.type size n array ≤ 32) := by
  have := h.small
  unfold linesFor
  generalize n * size = k at *
  split <;> omega

theorem newEnt_ok {r : Req} {size n : Nat} (h : Sized r size n) (h0 : 0#8 ∉ r.name)
    (hn : ¬ r.nbelem > 0 → n = 1) {free : List Byte}
    (hf : free.length = 40 * (linesFor r.type size n (decide (r.nbelem > 0)) - 1)) :
    EntOk (newEnt r size n free) ∧
      (newEnt r size n free).span = linesFor r.type size n (decide (r.nbelem > 0)) := by
  have hlp := lines_pos r.type size n (decide (r.nbelem > 0))
  have h8 : (if decide (r.nbelem > 0) = true then le32 n ++ le32 n
      else List.replicate 8 0#8).length = 8 := by
    split <;> simp [le32_length]
  have hal : (newEnt r size n free).area.length =
      8 + 40 * (linesFor r.type size n (decide (r.nbelem > 0)) - 1) := by
    unfold newEnt
    simp only [List.length_append, h8, hf]
  have hspan : (newEnt r size n free).span =
      linesFor r.type size n (decide (r.nbelem > 0)) := by
    unfold Ent.span
    omega
  have hcases := h.cases
  have hpos := h.pos
  have hnn : n < 2147483648 := by
    have h1 := h.small
    have h2 : 1 ≤ size := by
      simp only [WB_CHAR, WB_BOOL] at hcases
      omega
    have := Nat.mul_le_mul_left n h2
    omega
  have hmax := newEnt_max r size n free hnn
  refine ⟨⟨keyOf_length _, keyOf_nonul h0, keyOf_up _, ?_, by rw [hspan]; omega, ?_, ?_, ?_, ?_,
    ?_, ?_⟩, hspan⟩
  · refine ⟨?_, ?_, ?_⟩
    · show r.type < 8
      simp only [WB_CHAR, WB_BOOL, WB_REAL, WB_INT] at hcases
      omega
    · show storedSize r.type size _ < 1024
      unfold storedSize
      simp only [WB_BOOL, WB_REAL, WB_INT] at hcases
      split <;> omega
    · show (if _ > 32 then 0 else _) < 1024
      split <;> omega
  · rw [hspan]
    rfl
  · intro hc
    have hc' : r.type ≠ WB_CHAR := hc
    show storedSize r.type size _ = 4 ∨ storedSize r.type size _ = 8
    unfold storedSize
    rw [if_neg (fun hx => hc' hx.1)]
    simp only [WB_CHAR, WB_BOOL, WB_REAL, WB_INT] at *
    omega
  · intro hc
    have hc' : r.type = WB_BOOL := hc
    show storedSize r.type size _ = 4
    unfold storedSize
    rw [if_neg (by rw [hc']; simp [WB_BOOL, WB_CHAR])]
    simp only [WB_CHAR, WB_BOOL, WB_REAL, WB_INT] at *
    omega
  · intro ha
    have ha' : decide (r.nbelem > 0) = false := ha
    have hn1 := hn (by simpa using ha')
    rw [hal]
    show storedSize r.type size (decide (r.nbelem > 0)) ≤ _
    rw [ha']
    unfold storedSize linesFor
    simp only [WB_CHAR, WB_BOOL, WB_REAL, WB_INT] at *
    subst hn1
    by_cases hc : r.type = 3
    · simp only [hc, Bool.false_eq_true, not_false_iff, and_self, if_true, or_true]
      omega
    · simp only [hc, false_and, Bool.false_eq_true, if_false, false_or]
      omega
  · intro ha hc h4
    have ha' : decide (r.nbelem > 0) = false := ha
    rw [hmax, if_neg (by simpa using ha')]
  · intro ha
    have ha' : decide (r.nbelem > 0) = true := ha
    have hp : r.nbelem > 0 := by simpa using ha'
    rw [hmax, if_pos hp, hal]
    refine ⟨by omega, ?_⟩
    show 8 + (n : Int).toNat * storedSize r.type size (decide (r.nbelem > 0)) ≤ _
    rw [ha', Int.toNat_natCast]
    unfold storedSize linesFor
    rw [if_neg (by simp), if_pos (by simp)]
    generalize n * size = k
    omega

/-- Everything a put can do to the variable it names. -/
inductive Eff (r : Req) : Option Ent → Option Ent → Int → Prop
  | early {o c} (hp : ¬ r.passed) (hc : c < 0) : Eff r o o c
  | kept {e c} (hp : r.passed) (hc : c < 0)
      (why : c = -1012 ∧ r.createOnly = true ∨
        c = -1002 ∧ e.fl.readonly = true ∧ e.fl.initialized = true) :
      Eff r (some e) (some e) c
  | spoilt {e e' c} (hp : r.passed) (hc : c < 0) (hs : Same e e')
      (hw : (e.fl.readonly && e.fl.initialized) = false) (hco : r.createOnly = false)
      (hf : e'.fl = { e.fl with badval := true }) : Eff r (some e) (some e') c
  | replaced {e e' c} (hp : r.passed) (hc : 0 ≤ c) (hs : Same e e')
      (hw : (e.fl.readonly && e.fl.initialized) = false)
      (hf : e'.fl = { e.fl with initialized := true, badval := false })
      (hcv : r.type ≠ WB_CHAR → c = if e.fl.array then e.max else 0)
      (hh : Holds e' r r.len.toNat r.count) : Eff r (some e) (some e') c
  | refused (hp : r.passed) (hr : r.conflict = true) : Eff r none none (-1015)
  | created {e' c} (hp : r.passed) (hc : 0 ≤ c) (hk : r.createOnly = true)
      (hf : e'.fl = newFlags r r.len.toNat r.count (decide (r.nbelem > 0))) :
      Eff r none (some e') c
  | new {e' c} (hp : r.passed) (hc : 0 ≤ c) (hk : r.createOnly = false)
      (hf : e'.fl = { newFlags r r.len.toNat r.count (decide (r.nbelem > 0)) with
        initialized := true, badval := false })
      (hcv : r.type ≠ WB_CHAR → c = if r.nbelem > 0 then (r.count : Int) else 0)
      (hh : Holds e' r r.len.toNat r.count) : Eff r none (some e') c

theorem significant_length (s : List Byte) : (significant s).length ≤ s.length := by
  unfold significant trim
  rw [List.length_reverse]
  refine Nat.le_trans (List.dropWhile_sublist _).length_le ?_
  rw [List.length_reverse]
  exact (List.takeWhile_sublist _).length_le

theorem putNew_spec {p : Page} {es : List Ent} {r : Req}
    (hwf : r.Wf) (hpass : r.passed)
    (h : PreRep p es (linesFor r.type r.len.toNat r.count (decide (r.nbelem > 0))))
    (hsmall : linesFor r.type r.len.toNat r.count (decide (r.nbelem > 0)) ≤ 32 → p.nbLines ≤ 32) :
    ∃ p' c es', putNew p r r.len.toNat r.count (decide (r.nbelem > 0)) = some (p', c) ∧
      Rep p' es' ∧
      ((es' = es ∧ Eff r none none c) ∨
       (∃ e, es' = es ++ [e] ∧ e.key = keyOf r.name ∧ Eff r none (some e) c)) := by
  have hsz := hwf.sized hpass
  obtain ⟨_, hn0, _⟩ := id hpass
  have hlp := lines_pos r.type r.len.toNat r.count (decide (r.nbelem > 0))
  obtain ⟨hlb, hl32⟩ := lines_bound hsz (decide (r.nbelem > 0))
  have hn1 : ¬ r.nbelem > 0 → r.count = 1 := by
    intro hx
    unfold Req.count
    rw [if_pos (by omega)]
  obtain ⟨free, hfree⟩ := h.mem
  have hlen := h.len
  have hsum := enc_sum h.ok
  have hfits := h.fits
  have hu := h.used
  rw [hfree, List.length_append, hsum, ← hu] at hlen
  -- pieces of the free memory
  obtain ⟨x28, x4, x8, f2, rest, hsplit, l28, l4, l8, l2⟩ : ∃ x28 x4 x8 f2 rest,
      free = x28 ++ (x4 ++ (x8 ++ (f2 ++ rest))) ∧ x28.length = 28 ∧ x4.length = 4 ∧
      x8.length = 8 ∧
      f2.length = 40 * (linesFor r.type r.len.toNat r.count (decide (r.nbelem > 0)) - 1) := by
    refine ⟨free.take 28, (free.drop 28).take 4, (free.drop 32).take 8,
      (free.drop 40).take (40 * (linesFor r.type r.len.toNat r.count (decide (r.nbelem > 0)) - 1)),
      (free.drop 40).drop (40 * (linesFor r.type r.len.toNat r.count (decide (r.nbelem > 0)) - 1)),
      ?_, ?_, ?_, ?_, ?_⟩
    · rw [List.take_append_drop]
      rw [show free.drop 40 = (free.drop 32).drop 8 by rw [List.drop_drop], List.take_append_drop]
      rw [show free.drop 32 = (free.drop 28).drop 4 by rw [List.drop_drop], List.take_append_drop,
        List.take_append_drop]
    · rw [List.length_take]; omega
    · rw [List.length_take, List.length_drop]; omega
    · rw [List.length_take, List.length_drop]; omega
    · rw [List.length_take, List.length_drop]; omega
  have hA : (es.flatMap Ent.enc).length = 40 * p.firstFree := by rw [hsum, hu]
  generalize hAA : es.flatMap Ent.enc = A at hA hfree
  have w1 : write p.mem (40 * p.firstFree) (fillLine (trim r.name)) =
      some (A ++ ((keyOf r.name ++ [0#8]) ++ (x4 ++ (x8 ++ (f2 ++ rest))))) := by
    rw [hfree, hsplit, ← hA, fillLine_key]
    exact write_mid A x28 _ _ (by simp [keyOf_length, l28])
  have w2 : ∀ (q : Page) (f : Flags),
      Page.setFlags { q with mem := A ++ ((keyOf r.name ++ [0#8]) ++ (x4 ++ (x8 ++ (f2 ++ rest)))) }
        p.firstFree f = some { q with mem :=
          A ++ ((keyOf r.name ++ [0#8]) ++ (le32 f.pack ++ (x8 ++ (f2 ++ rest)))) } := by
    intro q f
    unfold Page.setFlags
    simp only []
    rw [show 40 * p.firstFree + 28 = (A ++ (keyOf r.name ++ [0#8])).length by
      simp [keyOf_length, hA]]
    rw [← List.append_assoc, write_mid (A ++ (keyOf r.name ++ [0#8])) x4 _ (le32 f.pack)
      (by rw [le32_length, l4])]
    simp [List.append_assoc]
  have w3 : ∀ (f : Flags) (d : List Byte), d.length = 8 →
      write (A ++ ((keyOf r.name ++ [0#8]) ++ (le32 f.pack ++ (x8 ++ (f2 ++ rest)))))
        (40 * p.firstFree + 32) d =
      some (A ++ ((keyOf r.name ++ [0#8]) ++ (le32 f.pack ++ (d ++ (f2 ++ rest))))) := by
    intro f d hd
    rw [show 40 * p.firstFree + 32 = (A ++ ((keyOf r.name ++ [0#8]) ++ le32 f.pack)).length by
      simp [keyOf_length, hA, le32_length]]
    rw [show A ++ ((keyOf r.name ++ [0#8]) ++ (le32 f.pack ++ (x8 ++ (f2 ++ rest)))) =
      (A ++ ((keyOf r.name ++ [0#8]) ++ le32 f.pack)) ++ (x8 ++ (f2 ++ rest)) by
      simp [List.append_assoc]]
    rw [write_mid _ x8 _ d (by rw [hd, l8])]
    simp [List.append_assoc]
  unfold putNew
  simp only []
  rw [w1]
  simp only [Option.bind_some]
  by_cases hcf : r.conflict = true
  · -- contradictory options
    rw [if_pos hcf, w2]
    refine ⟨_, _, es, rfl, ⟨⟨_, by rw [hAA]⟩, ?_, hu, h.ok, ?_, h.bound, by show 1 ≤ p.nbLines; omega⟩,
      .inl ⟨rfl, .refused hpass hcf⟩⟩
    · simp only [List.length_append, keyOf_length, hA, le32_length, List.length_singleton, l8]
      rw [hsplit] at hlen
      simp only [List.length_append, l28, l4, l8] at hlen
      omega
    · have := hl32 (hwf.options hcf)
      exact .inl (hsmall this)
  · rw [if_neg hcf, w2]
    simp only [Option.bind_some]
    rw [w3 _ _ (by split <;> simp [le32_length])]
    simp only [Option.bind_some]
    rw [if_neg (by omega)]
    obtain ⟨hok, hspan⟩ := newEnt_ok hsz hwf.nonul hn1 (free := f2) l2
    have hmem : A ++ ((keyOf r.name ++ [0#8]) ++
        (le32 (newFlags r r.len.toNat r.count (decide (r.nbelem > 0))).pack ++
          ((if decide (r.nbelem > 0) = true then le32 r.count ++ le32 r.count
            else List.replicate 8 0#8) ++ (f2 ++ rest)))) =
        A ++ ((newEnt r r.len.toNat r.count f2).enc ++ rest) := by
      unfold Ent.enc newEnt
      simp [List.append_assoc]
    rw [hmem]
    -- the page with the new variable, whatever its value
    have hrep : ∀ e, Same (newEnt r r.len.toNat r.count f2) e →
        Rep (put_at { p with firstFree := p.firstFree + linesFor r.type r.len.toNat r.count (decide (r.nbelem > 0)) } A rest e) (es ++ [e]) := by
      intro e hs
      have hoe := hs.ok hok
      refine ⟨⟨rest, ?_⟩, ?_, ?_, ?_, ?_, h.bound, by show 1 ≤ p.nbLines; omega⟩
      · unfold put_at
        rw [List.flatMap_append, hAA]
        simp [List.append_assoc]
      · unfold put_at
        simp only [List.length_append, hA, hoe.enc_length, hs.span, hspan]
        rw [hsplit] at hlen
        simp only [List.length_append, l28, l4, l8, l2] at hlen
        omega
      · unfold put_at
        simp [hu, hs.span, hspan]
      · intro x hx
        rw [List.mem_append, List.mem_singleton] at hx
        rcases hx with hx | rfl
        · exact h.ok x hx
        · exact hoe
      · rcases h.big with hb | ⟨hb1, hb2⟩
        · exact .inl hb
        · right
          refine ⟨⟨e, by rw [hb1]; rfl⟩, ?_⟩
          subst hb1
          simp only [List.map_nil, List.sum_nil] at hu
          unfold put_at
          simp only
          omega
    have hmax := newEnt_max r r.len.toNat r.count f2 (by
      have h1 := hsz.small
      have hc := hsz.cases
      have h2 : 1 ≤ r.len.toNat := by
        simp only [WB_CHAR, WB_BOOL] at hc
        omega
      have := Nat.mul_le_mul_left r.count h2
      omega)
    have hat : At (put_at { p with firstFree := p.firstFree + linesFor r.type r.len.toNat r.count (decide (r.nbelem > 0)) } A rest (newEnt r r.len.toNat r.count f2)) p.firstFree
        (newEnt r r.len.toNat r.count f2) A rest := ⟨rfl, hA, hok.key⟩
    by_cases hco : r.createOnly = true
    · rw [if_pos hco]
      refine ⟨_, _, _, rfl, hrep _ (Same.refl _), .inr ⟨_, rfl, rfl, .created hpass ?_ hco rfl⟩⟩
      split
      · have := hat.maxAt hok.area_ge
        unfold put_at at this
        rw [this, hmax]
        split <;> omega
      · omega
    · rw [if_neg hco]
      obtain ⟨e', c, he, hs, hcase⟩ := putCopyE_spec hok hsz rfl rfl (by
          intro hx
          have hx' : decide (r.nbelem > 0) = false := hx
          exact hn1 (by simpa using hx'))
        (by
          intro hc
          show storedSize r.type _ _ = _
          unfold storedSize
          rw [if_neg (fun hx => hc hx.1)])
        (by
          intro hx
          have hx' : decide (r.nbelem > 0) = true := hx
          rw [hmax, if_pos (by simpa using hx')]
          omega)
      have := putCopy_at hat hok.area_ge he
      refine ⟨_, c, _, this, hrep e' hs, ?_⟩
      rcases hcase with ⟨_, _, hcc, i, hi, hbad⟩ | ⟨hpos, hf, hcv, hh⟩
      · exfalso
        have h1 := significant_length (elem r.src r.len.toNat i)
        have h2 : (elem r.src r.len.toNat i).length ≤ r.len.toNat := by
          unfold elem
          rw [List.length_take]
          omega
        have h3 : r.len.toNat ≤ (newEnt r r.len.toNat r.count f2).fl.elementsize := by
          show _ ≤ storedSize r.type _ _
          unfold storedSize
          split <;> omega
        omega
      · refine .inr ⟨e', rfl, by rw [hs.key]; rfl, .new hpass hpos (by simpa using hco) hf ?_ hh⟩
        intro hc
        rw [hcv hc, hmax]
        have hfa : (newEnt r r.len.toNat r.count f2).fl.array = decide (r.nbelem > 0) := rfl
        rw [hfa]
        by_cases hp : r.nbelem > 0 <;> simp [hp]

theorem findEnt_insert {a b : List Ent} {e : Ent} {k : List Byte} (hk : e.key ≠ k) :
    findEnt (a ++ e :: b) k = findEnt (a ++ b) k := by
  unfold findEnt
  rw [List.find?_append, List.find?_append, List.find?_cons_of_neg (by simpa using hk)]

theorem Rep.replace {p : Page} {es₁ es₂ : List Ent} {e e' : Ent}
    (h : Rep p (es₁ ++ e :: es₂)) (hs : Same e e') {A B free : List Byte}
    (hA : A = es₁.flatMap Ent.enc) (hB : B = es₂.flatMap Ent.enc ++ free) (hm : p.mem = A ++ (e.enc ++ B)) :
    Rep (put_at p A B e') (es₁ ++ e' :: es₂) := by
  have hoe := h.ok e (by simp)
  have hoe' := hs.ok hoe
  refine ⟨⟨free, ?_⟩, ?_, ?_, ?_, ?_, h.bound, h.pos⟩
  · unfold put_at
    rw [hA, hB, List.flatMap_append, List.flatMap_cons]
    simp [List.append_assoc]
  · have := h.len
    rw [hm] at this
    unfold put_at
    simp only [List.length_append, hoe.enc_length, hoe'.enc_length, hs.span] at this ⊢
    exact this
  · unfold put_at
    rw [h.used]
    simp [hs.span]
  · intro x hx
    rw [List.mem_append, List.mem_cons] at hx
    rcases hx with hx | rfl | hx
    · exact h.ok x (by simp [hx])
    · exact hoe'
    · exact h.ok x (by simp [hx])
  · rcases h.big with hb | ⟨⟨x, hb⟩, hb2⟩
    · exact .inl hb
    · right
      refine ⟨⟨e', ?_⟩, hb2⟩
      cases es₁ with
      | nil =>
        simp only [List.nil_append, List.cons.injEq] at hb ⊢
        simp [hb.2]
      | cons y ys => simp at hb

/-- The effect of `c_wb_put` on a whole whiteboard. -/
theorem put_R {w : List Page} {ess : List (List Ent)} (h : R w ess) {r : Req} (hwf : r.Wf)
    (hcl : ∀ e, findEnt ess.flatten (keyOf r.name) = some e → ¬ Clash r e) :
    ∃ w' c ess', put w r = some (w', c) ∧ R w' ess' ∧
      (∀ k, k ≠ keyOf r.name → findEnt ess'.flatten k = findEnt ess.flatten k) ∧
      Eff r (findEnt ess.flatten (keyOf r.name)) (findEnt ess'.flatten (keyOf r.name)) c := by
  unfold put
  simp only []
  rw [← Req.len, ← Req.count]
  by_cases h1 : typeOk r.type r.len r.len = true
  case neg =>
    have h1' : typeOk r.type r.len r.len = false := by simpa using h1
    rw [h1']
    exact ⟨w, _, ess, rfl, h, fun _ _ => rfl, .early (fun hp => h1 hp.1) (by decide)⟩
  simp only [h1, Bool.not_true, Bool.false_eq_true, if_false]
  by_cases h2 : r.nbelem < 0
  · rw [if_pos h2]
    exact ⟨w, _, ess, rfl, h, fun _ _ => rfl,
      .early (fun hp => by have := hp.2.1; omega) (by decide)⟩
  rw [if_neg h2, if_neg (by have := hwf.small; omega)]
  by_cases h3 : (trim r.name).length > 27
  · rw [if_pos h3]
    exact ⟨w, _, ess, rfl, h, fun _ _ => rfl,
      .early (fun hp => by have := hp.2.2; omega) (by decide)⟩
  rw [if_neg h3, fillLine_key]
  have hpass : r.passed := ⟨h1, by omega, by omega⟩
  have hsz := hwf.sized hpass
  cases locate h.pages (keyOf_ok hwf.nonul) with
  | absent ha hl =>
    rw [hl]
    simp only []
    obtain ⟨w₁, p, w₂, ess₁, es, ess₂, g1, g2, g3, g4, g5, g6⟩ := newLine_spec h.pages
      (lines_pos r.type r.len.toNat r.count (decide (r.nbelem > 0)))
      (lines_bound hsz (decide (r.nbelem > 0))).1
    rw [g1]
    simp only []
    have hget : (w₁ ++ p :: w₂)[w₁.length]? = some p := by simp
    rw [hget]
    obtain ⟨p', c, es', e1, e2, e3⟩ := putNew_spec hwf hpass g5 g6
    simp only [e1, Option.map_some]
    have hset : (w₁ ++ p :: w₂).set w₁.length p' = w₁ ++ p' :: w₂ := by simp
    rw [hset]
    have hpages : List.Forall₂ Rep (w₁ ++ p' :: w₂) (ess₁ ++ es' :: ess₂) :=
      List.rel_append g3 (.cons e2 g4)
    rcases e3 with ⟨rfl, heff⟩ | ⟨e, rfl, hk, heff⟩
    · refine ⟨_, _, _, rfl, ⟨hpages, by rw [g2]; exact h.nodup⟩, fun k _ => by rw [g2], ?_⟩
      rw [g2, findEnt_none ha]
      exact heff
    · have hflat : (ess₁ ++ (es ++ [e]) :: ess₂).flatten =
          (ess₁.flatten ++ es) ++ e :: ess₂.flatten := by
        simp [List.append_assoc]
      have hflat0 : ess.flatten = (ess₁.flatten ++ es) ++ ess₂.flatten := by
        rw [← g2]
        simp [List.append_assoc]
      refine ⟨_, _, _, rfl, ⟨hpages, ?_⟩, ?_, ?_⟩
      · rw [hflat]
        have hnd := h.nodup
        rw [hflat0] at hnd
        rw [List.map_append, List.map_cons, List.nodup_middle]
        rw [List.map_append] at hnd
        rw [List.nodup_cons]
        refine ⟨?_, hnd⟩
        rw [hk, ← List.map_append, ← hflat0]
        intro hmem
        rw [List.mem_map] at hmem
        obtain ⟨x, hx, hxk⟩ := hmem
        exact ha x hx hxk
      · intro k hk'
        rw [hflat, hflat0, findEnt_insert (by rw [hk]; exact Ne.symm hk')]
      · rw [hflat, findEnt_none ha, findEnt_split _ hk]
        · exact heff
        · intro x hx
          apply ha
          rw [hflat0]
          exact List.mem_append_left _ hx
  | found w₁ w₂ p ess₁ ess₂ es₁ es₂ e hw hess hr1 hr2 hp hk hn hl =>
    rw [hl]
    simp only []
    have hget : w[w₁.length]? = some p := by
      rw [hw]
      simp
    rw [hget]
    have hflat : ∀ x, (ess₁ ++ (es₁ ++ x :: es₂) :: ess₂).flatten =
        (ess₁.flatten ++ es₁) ++ x :: (es₂ ++ ess₂.flatten) := by
      intro x
      simp [List.append_assoc]
    have hfind : findEnt ess.flatten (keyOf r.name) = some e := by
      rw [hess, hflat]
      exact findEnt_split hn hk
    have hoe := hp.ok e (by simp)
    obtain ⟨e', c, he, hs, hcase⟩ := putOldE_spec hoe hsz (by
      intro hx
      unfold Req.count
      rw [if_pos hx]) (by omega) (hcl e hfind)
    obtain ⟨A, B, hat, hA, free, hB⟩ := hp.at
    have hput := putOld_at hat hoe.area_ge hoe.valid he
    simp only [hput, Option.map_some]
    have hset : w.set w₁.length (put_at p A B e') = w₁ ++ put_at p A B e' :: w₂ := by
      rw [hw]
      simp
    rw [hset]
    have hrep := hp.replace hs hA hB hat.mem
    refine ⟨_, c, ess₁ ++ (es₁ ++ e' :: es₂) :: ess₂, rfl,
      ⟨List.rel_append hr1 (.cons hrep hr2), ?_⟩, ?_, ?_⟩
    · have hnd := h.nodup
      rw [hess, hflat] at hnd
      rw [hflat]
      simp only [List.map_append, List.map_cons, hs.key] at hnd ⊢
      exact hnd
    · intro k hk'
      rw [hess, hflat, hflat, findEnt_insert (by rw [hs.key, hk]; exact Ne.symm hk'),
        findEnt_insert (by rw [hk]; exact Ne.symm hk')]
    · rw [hfind, hflat, findEnt_split hn (by rw [hs.key, hk])]
      rcases hcase with ⟨hc, hkept | ⟨hro, hco, hfl⟩⟩ | ⟨hc, hro, hfl, hcv, hh⟩
      · obtain ⟨rfl, hwhy⟩ := hkept
        exact .kept hpass hc hwhy
      · exact .spoilt hpass hc hs hro hco hfl
      · exact .replaced hpass hc hs hro hfl hcv hh

end WhiteBoard
