import Verif.Props.EzGridTable

/-! Property C74: release of grids, and cases where the table fails. -/

namespace Verif.EzGrid

instance : DecidableRel Same := fun a b => by unfold Same; infer_instance

inductive Op
  | define (c : Call)
  | release (i : Nat)

/-- What a program may expect: grids with numbers of users. A number that is not the last one is
not released by its last user. -/
def specStep (K : List (Call × Nat)) : Op → Option (List (Call × Nat) × Option Int)
  | .define c =>
    match K.findIdx? fun k => Same c k.1 with
    | some i => some (K.modify i (fun k => (k.1, k.2 + 1)), some (i : Int))
    | none => if K.length < 16383 then some (K ++ [(c, 1)], some (K.length : Int)) else none
  | .release i =>
    match K[i]? with
    | none => none
    | some k =>
      if k.2 > 1 then some (K.modify i (fun k => (k.1, k.2 - 1)), none)
      else if i + 1 = K.length then some (K.dropLast, none) else none

def specRun : List (Call × Nat) → List Op → Option (List (Call × Nat) × List (Option Int))
  | K, [] => some (K, [])
  | K, o :: os => do
    let (K, a) ← specStep K o
    let (K, as) ← specRun K os
    some (K, a :: as)

/-- The same with the code. -/
def codeStep (crc : Desc → Nat) (gauss : Nat → Nat → Desc) (s : Table) :
    Op → Except Fault (Table × Option Int)
  | .define c => do
    let (s, id) ← defMem crc gauss s c
    .ok (s, some id)
  | .release i => do
    let s ← release s i
    .ok (s, none)

def codeRun (crc : Desc → Nat) (gauss : Nat → Nat → Desc) :
    Table → List Op → Except Fault (Table × List (Option Int))
  | s, [] => .ok (s, [])
  | s, o :: os => do
    let (s, a) ← codeStep crc gauss s o
    let (s, as) ← codeRun crc gauss s os
    .ok (s, a :: as)

/-- Grid of a slot with its number of users. -/
def SlotOf (crc : Desc → Nat) (i : Nat) (k : Call × Nat) (v : Slot) : Prop :=
  v.index = i ∧ v.next = -1 ∧ v.access = k.2 ∧ v.bucket = crc (newGrid k.1) ∧ Stored k.1 v.d

structure Live (crc : Desc → Nat) (S : Call → Prop) (K : List (Call × Nat)) (s : Table) : Prop where
  n : s.n = K.length
  cap : 128 * (s.n / 128 + 1) ≤ s.cap
  users : ∀ k ∈ K, 1 ≤ k.2 ∧ S k.1
  slots : ∀ (i : Nat) (k : Call × Nat), K[i]? = some k → SlotOf crc i k (s.slots i)
  heads : ∀ (i : Nat) (k : Call × Nat), K[i]? = some k → s.heads (crc (newGrid k.1)) = some (i : Int)
  free : ∀ b, (∀ k ∈ K, crc (newGrid k.1) ≠ b) → s.heads b = none

def Ready2 (crc : Desc → Nat) (S : Call → Prop) (K : List (Call × Nat)) (s : Table) : Prop :=
  s.n = K.length ∧ (K ≠ [] → Live crc S K s)

theorem Ready2.tables {crc : Desc → Nat} {S : Call → Prop} {K : List (Call × Nat)} {s : Table}
    (h : Ready2 crc S K s) : Live crc S K (tables s) := by
  unfold EzGrid.tables
  by_cases hK : K = []
  · subst hK
    have : s.n = 0 := h.1
    rw [if_pos this]
    exact ⟨rfl, by decide, by simp, by simp, by simp, fun _ _ => rfl⟩
  · rw [if_neg]
    · exact h.2 hK
    · rw [h.1]
      have := List.length_pos_of_ne_nil hK
      omega

/-- A change of one slot and its entry. -/
theorem Live.change {crc : Desc → Nat} {S : Call → Prop} {K : List (Call × Nat)} {s : Table}
    (h : Live crc S K s) {i : Nat} {k : Call × Nat} (hi : K[i]? = some k) (m : Nat) (hm : 1 ≤ m)
    (v : Slot) (hv : SlotOf crc i (k.1, m) v) (f : Call × Nat → Call × Nat) (hf : f k = (k.1, m)) :
    Live crc S (K.modify i f) (setSlot s i v) := by
  have hget : ∀ (j : Nat) (l : Call × Nat), (K.modify i f)[j]? = some l →
      (j = i ∧ l = (k.1, m)) ∨ (j ≠ i ∧ K[j]? = some l) := by
    intro j l hl
    rw [List.getElem?_modify] at hl
    by_cases hji : i = j
    · subst hji
      left
      rw [hi] at hl
      simp [hf] at hl
      exact ⟨rfl, hl.symm⟩
    · right
      simp only [hji, if_false] at hl
      exact ⟨fun e => hji e.symm, by simpa using hl⟩
  have hki := List.mem_of_getElem? hi
  exact
    { n := by simpa [setSlot] using h.n
      cap := h.cap
      users := by
        intro l hl
        obtain ⟨j, hj⟩ := List.mem_iff_getElem?.1 hl
        rcases hget j l hj with ⟨_, e⟩ | ⟨_, e⟩
        · rw [e]; exact ⟨hm, (h.users k hki).2⟩
        · exact h.users l (List.mem_of_getElem? e)
      slots := by
        intro j l hj
        rcases hget j l hj with ⟨e, e'⟩ | ⟨e, e'⟩
        · subst e; subst e'
          simpa [setSlot] using hv
        · have : ¬ ((j : Int) = i) := by omega
          simpa [setSlot, this] using h.slots j l e'
      heads := by
        intro j l hj
        rcases hget j l hj with ⟨e, e'⟩ | ⟨e, e'⟩
        · subst e; subst e'
          exact h.heads j k hi
        · exact h.heads j l e'
      free := by
        intro b hb
        apply h.free
        intro l hl
        obtain ⟨j, hj⟩ := List.mem_iff_getElem?.1 hl
        by_cases hji : j = i
        · subst hji
          rw [hi] at hj
          cases hj
          have := hb (k.1, m) (List.mem_iff_getElem?.2 ⟨j, by rw [List.getElem?_modify, hi]; simp [hf]⟩)
          exact this
        · refine hb l (List.mem_iff_getElem?.2 ⟨j, ?_⟩)
          rw [List.getElem?_modify, hj]
          have : ¬ (i = j) := fun e => hji e.symm
          simp [this] }

section
variable {crc : Desc → Nat} {gauss : Nat → Nat → Desc} {S : Call → Prop}
  (hS : ∀ a, S a → Valid a)
  (hcode : ∀ a b, S a → S b → crc (newGrid a) = crc (newGrid b) → Same a b)
include hS hcode

omit hcode in
theorem live_old {K : List (Call × Nat)} {s : Table} (h : Live crc S K s) {c : Call} (hc : S c)
    {i : Nat} {k : Call × Nat} (hi : K[i]? = some k) (hsame : Same c k.1) (hsn : s.n ≠ 0) :
    ∃ s', defMem crc gauss s c = .ok (s', (i : Int)) ∧
      Live crc S (K.modify i (fun k => (k.1, k.2 + 1))) s' := by
  have hlt := (List.getElem?_eq_some_iff.1 hi).1
  have hn := h.n
  have hcap := h.cap
  have hhead := h.heads i k hi
  rw [← hsame.code (crc := crc) (hS c hc)] at hhead
  obtain ⟨q1, q2, q3, q4, q5⟩ := h.slots i k hi
  have hk := h.users k (List.mem_of_getElem? hi)
  have hcmp : compare (newGrid c) (s.slots i).d = .ok .same := by
    rw [compare_eq (hS c hc) (hS _ hk.2) q5, if_pos hsame.alike]
  have htab : tables s = s := by rw [EzGrid.tables, if_neg hsn]
  have hid : identify s (crc (newGrid c)) (newGrid c)
      = .ok (setSlot s i { s.slots i with access := (s.slots i).access + 1 }, (i : Int), true) := by
    unfold identify
    rw [hhead]
    simp only [find, walk, bind, Except.bind]
    rw [slot_ok (by omega) (by omega)]
    simp only [hcmp, if_true]
    rw [slot_ok (by omega) (by omega)]
    simp only
    rw [if_neg (by omega)]
    exact congrArg (fun x => Except.ok (_, x, true)) q1
  unfold defMem
  rw [htab]
  simp only [hid, bind, Except.bind]
  by_cases hirr : irregular c.typ = true
  · rw [if_pos hirr, slot_ok (by omega) (by show _ < s.cap; omega)]
    refine ⟨_, rfl, ?_⟩
    have := h.change hi (k.2 + 1) (by omega)
      { s.slots i with access := (s.slots i).access + 1, d := defAxes gauss c (s.slots i).d }
      ⟨q1, q2, by simp [q3], q4, defAxes_stored (hS c hc) hsame.alike q5⟩
      (fun k => (k.1, k.2 + 1)) rfl
    refine cast ?_ this
    congr 1
    simp only [setSlot]
    congr 1
    funext j
    by_cases hj : j = (i : Int) <;> simp [hj]
  · rw [if_neg hirr]
    exact ⟨_, rfl, h.change hi (k.2 + 1) (by omega) { s.slots i with access := (s.slots i).access + 1 }
      ⟨q1, q2, by simp [q3], q4, q5⟩ _ rfl⟩

theorem live_new {K : List (Call × Nat)} {s : Table} (h : Live crc S K s) {c : Call} (hc : S c)
    (hno : ∀ k ∈ K, ¬ Same c k.1) (hlen : K.length < 16383) :
    ∃ s', (do
        let (s, id, _) ← identify s (crc (newGrid c)) (newGrid c)
        if irregular c.typ then
          let r ← slot s id
          .ok (setSlot s id { r with d := defAxes gauss c r.d }, id)
        else .ok (s, id) : Except Fault (Table × Int)) = .ok (s', (K.length : Int)) ∧
      Live crc S (K ++ [(c, 1)]) s' := by
  have hn := h.n
  have hcap := h.cap
  have hne : ∀ k ∈ K, crc (newGrid k.1) ≠ crc (newGrid c) := fun k hk e =>
    hno k hk (hcode c k.1 hc (h.users k hk).2 e.symm)
  have hhead := h.free _ hne
  have main : ∀ (f : Int → Slot) (cp : Int), (∀ i : Nat, i < K.length → f i = s.slots i) →
      SlotOf crc K.length (c, 1) (f (K.length : Int)) →
      128 * (((K.length : Int) + 1) / 128 + 1) ≤ cp →
      Live crc S (K ++ [(c, 1)]) (Table.mk f cp
        (fun b => if b = crc (newGrid c) then some (K.length : Int) else s.heads b)
        ((K.length : Int) + 1)) := by
    intro f cp hf hfn hcp
    have hget : ∀ (j : Nat) (l : Call × Nat), (K ++ [(c, 1)])[j]? = some l →
        (j = K.length ∧ l = (c, 1)) ∨ (j < K.length ∧ K[j]? = some l) := by
      intro j l hl
      by_cases hj : j < K.length
      · right
        rw [List.getElem?_append_left hj] at hl
        exact ⟨hj, hl⟩
      · left
        have := (List.getElem?_eq_some_iff.1 hl).1
        simp at this
        have : j = K.length := by omega
        subst this
        simp at hl
        exact ⟨rfl, hl.symm⟩
    exact
      { n := by simp
        cap := hcp
        users := by
          intro k hk
          rcases List.mem_append.1 hk with hk | hk
          · exact h.users k hk
          · rw [List.mem_singleton.1 hk]; exact ⟨Nat.le_refl _, hc⟩
        slots := by
          intro j l hj
          rcases hget j l hj with ⟨e, e'⟩ | ⟨e, e'⟩
          · subst e; subst e'; exact hfn
          · show SlotOf crc j l (f j)
            rw [hf j e]; exact h.slots j l e'
        heads := by
          intro j l hj
          show (if _ then _ else _) = _
          rcases hget j l hj with ⟨e, e'⟩ | ⟨e, e'⟩
          · subst e; subst e'; simp
          · rw [if_neg (hne l (List.mem_of_getElem? e'))]
            exact h.heads j l e'
        free := by
          intro b hb
          show (if _ then _ else _) = _
          rw [if_neg (fun e => hb (c, 1) (by simp) e.symm)]
          exact h.free b (fun k hk => hb k (by simp [hk])) }
  have hadd : ∃ s', add s (crc (newGrid c)) (newGrid c) = .ok (s', (K.length : Int)) ∧
      Live crc S (K ++ [(c, 1)]) s' := by
    have hl : ∃ t : Table, link s (crc (newGrid c)) = .ok t ∧ t.n = K.length ∧ t.cap = s.cap ∧
        (∀ i : Nat, i < K.length → t.slots i = s.slots i) ∧
        t.heads = fun b => if b = crc (newGrid c) then some (K.length : Int) else s.heads b := by
      unfold link
      rw [hhead]
      simp only
      rw [slot_ok (by omega) (by omega)]
      refine ⟨_, rfl, hn, rfl, ?_, by rw [hn]⟩
      intro i hi
      have : ¬ ((i : Int) = s.n) := by omega
      simp [setSlot, this]
    obtain ⟨t, t1, tn, tcap, tslots, theads⟩ := hl
    have tfree : ∀ (f : Int → Slot) (cp : Int), (∀ i : Nat, i < K.length → f i = t.slots i) →
        f (K.length : Int) = ⟨newGrid c, K.length, crc (newGrid c), -1, 1⟩ →
        128 * (((K.length : Int) + 1) / 128 + 1) ≤ cp →
        Live crc S (K ++ [(c, 1)]) (Table.mk f cp t.heads ((K.length : Int) + 1)) := by
      intro f cp hf hfn hcp
      rw [theads]
      exact main f cp (fun i hi => by rw [hf i hi, tslots i hi])
        (by rw [hfn]; exact ⟨rfl, rfl, rfl, rfl, newGrid_stored c⟩) hcp
    unfold add
    rw [t1]
    simp only [bind, Except.bind]
    unfold place
    rw [slot_ok (by omega) (by omega)]
    simp only [bind, Except.bind]
    rw [tn]
    generalize hf : (setSlot t (K.length : Int)
      ⟨newGrid c, (K.length : Int), crc (newGrid c), -1, 1⟩).slots = f
    have hfl : ∀ i : Nat, i < K.length → f i = t.slots i := by
      intro i hi
      rw [← hf]
      simp only [setSlot]
      rw [if_neg (by omega)]
    have hfn : f (K.length : Int) = ⟨newGrid c, (K.length : Int), crc (newGrid c), -1, 1⟩ := by
      rw [← hf]
      simp [setSlot]
    rw [if_neg (by omega)]
    by_cases hm : ((K.length : Int) + 1) % 128 = 0
    · rw [if_pos hm]
      refine ⟨_, by congr 2; omega, tfree _ _ ?_ ?_ (by omega)⟩
      · intro i hi
        rw [← hfl i hi]
        exact if_neg (by omega)
      · rw [← hfn]
        exact if_neg (by omega)
    · rw [if_neg hm]
      refine ⟨_, by congr 2; omega, ?_⟩
      have := tfree f t.cap hfl hfn (by omega)
      exact this
  obtain ⟨s1, h1, h2⟩ := hadd
  unfold identify
  rw [hhead]
  simp only [h1, bind, Except.bind]
  have hn1 := h2.n
  have hcap1 := h2.cap
  simp only [List.length_append, List.length_singleton] at hn1
  have hi : (K ++ [(c, 1)])[K.length]? = some (c, 1) := by simp
  by_cases hirr : irregular c.typ = true
  · rw [if_pos hirr, slot_ok (by omega) (by omega)]
    obtain ⟨q1, q2, q3, q4, q5⟩ := h2.slots _ _ hi
    refine ⟨_, rfl, ?_⟩
    have := h2.change hi 1 (by omega)
      { s1.slots (K.length : Int) with d := defAxes gauss c (s1.slots (K.length : Int)).d }
      ⟨q1, q2, q3, q4, defAxes_stored (hS c hc) (.refl c) q5⟩ id rfl
    rw [List.modify_id] at this
    exact this
  · rw [if_neg hirr]
    exact ⟨_, rfl, h2⟩

omit hS hcode in
theorem live_release {K : List (Call × Nat)} {s : Table} (h : Live crc S K s) {i : Nat}
    {K' : List (Call × Nat)} (hs : specStep K (.release i) = some (K', none)) :
    ∃ s', release s i = .ok s' ∧ Ready2 crc S K' s' := by
  have hn := h.n
  have hcap := h.cap
  simp only [specStep] at hs
  cases hi : K[i]? with
  | none => rw [hi] at hs; simp at hs
  | some k =>
    rw [hi] at hs
    simp only at hs
    have hlt := (List.getElem?_eq_some_iff.1 hi).1
    obtain ⟨q1, q2, q3, q4, q5⟩ := h.slots i k hi
    have hk := h.users k (List.mem_of_getElem? hi)
    unfold release
    rw [slot_ok (by omega) (by omega)]
    simp only [bind, Except.bind]
    rw [if_pos (by omega : (s.slots i).access > 0)]
    by_cases hm : k.2 > 1
    · rw [if_pos hm] at hs
      simp only [Option.some.injEq, Prod.mk.injEq, and_true] at hs
      rw [if_neg (by show ¬ (_ - 1 = 0); omega)]
      refine ⟨_, rfl, ?_⟩
      have := h.change hi (k.2 - 1) (by omega)
        { s.slots i with access := (s.slots i).access - 1 } ⟨q1, q2, by simp [q3]; omega, q4, q5⟩
        (fun k => (k.1, k.2 - 1)) rfl
      rw [hs] at this
      exact ⟨this.n, fun _ => this⟩
    · rw [if_neg hm] at hs
      by_cases hl : i + 1 = K.length
      · rw [if_pos hl] at hs
        simp only [Option.some.injEq, Prod.mk.injEq, and_true] at hs
        rw [if_pos (by show _ - 1 = 0; omega)]
        refine ⟨_, rfl, ?_, fun hne => ?_⟩
        · show s.n - 1 = _
          rw [← hs, List.length_dropLast]
          omega
        · have hsub : ∀ (j : Nat) (l : Call × Nat), K'[j]? = some l → j < i ∧ K[j]? = some l := by
            intro j l hj
            rw [← hs, List.getElem?_dropLast] at hj
            split at hj
            · exact ⟨by omega, hj⟩
            · simp at hj
          have hmem : ∀ l ∈ K', ∃ j, j < i ∧ K[j]? = some l := by
            intro l hl'
            obtain ⟨j, hj⟩ := List.mem_iff_getElem?.1 hl'
            exact ⟨j, hsub j l hj⟩
          have hdiff : ∀ (j : Nat) (l : Call × Nat), j < i → K[j]? = some l →
              crc (newGrid l.1) ≠ crc (newGrid k.1) := by
            intro j l hj hl' e
            have h1 := h.heads j l hl'
            have h2 := h.heads i k hi
            rw [e, h2] at h1
            simp only [Option.some.injEq] at h1
            omega
          exact
            { n := by
                show s.n - 1 = _
                rw [← hs, List.length_dropLast]
                omega
              cap := by
                show 128 * ((s.n - 1) / 128 + 1) ≤ s.cap
                omega
              users := by
                intro l hl'
                obtain ⟨j, _, hj⟩ := hmem l hl'
                exact h.users l (List.mem_of_getElem? hj)
              slots := by
                intro j l hj
                obtain ⟨hji, hj⟩ := hsub j l hj
                have : ¬ ((j : Int) = i) := by omega
                simpa [setSlot, this] using h.slots j l hj
              heads := by
                intro j l hj
                obtain ⟨hji, hj⟩ := hsub j l hj
                show (if _ then _ else _) = _
                rw [if_neg (by rw [q4]; exact hdiff j l hji hj)]
                exact h.heads j l hj
              free := by
                intro b hb
                show (if _ then _ else _) = _
                by_cases hbk : b = (s.slots i).bucket
                · rw [if_pos hbk]
                · rw [if_neg hbk]
                  apply h.free
                  intro l hl'
                  obtain ⟨j, hj⟩ := List.mem_iff_getElem?.1 hl'
                  by_cases hji : j = i
                  · subst hji
                    rw [hi] at hj
                    cases hj
                    rw [← q4]
                    exact fun e => hbk e.symm
                  · have hjl := (List.getElem?_eq_some_iff.1 hj).1
                    apply hb l
                    rw [← hs]
                    exact List.mem_iff_getElem?.2 ⟨j, by
                      rw [List.getElem?_dropLast, if_pos (by omega), hj]⟩ }
      · rw [if_neg hl] at hs
        simp at hs

theorem run_spec : ∀ (os : List Op) (K : List (Call × Nat)) (s : Table), Ready2 crc S K s →
    (∀ c, Op.define c ∈ os → S c) → ∀ K' as, specRun K os = some (K', as) →
    ∃ s', codeRun crc gauss s os = .ok (s', as) ∧ Ready2 crc S K' s'
  | [], K, s, hr, _, K', as, h => by
    simp only [specRun, Option.some.injEq, Prod.mk.injEq] at h
    rw [← h.1, ← h.2]
    exact ⟨s, rfl, hr⟩
  | o :: os, K, s, hr, hv, K', as, h => by
    rw [specRun] at h
    simp only [Option.bind_eq_bind, Option.bind_eq_some_iff] at h
    obtain ⟨⟨K1, a⟩, h1, ⟨K2, as2⟩, h2, h3⟩ := h
    simp only [Option.some.injEq, Prod.mk.injEq] at h3
    obtain ⟨rfl, rfl⟩ := h3
    have hstep : ∃ s1, codeStep crc gauss s o = .ok (s1, a) ∧ Ready2 crc S K1 s1 := by
      cases o with
      | define c =>
        have hc := hv c (by simp)
        simp only [specStep] at h1
        have hlive := hr.tables
        cases hf : K.findIdx? (fun k => decide (Same c k.1)) with
        | some i =>
          rw [hf] at h1
          simp only [Option.some.injEq, Prod.mk.injEq] at h1
          rw [List.findIdx?_eq_some_iff_getElem] at hf
          obtain ⟨hlt, hsame, _⟩ := hf
          have hne : K ≠ [] := by rintro rfl; simp at hlt
          have hlive := hr.2 hne
          have hn0 : s.n ≠ 0 := by rw [hr.1]; omega
          obtain ⟨s1, e1, e2⟩ := live_old (gauss := gauss) hS hlive hc
            (List.getElem?_eq_getElem hlt) (of_decide_eq_true hsame) hn0
          rw [h1.1] at e2
          refine ⟨s1, ?_, e2.n, fun _ => e2⟩
          rw [codeStep, e1, ← h1.2]
          rfl
        | none =>
          rw [hf] at h1
          simp only at h1
          split at h1
          · rename_i hlen
            simp only [Option.some.injEq, Prod.mk.injEq] at h1
            rw [List.findIdx?_eq_none_iff] at hf
            obtain ⟨s1, e1, e2⟩ := live_new (gauss := gauss) hS hcode hlive hc
              (fun k hk e => by simpa [e] using hf k hk) hlen
            rw [h1.1] at e2
            refine ⟨s1, ?_, e2.n, fun _ => e2⟩
            have : defMem crc gauss s c = .ok (s1, (K.length : Int)) := e1
            rw [codeStep, this, ← h1.2]
            rfl
          · simp at h1
      | release i =>
        have hne : K ≠ [] := by
          rintro rfl
          simp [specStep] at h1
        have ha : a = none := by
          simp only [specStep] at h1
          split at h1
          · simp at h1
          · split at h1
            · simp at h1; exact h1.2.symm
            · split at h1
              · simp at h1; exact h1.2.symm
              · simp at h1
        subst ha
        obtain ⟨s1, e1, e2⟩ := live_release (hr.2 hne) h1
        exact ⟨s1, by rw [codeStep, e1]; rfl, e2⟩
    obtain ⟨s1, e1, e2⟩ := hstep
    obtain ⟨s2, g1, g2⟩ := run_spec os K1 s1 e2 (fun c hc => hv c (by simp [hc])) _ _ h2
    refine ⟨s2, ?_, g2⟩
    rw [codeRun, e1]
    simp only [bind, Except.bind, g1]

end

/-- Programs that define and release grids: if no two grids have the same code and a number is given up
by its last user only when it is the last number, all answers are the expected ones and the grids
in use are under their numbers. -/
theorem C74_release_partial (crc : Desc → Nat) (gauss : Nat → Nat → Desc) (s : Table)
    (hs : s.n = 0) (os : List Op) (hv : ∀ c, Op.define c ∈ os → Valid c)
    (hcode : ∀ a b, Op.define a ∈ os → Op.define b ∈ os →
      crc (newGrid a) = crc (newGrid b) → Same a b)
    (K : List (Call × Nat)) (as : List (Option Int)) (hspec : specRun [] os = some (K, as)) :
    ∃ s', codeRun crc gauss s os = .ok (s', as) ∧
      ∀ (i : Nat) (k : Call × Nat), K[i]? = some k → Holds s' i k.1 := by
  obtain ⟨s', h1, h2⟩ := run_spec (crc := crc) (gauss := gauss) (S := fun c => Op.define c ∈ os)
    hv hcode os [] s ⟨hs, by simp⟩ (fun c hc => hc) K as hspec
  refine ⟨s', h1, fun i k hi => ?_⟩
  have hlt := (List.getElem?_eq_some_iff.1 hi).1
  have hne : K ≠ [] := by rintro rfl; simp at hlt
  have hl := h2.2 hne
  have hn := hl.n
  obtain ⟨-, -, -, -, q1, q2, q3, q4, q5, -⟩ := hl.slots i k hi
  exact ⟨by omega, by omega, q1, q2, q3, q4, fun h => (q5 h).2⟩

end Verif.EzGrid
