import Verif.Da

/-! C93: pending transfers of direct access files. -/
namespace Verif.Da

/-- The units with a pending transfer. -/
abbrev Pending := Int → Bool

/-- What is expected of a call: a transfer for a unit with a pending one is refused; `c_checda` ends the pending transfer.  Blocks have 512
words and are numbered from 1. -/
def spec (p : Pending) : Op → Pending × Option Req
  | .check u => (fun v => p v && !(v == u), none)
  | .transfer u n o => if p u then (p, none) else (fun v => p v || v == u, some ⟨512 * o - 511, 512 * n⟩)

@[inherit_doc spec]
def specRun : Pending → List Op → List (Option Req)
  | _, [] => []
  | p, op :: t => (spec p op).2 :: specRun (spec p op).1 t

/-- Calls for units other than 0 and the word after the table. -/
def Fair (after : Int) : Op → Prop
  | .check u => u ≠ 0
  | .transfer u _ _ => u ≠ 0 ∧ u ≠ after

/-- The table and the pending units. -/
structure Rel (s : St) (p : Pending) : Prop where
  mem : ∀ u, u ≠ 0 → (p u = true ↔ u ∈ s.tab)
  one : ∀ (i j : Nat) (u : Int), s.tab[i]? = some u → s.tab[j]? = some u → u ≠ 0 → i = j

theorem mem_set {l : List Int} {k : Nat} {a x : Int} : x ∈ l.set k a ↔ (∃ i : Nat, i ≠ k ∧ l[i]? = some x) ∨ (x = a ∧ k < l.length) := by
  rw [List.mem_iff_getElem?]
  constructor
  · rintro ⟨i, h⟩
    by_cases c : i = k
    · subst c
      have hk : i < l.length := by
        have := (List.getElem?_eq_some_iff.1 h).1
        simpa using this
      rw [List.getElem?_set_self hk] at h
      exact .inr ⟨(Option.some.inj h).symm, hk⟩
    · rw [List.getElem?_set_ne (Ne.symm c)] at h
      exact .inl ⟨i, c, h⟩
  · rintro (⟨i, c, h⟩ | ⟨rfl, hk⟩)
    · exact ⟨i, by rw [List.getElem?_set_ne (Ne.symm c), h]⟩
    · exact ⟨k, List.getElem?_set_self hk⟩

theorem find_some {l : List Int} {u : Int} {k : Nat} (h : l.findIdx? (· == u) = some k) : l[k]? = some u := by
  obtain ⟨hk, h1, -⟩ := List.findIdx?_eq_some_iff_getElem.1 h
  rw [List.getElem?_eq_getElem hk]
  simpa using h1

theorem find_none {l : List Int} {u : Int} (h : l.findIdx? (· == u) = none) : u ∉ l := by
  intro hm
  rw [List.findIdx?_eq_none_iff] at h
  simpa using h u hm

theorem one_set {l : List Int} {k : Nat} {a : Int} (one : ∀ (i j : Nat) (u : Int), l[i]? = some u → l[j]? = some u → u ≠ 0 → i = j) (ha : a = 0 ∨ a ∉ l)
    (i j : Nat) (u : Int) (hi : (l.set k a)[i]? = some u) (hj : (l.set k a)[j]? = some u) (h0 : u ≠ 0) : i = j := by
  have key : ∀ i : Nat, (l.set k a)[i]? = some u → (i = k ∧ u = a) ∨ (i ≠ k ∧ l[i]? = some u) := by
    intro i h
    by_cases c : i = k
    · subst c
      have hk : i < l.length := by
        have := (List.getElem?_eq_some_iff.1 h).1
        simpa using this
      rw [List.getElem?_set_self hk] at h
      exact .inl ⟨rfl, (Option.some.inj h).symm⟩
    · rw [List.getElem?_set_ne (Ne.symm c)] at h
      exact .inr ⟨c, h⟩
  rcases key i hi with ⟨h1, h2⟩ | ⟨h1, h2⟩ <;> rcases key j hj with ⟨h3, h4⟩ | ⟨h3, h4⟩
  · omega
  · rcases ha with h | h
    · exact absurd (h2.trans h) h0
    · exact absurd (h2 ▸ List.mem_of_getElem? h4) h
  · rcases ha with h | h
    · exact absurd (h4.trans h) h0
    · exact absurd (h4 ▸ List.mem_of_getElem? h2) h
  · exact one i j u h2 h4 h0

theorem step_spec {s s' : St} {p : Pending} {op : Op} {r : Option Req} (R : Rel s p) (hf : Fair s.after op) (h : step s op = .ok (s', r)) :
    r = (spec p op).2 ∧ Rel s' (spec p op).1 ∧ s'.after = s.after := by
  cases op with
  | check u =>
    simp only [step, Except.ok.injEq, Prod.mk.injEq] at h
    obtain ⟨rfl, rfl⟩ := h
    refine ⟨rfl, ?_⟩
    unfold check spec
    rcases hk : s.tab.findIdx? (· == u) with _ | k
    · refine ⟨⟨fun v hv => ?_, R.one⟩, rfl⟩
      have hn := find_none hk
      have := R.mem v hv
      simp only [Bool.and_eq_true, Bool.not_eq_true', beq_eq_false_iff_ne]
      rw [this]
      exact ⟨fun h => h.1, fun h => ⟨h, fun e => hn (e ▸ h)⟩⟩
    · have hg := find_some hk
      refine ⟨⟨fun v hv => ?_, one_set R.one (.inl rfl)⟩, rfl⟩
      simp only [Bool.and_eq_true, Bool.not_eq_true', beq_eq_false_iff_ne]
      rw [R.mem v hv, mem_set, List.mem_iff_getElem?]
      constructor
      · rintro ⟨⟨i, hi⟩, hne⟩
        refine .inl ⟨i, fun c => ?_, hi⟩
        subst c
        rw [hg] at hi
        exact hne (Option.some.inj hi).symm
      · rintro (⟨i, hi, h⟩ | ⟨h, -⟩)
        · exact ⟨⟨i, h⟩, fun c => hi (R.one i k u (c ▸ h) hg hf)⟩
        · exact absurd h hv
  | transfer u n o =>
    obtain ⟨h0, ha⟩ := hf
    simp only [step, transfer] at h
    simp only [spec]
    rcases hk : s.tab.findIdx? (· == u) with _ | k
    · have hn := find_none hk
      have hp : ¬ p u = true := fun c => hn ((R.mem u h0).1 c)
      rw [hk] at h
      simp only [if_neg (Ne.symm ha)] at h
      rw [if_neg hp]
      rcases hz : s.tab.findIdx? (· == 0) with _ | k
      · rw [hz] at h; cases h
      · rw [hz] at h
        simp only [Except.ok.injEq, Prod.mk.injEq] at h
        obtain ⟨rfl, rfl⟩ := h
        have hg := find_some hz
        refine ⟨by simp only [blk]; congr 2 <;> omega, ⟨fun v hv => ?_, one_set R.one (.inr hn)⟩, rfl⟩
        simp only [Bool.or_eq_true, beq_iff_eq]
        rw [R.mem v hv, mem_set, List.mem_iff_getElem?]
        constructor
        · rintro (⟨i, hi⟩ | h)
          · refine .inl ⟨i, fun c => ?_, hi⟩
            subst c
            rw [hg] at hi
            exact hv (Option.some.inj hi).symm
          · exact .inr ⟨h, (List.getElem?_eq_some_iff.1 hg).1⟩
        · rintro (⟨i, -, h⟩ | ⟨h, -⟩)
          · exact .inl ⟨i, h⟩
          · exact .inr h
    · rw [hk] at h
      simp only [Except.ok.injEq, Prod.mk.injEq] at h
      obtain ⟨rfl, rfl⟩ := h
      have hp : p u = true := (R.mem u h0).2 (List.mem_of_getElem? (find_some hk))
      rw [if_pos hp]
      exact ⟨rfl, R, rfl⟩

theorem run_spec : ∀ (ops : List Op) {s s' : St} {p : Pending} {rs : List (Option Req)}, Rel s p → (∀ op ∈ ops, Fair s.after op) →
    run s ops = .ok (s', rs) → rs = specRun p ops
  | [], s, s', p, rs, _, _, h => by
    simp only [run, Except.ok.injEq, Prod.mk.injEq] at h
    exact h.2.symm
  | op :: t, s, s', p, rs, R, hf, h => by
    rw [run] at h
    rcases hs : step s op with _ | ⟨s1, r⟩
    · rw [hs] at h; cases h
    rw [hs] at h
    dsimp only at h
    rcases ht : run s1 t with _ | ⟨s2, rs'⟩
    · rw [ht] at h; cases h
    rw [ht] at h
    simp only [Except.ok.injEq, Prod.mk.injEq] at h
    obtain ⟨h1, h2, h3⟩ := step_spec R (hf op (.head _)) hs
    rw [← h.2, specRun, h1, run_spec t h2 (fun o ho => by rw [h3]; exact hf o (.tail _ ho)) ht]

/-- C93.  Whatever the calls, a transfer is sent exactly when the unit has no pending one, for exactly the words of the blocks.
Missing: unit 0, the unit equal to the word of memory after the table, and more than 1024 pending transfers (see the witnesses). -/
theorem C93_partial (after : Int) (ops : List Op) (s : St) (rs : List (Option Req)) (hf : ∀ op ∈ ops, Fair after op)
    (h : run (initial after) ops = .ok (s, rs)) : rs = specRun (fun _ => false) ops := by
  refine run_spec ops ⟨fun u hu => ?_, fun i j u hi _ h0 => ?_⟩ hf h
  · simp only [Bool.false_eq_true, false_iff]
    intro hm
    exact hu (List.eq_of_mem_replicate hm)
  · exact absurd (List.eq_of_mem_replicate (List.mem_of_getElem? hi)) h0

/-- A call fails only for want of room: then 1024 units are pending. -/
theorem C93_room (s : St) (op : Op) (h : step s op = .error .outside) : ∀ u ∈ s.tab, u ≠ 0 := by
  cases op with
  | check u => simp [step] at h
  | transfer u n o =>
    simp only [step, transfer] at h
    split at h
    · cases h
    · split at h
      · cases h
      · split at h
        · next hz => intro v hv hc; exact find_none hz (hc ▸ hv)
        · cases h

deriving instance DecidableEq for Except

example : (∀ op ∈ [Op.transfer 10 2 1, .transfer 11 1 3, .transfer 10 1 4, .check 10, .transfer 10 1 4], Fair 77 op) ∧
    (run (initial 77) [.transfer 10 2 1, .transfer 11 1 3, .transfer 10 1 4, .check 10, .transfer 10 1 4]).map (·.2) =
      .ok [some ⟨1, 1024⟩, some ⟨1025, 512⟩, none, none, some ⟨1537, 512⟩] :=
  ⟨by simp [Fair], by decide +kernel⟩

/-- The word after the table is taken for a pending unit: with the unit there the first transfer is refused. -/
theorem C93_after_witness (u n o : Int) (h0 : u ≠ 0) : run (initial u) [.transfer u n o] = .ok (initial u, [none]) := by
  have hk : (initial u).tab.findIdx? (· == u) = none := by
    rw [List.findIdx?_eq_none_iff]
    intro x hx
    rw [List.eq_of_mem_replicate hx]
    simpa using h0.symm
  simp only [run, step, transfer, hk]
  rw [if_pos (show (initial u).after = u from rfl)]

/-- Unit 0 is always refused at the start, since free places hold 0. -/
theorem C93_zero_witness (a n o : Int) : run (initial a) [.transfer 0 n o] = .ok (initial a, [none]) := by
  have hk : (initial a).tab.findIdx? (· == 0) = some 0 := by
    show (List.replicate size (0 : Int)).findIdx? (· == 0) = some 0
    decide +kernel
  simp only [run, step, transfer, hk]

/-- The state after transfers for units 1 to `k`. -/
def upto (k : Nat) : St := ⟨(List.range k).map (fun i : Nat => (i : Int) + 1) ++ List.replicate (size - k) 0, 0⟩

theorem upto_find (k : Nat) : (upto k).tab.findIdx? (· == ((k : Int) + 1)) = none := by
  rw [List.findIdx?_eq_none_iff]
  intro x hx
  rcases List.mem_append.1 hx with h | h
  · obtain ⟨i, hi, rfl⟩ := List.mem_map.1 h
    have := List.mem_range.1 hi
    simp only [beq_eq_false_iff_ne, ne_eq]
    omega
  · rw [List.eq_of_mem_replicate h]
    simp only [beq_eq_false_iff_ne, ne_eq]
    omega

theorem upto_step (k : Nat) (hk : k < size) : step (upto k) (.transfer ((k : Int) + 1) 1 1) = .ok (upto (k + 1), some ⟨1, 512⟩) := by
  obtain ⟨m, hm⟩ : ∃ m, size - k = m + 1 := ⟨size - k - 1, by omega⟩
  have hl : ((List.range k).map (fun i : Nat => (i : Int) + 1)).length = k := by simp
  have hz : (upto k).tab.findIdx? (· == 0) = some k := by
    have h1 : ((List.range k).map (fun i : Nat => (i : Int) + 1)).findIdx? (· == 0) = none := by
      rw [List.findIdx?_eq_none_iff]
      intro x hx
      obtain ⟨i, -, rfl⟩ := List.mem_map.1 hx
      simp only [beq_eq_false_iff_ne, ne_eq]
      omega
    unfold upto
    rw [List.findIdx?_append, h1, hm, List.replicate_succ, List.findIdx?_cons, hl]
    simp
  have hs : (upto k).tab.set k ((k : Int) + 1) = (upto (k + 1)).tab := by
    unfold upto
    dsimp only
    rw [List.set_append_right _ _ (by omega), hl, Nat.sub_self, hm, List.replicate_succ, List.set_cons_zero, List.range_succ, List.map_append,
      show size - (k + 1) = m by omega]
    simp
  simp only [step, transfer, upto_find, hz, hs]
  rw [if_neg (show ¬ (upto k).after = (k : Int) + 1 by show ¬ (0 : Int) = k + 1; omega)]
  rfl

theorem upto_run : ∀ k n : Nat, k + n ≤ size → ∃ rs, run (upto k) ((List.range' k n).map fun i : Nat => .transfer ((i : Int) + 1) 1 1) = .ok (upto (k + n), rs)
  | k, 0, _ => ⟨[], rfl⟩
  | k, n + 1, h => by
    obtain ⟨rs, hr⟩ := upto_run (k + 1) n (by omega)
    refine ⟨some ⟨1, 512⟩ :: rs, ?_⟩
    rw [List.range'_succ, List.map_cons, run, upto_step k (by omega)]
    dsimp only
    rw [hr, show k + 1 + n = k + (n + 1) by omega]

/-- With 1024 pending transfers, for units 1 to 1024, the next one writes after the table. -/
theorem C93_full_witness : ∃ s rs, run (initial 0) ((List.range' 0 1024).map fun i : Nat => .transfer ((i : Int) + 1) 1 1) = .ok (s, rs) ∧
    step s (.transfer 1025 1 1) = .error .outside := by
  obtain ⟨rs, h⟩ := upto_run 0 1024 (Nat.le_refl _)
  refine ⟨_, rs, h, ?_⟩
  have h1 := upto_find 1024
  have h2 : (upto 1024).tab.findIdx? (· == 0) = none := by
    rw [List.findIdx?_eq_none_iff]
    intro x hx
    rcases List.mem_append.1 hx with h | h
    · obtain ⟨i, -, rfl⟩ := List.mem_map.1 h
      simp only [beq_eq_false_iff_ne, ne_eq]
      omega
    · simp [size] at h
  show transfer (upto 1024) (((1024 : Nat) : Int) + 1) 1 1 = _
  unfold transfer
  rw [h1, h2]
  rfl

end Verif.Da
