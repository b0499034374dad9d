import Verif.Dmms
import Mathlib.Tactic

namespace Verif.Dmms

/-! # C145: memory blocks with guards -/

/-- What a program does: allocate a block of `n` items (malloc chooses `p`), free one, or write a word. -/
inductive Op where
  | alloc (p n : Nat)
  | free (p n : Nat)
  | write (a v : Nat)

/-- Blocks come from free memory behind the static blocks, only live blocks are freed, and nothing is written into the
static blocks or into the four words of live blocks which belong to dmms.  Any other word may be written. -/
def Fair (hf hl : Nat) (live : List (Nat × Nat)) : Op → Prop
  | .alloc p n => hl + 6 ≤ p ∧ ∀ b ∈ live, p + 6 + n ≤ b.1 ∨ b.1 + 6 + b.2 ≤ p
  | .free p n => (p, n) ∈ live
  | .write a _ => ¬ (hf ≤ a ∧ a < hf + 6) ∧ ¬ (hl ≤ a ∧ a < hl + 6) ∧
      ∀ b ∈ live, a ≠ b.1 ∧ a ≠ b.1 + 1 ∧ a ≠ b.1 + 2 ∧ a ≠ b.1 + 3 + b.2

def lives (live : List (Nat × Nat)) : Op → List (Nat × Nat)
  | .alloc p n => (p, n) :: live
  | .free p _ => live.filter (fun b => b.1 ≠ p)
  | .write _ _ => live

def step (hf hl : Nat) (s : St) : Op → Option St
  | .alloc p n => alloc hf hl none s p n
  | .free p _ => hpdeallc s (p + 4)
  | .write a v => some { s with mem := put s.mem a v }

/-- The runs of a fair program, with the live blocks and whether something was allocated. -/
inductive Runs (hf hl : Nat) (s0 : St) : Option St → List (Nat × Nat) → Bool → Prop
  | start : Runs hf hl s0 (some s0) [] false
  | next {s live u} (op : Op) : Runs hf hl s0 (some s) live u → Fair hf hl live op →
      Runs hf hl s0 (step hf hl s op) (lives live op) (u || match op with | .alloc _ _ => true | _ => false)

/-- The words of a live block. -/
def Good (hf hl : Nat) (m : Nat → Nat) (b : Nat × Nat) : Prop :=
  m b.1 = hl ∧ m (b.1 + 1) = hf ∧ m (b.1 + 2) = b.1 + 3 + b.2 ∧ m (b.1 + 3 + b.2) = b.1 + 2

theorem good_check {hf hl : Nat} {m : Nat → Nat} {b : Nat × Nat} (h0 : 0 < hf) (h1 : 0 < hl) (h : Good hf hl m b) :
    check m b.1 = 0 := by
  obtain ⟨g1, g2, g3, g4⟩ := h
  unfold check
  rw [g2, g1, g3, g4, if_neg (by omega), if_neg (by omega), if_neg (by omega)]

theorem put_ne {m : Nat → Nat} {a v b : Nat} (h : b ≠ a) : put m a v b = m b := if_neg h

theorem put_eq {m : Nat → Nat} {a v : Nat} : put m a v a = v := if_pos rfl

theorem alloc_spec {hf hl : Nat} (h1 : hf + 6 ≤ hl) {s t : St} {p n : Nat} (hp : hl + 6 ≤ p)
    (h : alloc hf hl none s p n = some t) :
    t.busy = false ∧ Good hf hl t.mem (p, n) ∧ t.mem hf = p ∧ t.mem hl = 0 ∧
      ∀ a, ¬ (hf ≤ a ∧ a < hf + 6) → ¬ (hl ≤ a ∧ a < hl + 6) → a ≠ p → a ≠ p + 1 → a ≠ p + 2 → a ≠ p + 3 + n →
        t.mem a = s.mem a := by
  unfold alloc at h
  split at h
  · simp at h
  · simp only [Option.some.injEq] at h
    subst h
    have hr : reset hf hl s.mem (hl + 1) = hf := by
      simp only [reset, put]
      split_ifs <;> first | rfl | omega
    have hb : put (put (put (reset hf hl s.mem) (p + 1) hf) p hl) (hl + 1) p (p + 1) = hf := by
      simp only [put]
      split_ifs <;> first | rfl | omega
    simp only [Good, guards, link, hr, hb]
    refine ⟨trivial, ⟨?_, ?_, ?_, ?_⟩, ?_, ?_, ?_⟩
    all_goals try simp only [reset]
    iterate 6 (repeat' first | rw [put_eq] | rw [put_ne (by omega)])
    intro a g1 g2 g3 g4 g5 g6
    repeat rw [put_ne (by omega)]

theorem dealloc_spec {hf hl : Nat} (h0 : 0 < hf) (h1 : hf + 6 ≤ hl) {s : St} {p n : Nat}
    (hs : s.busy = false) (hg : Good hf hl s.mem (p, n)) (hp : hl + 6 ≤ p) (hz : s.mem hl = 0) :
    ∃ t, dealloc s p = some t ∧ t.busy = false ∧ t.mem hf = hl ∧ t.mem hl = 0 ∧
      ∀ a, ¬ (hf ≤ a ∧ a < hf + 6) → ¬ (hl ≤ a ∧ a < hl + 6) → t.mem a = s.mem a := by
  have hc := good_check h0 (by omega) hg
  obtain ⟨g1, g2, g3, g4⟩ := hg
  simp only at g1 g2 g3 g4 hc
  have e1 : put s.mem hf hl p = hl := by
    simp only [put]; split_ifs <;> first | rfl | omega
  have e2 : put s.mem hf hl (p + 1) = hf := by
    simp only [put]; split_ifs <;> omega
  refine ⟨⟨put (put s.mem hf hl) (hl + 1) hf, false⟩, ?_, rfl, ?_, ?_, ?_⟩
  · simp [dealloc, hs, hc, g1, g2, e1, e2]
  · simp only [put]; split_ifs <;> first | rfl | omega
  · simp only [put]; split_ifs <;> omega
  · intro a k1 k2
    simp only [put]; split_ifs <;> first | rfl | omega

theorem runs_inv {hf hl : Nat} (h0 : 0 < hf) (h1 : hf + 6 ≤ hl) {s0 : St} (hb : s0.busy = false)
    {r : Option St} {live : List (Nat × Nat)} {u : Bool} (h : Runs hf hl s0 r live u) :
    ∃ s, r = some s ∧ s.busy = false ∧ (∀ b ∈ live, hl + 6 ≤ b.1 ∧ Good hf hl s.mem b) ∧
      (live ≠ [] → u = true) ∧ (u = true → s.mem hl = 0 ∧ (s.mem hf = hl ∨ ∃ b ∈ live, s.mem hf = b.1)) := by
  induction h with
  | start => exact ⟨s0, rfl, hb, by simp, by simp, by simp⟩
  | @next s live u op _ hfair ih =>
    obtain ⟨s', e, hs, hg, hu1, hu2⟩ := ih
    simp only [Option.some.injEq] at e
    subst e
    cases op with
    | alloc p n =>
      obtain ⟨hp, hd⟩ := hfair
      obtain ⟨t, ht⟩ : ∃ t, alloc hf hl none s p n = some t := by simp [alloc, hs]
      obtain ⟨t1, t2, t3, t4, t5⟩ := alloc_spec h1 hp ht
      refine ⟨t, ht, t1, ?_, by simp, fun _ => ⟨t4, Or.inr ⟨(p, n), by simp [lives], t3⟩⟩⟩
      intro b hbm
      rcases List.mem_cons.mp hbm with rfl | hbm
      · exact ⟨hp, t2⟩
      · obtain ⟨k1, k2, k3, k4, k5⟩ := hg b hbm
        have hd' := hd b hbm
        refine ⟨k1, ?_, ?_, ?_, ?_⟩
        · rw [t5 _ (by omega) (by omega) (by omega) (by omega) (by omega) (by omega)]; exact k2
        · rw [t5 _ (by omega) (by omega) (by omega) (by omega) (by omega) (by omega)]; exact k3
        · rw [t5 _ (by omega) (by omega) (by omega) (by omega) (by omega) (by omega)]; exact k4
        · rw [t5 _ (by omega) (by omega) (by omega) (by omega) (by omega) (by omega)]; exact k5
    | free p n =>
      have hm : (p, n) ∈ live := hfair
      have hu := hu1 (List.ne_nil_of_mem hm)
      obtain ⟨t, ht, t1, t2, t3, t4⟩ := dealloc_spec h0 h1 hs (hg _ hm).2 (hg _ hm).1 (hu2 hu).1
      refine ⟨t, by simpa [step, hpdeallc] using ht, t1, ?_, by simp [hu], fun _ => ⟨t3, Or.inl t2⟩⟩
      intro b hbm
      obtain ⟨k1, k2, k3, k4, k5⟩ := hg b (List.mem_filter.mp hbm).1
      refine ⟨k1, ?_, ?_, ?_, ?_⟩
      · rw [t4 _ (by omega) (by omega)]; exact k2
      · rw [t4 _ (by omega) (by omega)]; exact k3
      · rw [t4 _ (by omega) (by omega)]; exact k4
      · rw [t4 _ (by omega) (by omega)]; exact k5
    | write a v =>
      obtain ⟨f1, f2, f3⟩ := hfair
      have hpu : ∀ c, c ≠ a → put s.mem a v c = s.mem c := fun c hc => if_neg hc
      refine ⟨_, rfl, hs, ?_, by simpa [lives] using hu1, ?_⟩
      · intro b hbm
        obtain ⟨k1, k2, k3, k4, k5⟩ := hg b hbm
        obtain ⟨m1, m2, m3, m4⟩ := f3 b hbm
        exact ⟨k1, by simp only [Good, hpu _ m1.symm, hpu _ m2.symm, hpu _ m3.symm, hpu _ m4.symm]; exact ⟨k2, k3, k4, k5⟩⟩
      · intro hu
        simp only [Bool.or_false] at hu
        simp only [lives]
        rw [hpu hl (by omega), hpu hf (by omega)]
        exact hu2 hu

theorem walk_end {m : Nat → Nat} {hl : Nat} (h : m hl = 0) (f : Nat) : walk m (f + 1) hl = some 0 := by
  simp [walk, h]

/-- C145.  A program which keeps off the words of dmms is never stopped: each of its calls returns, each live block passes
the check, and hpcheck finds no fault once something was allocated. -/
theorem C145 {hf hl : Nat} (h0 : 0 < hf) (h1 : hf + 6 ≤ hl) {s0 : St} (hb : s0.busy = false)
    {r : Option St} {live : List (Nat × Nat)} {u : Bool} (h : Runs hf hl s0 r live u) :
    ∃ s, r = some s ∧ (∀ b ∈ live, check s.mem b.1 = 0 ∧ ∃ t, hpdeallc s (b.1 + 4) = some t) ∧
      (u = true → ∀ f, hpcheck hf s.mem (f + 2) = some 0) := by
  obtain ⟨s, e, hs, hg, hu1, hu2⟩ := runs_inv h0 h1 hb h
  refine ⟨s, e, ?_, ?_⟩
  · intro b hbm
    obtain ⟨k1, k2⟩ := hg b hbm
    obtain ⟨t, ht, _⟩ := dealloc_spec h0 h1 hs k2 k1 (hu2 (hu1 (List.ne_nil_of_mem hbm))).1
    exact ⟨good_check h0 (by omega) k2, t, by simpa [hpdeallc] using ht⟩
  · intro hu f
    obtain ⟨z, hz⟩ := hu2 hu
    rcases hz with hz | ⟨b, hbm, hz⟩
    · rw [hpcheck, hz, if_neg (by omega)]; exact walk_end z _
    · obtain ⟨k1, k2⟩ := hg b hbm
      have hc := good_check h0 (by omega) k2
      rw [hpcheck, hz, if_neg (by omega)]
      simp only [walk, hc, k2.1]
      rw [if_neg (by omega), if_neg (by omega), if_pos z]

/-- C145.  `hpcheck` looks at the last block only: after an allocation, whatever is written elsewhere, it finds no
fault as long as the words of that block and the list heads are intact. -/
theorem C145_hpcheck_last_only {hf hl : Nat} (h0 : 0 < hf) (h1 : hf + 6 ≤ hl) {s t : St} {p n : Nat} (hp : hl + 6 ≤ p)
    (h : alloc hf hl none s p n = some t) (m : Nat → Nat)
    (hm : ∀ a, a = hf ∨ a = hl ∨ a = p ∨ a = p + 1 ∨ a = p + 2 ∨ a = p + 3 + n → m a = t.mem a) (f : Nat) :
    hpcheck hf m (f + 2) = some 0 := by
  obtain ⟨_, ⟨g1, g2, g3, g4⟩, g5, g6, _⟩ := alloc_spec h1 hp h
  simp only at g1 g2 g3 g4
  have hg : Good hf hl m (p, n) :=
    ⟨by rw [hm _ (by simp), g1], by rw [hm _ (by simp), g2], by rw [hm _ (by simp), g3], by rw [hm _ (by simp), g4]⟩
  have hc := good_check h0 (by omega) hg
  have e1 : m hf = p := by rw [hm _ (by simp), g5]
  have e2 : m hl = 0 := by rw [hm _ (by simp), g6]
  rw [hpcheck, e1, if_neg (by omega)]
  simp only at hc
  simp only [walk, hc, hg.1]
  rw [if_neg (by omega), if_neg (by omega), if_pos e2]

/-- C145.  So a program can overrun the block at `p`, and hpcheck says nothing although freeing the block will stop the
program. -/
theorem C145_overrun_witness : ∃ s1 s2 : St,
    alloc 8 16 none ⟨fun _ => 0, false⟩ 100 2 = some s1 ∧ alloc 8 16 none s1 200 2 = some s2 ∧
      (let m := put s2.mem 105 77; hpcheck 8 m 10 = some 0 ∧ check m 100 = -3 ∧ (hpdeallc ⟨m, false⟩ 104).isNone = true ∧
        hpcheck 8 (put s1.mem 105 77) 10 = some (-3)) := by
  refine ⟨_, _, rfl, rfl, ?_⟩
  decide +kernel

/-- C145.  Freeing any block empties the list. -/
theorem C145_free_empties {hf hl : Nat} (h0 : 0 < hf) (h1 : hf + 6 ≤ hl) {s0 : St} (hb : s0.busy = false)
    {s t : St} {live : List (Nat × Nat)} {u : Bool} (h : Runs hf hl s0 (some s) live u) {p n : Nat} (hm : (p, n) ∈ live)
    (hd : hpdeallc s (p + 4) = some t) (f : Nat) : t.mem hf = hl ∧ hpcheck hf t.mem (f + 1) = some 0 := by
  obtain ⟨s', e, hs, hg, hu1, hu2⟩ := runs_inv h0 h1 hb h
  simp only [Option.some.injEq] at e
  subst e
  obtain ⟨t', ht, _, t2, t3, _⟩ := dealloc_spec h0 h1 hs (hg _ hm).2 (hg _ hm).1 (hu2 (hu1 (List.ne_nil_of_mem hm))).1
  simp only [hpdeallc, Nat.add_sub_cancel] at hd
  rw [hd, Option.some.injEq] at ht
  subst ht
  exact ⟨t2, by rw [hpcheck, t2, if_neg (by omega)]; exact walk_end t3 _⟩

/-- C145.  Before the first allocation hpcheck reads at the address NULL. -/
theorem C145_hpcheck_first_witness (f : Nat) : hpcheck 8 (fun _ => 0) f = none := rfl

/-- C145.  After an allocation which malloc refused, with aborts disabled, each later allocation or release stops the
program. -/
theorem C145_refuse {s t : St} (h : refuse s = some t) (hf hl p n : Nat) (con : Option Nat) :
    alloc hf hl con t p n = none ∧ hpdeallc t p = none ∧ refuse t = none := by
  unfold refuse at h
  split at h
  · simp at h
  · simp only [Option.some.injEq] at h
    subst h
    simp [alloc, hpdeallc, dealloc, refuse]

example : (refuse ⟨fun _ => 0, false⟩).isSome = true := rfl

/-- C145.  With INITMEM the guard is overwritten in each block of four items or more, and the block cannot be freed. -/
theorem C145_initmem {hf hl : Nat} (h0 : 0 < hf) (h1 : hf + 6 ≤ hl) {s t : St} {p n c : Nat} (hp : hl + 6 ≤ p)
    (hc : c ≠ p + 2) (h : alloc hf hl (some c) s p n = some t) :
    (check t.mem p = if 4 ≤ n then -3 else 0) ∧ (4 ≤ n → dealloc t p = none) := by
  have hs : s.busy = false := by
    by_contra hn; simp [alloc, hn] at h
  obtain ⟨t', ht'⟩ : ∃ t, alloc hf hl none s p n = some t := by simp [alloc, hs]
  obtain ⟨_, ⟨g1, g2, g3, g4⟩, _⟩ := alloc_spec h1 hp ht'
  have hbusy : t.busy = false := by
    simp only [alloc, hs] at h
    simp at h; rw [← h]
  have hm : t.mem = initmem t'.mem p n c := by
    simp [alloc, hs] at h ht'
    rw [← h, ← ht']
  simp only at g1 g2 g3 g4
  have e1 : t.mem p = hl := by rw [hm, initmem, if_neg (by omega), g1]
  have e2 : t.mem (p + 1) = hf := by rw [hm, initmem, if_neg (by omega), g2]
  have e3 : t.mem (p + 2) = p + 3 + n := by rw [hm, initmem, if_neg (by omega), g3]
  by_cases hn : 4 ≤ n
  · have e4 : t.mem (p + 3 + n) = c := by rw [hm, initmem, if_pos (by omega)]
    have hck : check t.mem p = -3 := by
      unfold check; rw [e1, e2, e3, e4, if_neg (by omega), if_neg (by omega), if_pos hc]
    exact ⟨by rw [hck, if_pos hn], fun _ => by simp [dealloc, hbusy, hck]⟩
  · have e4 : t.mem (p + 3 + n) = p + 2 := by rw [hm, initmem, if_neg (by omega), g4]
    refine ⟨?_, fun h => absurd h hn⟩
    rw [if_neg hn]
    unfold check; rw [e1, e2, e3, e4, if_neg (by omega), if_neg (by omega), if_neg (by omega)]

/-- C145.  The words asked for by hpalloc lie between the guards, if there are not too many. -/
theorem C145_room (length : Int) (w : Bool) (h0 : 0 < length) (h1 : length * 4 * (if w then 2 else 1) ≤ 2147483632) (p : Nat) :
    0 ≤ items (hpBytes length w) ∧
      8 * ((p : Int) + 4) + length * 4 * (if w then 2 else 1) ≤ 8 * ((p : Int) + 3 + items (hpBytes length w)) := by
  have hn : 0 < length * 4 * (if w then 2 else 1) := by split <;> omega
  have e : hpBytes length w = 8 + length * 4 * (if w then 2 else 1) := by
    simp only [hpBytes, i32]
    generalize length * 4 * (if w = true then 2 else 1) = x at *
    omega
  rw [e]
  generalize length * 4 * (if w = true then 2 else 1) = x at *
  have : items (8 + x) = (8 + x + 7) / 8 := by
    simp only [items]; exact Int.tdiv_eq_ediv_of_nonneg (by omega)
  rw [this]
  omega

example : items (hpBytes 1000 false) = 501 := by decide

/-- C145.  2 ** 30 words asked for are taken for none: the block has room for one item. -/
theorem C145_room_witness : items (hpBytes 1073741824 false) = 1 ∧ items (hpBytes 536870912 true) = 1 := by decide

/-- C145.  bkcheck looks two words too far: on an intact block it returns -1 if the word `data[1]`, which nobody sets, is 0. -/
theorem C145_bkcheck {hf hl : Nat} (h0 : 0 < hf) (h1 : hf + 6 ≤ hl) {s t : St} {p n : Nat} (hp : hl + 6 ≤ p) (hn : 0 < n)
    (h : alloc hf hl none s p n = some t) (hz : s.mem (p + 3) = 0) : bkcheck t.mem (p + 4) = -1 ∧ check t.mem p = 0 := by
  obtain ⟨_, g, _, _, k⟩ := alloc_spec h1 hp h
  refine ⟨?_, good_check h0 (by omega) g⟩
  show check t.mem (p + 2) = -1
  unfold check
  rw [if_pos]
  rw [k _ (by omega) (by omega) (by omega) (by omega) (by omega) (by omega)]
  exact hz

/-- What is below the address given to a caller of ca_alloc. -/
theorem caPlace_spec (p pw2 : Nat) (hp : p % 2 = 0) :
    2 ^ pw2 ∣ 8 * caPlace p (2 ^ pw2) pw2 ∧ p + 4 ≤ caPlace p (2 ^ pw2) pw2 ∧
      caPlace p (2 ^ pw2) pw2 ≤ p + 4 + 2 ^ pw2 / 8 ∧
      (2 ^ pw2 ∣ 8 * (p + 6) ↔ caPlace p (2 ^ pw2) pw2 < p + 7) := by
  by_cases hw : pw2 < 3
  · have hc : pw2 = 0 ∨ pw2 = 1 ∨ pw2 = 2 := by omega
    rcases hc with rfl | rfl | rfl <;> simp only [caPlace] <;> norm_num <;> omega
  · obtain ⟨w, rfl⟩ : ∃ w, pw2 = w + 3 := ⟨pw2 - 3, by omega⟩
    have hpos : 0 < 2 ^ w := by positivity
    have e : (2 : Nat) ^ (w + 3) = 8 * 2 ^ w := by rw [pow_add]; ring
    have hq : caPlace p (2 ^ (w + 3)) (w + 3) = (p + 4 + 2 ^ w) / 2 ^ w * 2 ^ w := by
      unfold caPlace
      rw [e, Nat.mul_div_cancel_left _ (by norm_num : 0 < 8), Nat.mul_div_mul_left _ _ (by norm_num : 0 < 8)]
      rw [show (p + 4 + 2 ^ w) / 2 ^ w * (8 * 2 ^ w) = 8 * ((p + 4 + 2 ^ w) / 2 ^ w * 2 ^ w) by ring]
      exact Nat.mul_div_cancel_left _ (by norm_num)
    rw [hq, e, Nat.mul_div_cancel_left _ (by norm_num : 0 < 8), Nat.add_div_right _ hpos]
    have hdm := Nat.div_add_mod (p + 4) (2 ^ w)
    have hlt := Nat.mod_lt (p + 4) hpos
    have hmul : ((p + 4) / 2 ^ w + 1) * 2 ^ w = 2 ^ w * ((p + 4) / 2 ^ w) + 2 ^ w := by ring
    refine ⟨Nat.mul_dvd_mul_left 8 ⟨_, Nat.mul_comm _ _⟩, by rw [hmul]; omega, by rw [hmul]; omega, ?_⟩
    have h8 : 8 * 2 ^ w ∣ 8 * (p + 6) ↔ 2 ^ w ∣ p + 6 := Nat.mul_dvd_mul_iff_left (by norm_num)
    rw [h8, hmul]
    have hev : w ≠ 0 → 2 ∣ 2 ^ w := fun hw => dvd_pow_self 2 hw
    by_cases hw0 : w = 0
    · subst hw0
      simp
      omega
    · have h2 := hev hw0
      have heven : 2 ∣ 2 ^ w * ((p + 4) / 2 ^ w) + 2 ^ w := dvd_add (dvd_mul_of_dvd_left h2 _) h2
      constructor
      · intro hd
        have hd2 : 2 ^ w ∣ (p + 6) - 2 ^ w * ((p + 4) / 2 ^ w) := Nat.dvd_sub hd ⟨_, rfl⟩
        have hval : (p + 6) - 2 ^ w * ((p + 4) / 2 ^ w) = (p + 4) % 2 ^ w + 2 := by omega
        rw [hval] at hd2
        obtain ⟨c, hc⟩ := hd2
        have h2le : 2 ≤ 2 ^ w := Nat.le_of_dvd hpos h2
        have hc1 : c = 1 := by
          have h1 : 0 < c := Nat.pos_of_ne_zero (by rintro rfl; omega)
          by_contra hne
          have hc2 : 2 ≤ c := by omega
          have := Nat.mul_le_mul_left (2 ^ w) hc2
          have hmod2 : ((p + 4) % 2 ^ w) % 2 = 0 := by rw [Nat.mod_mod_of_dvd _ h2]; omega
          generalize 2 ^ w * c = z at *
          by_cases hz : 2 ^ w = 2
          · omega
          · omega
        subst hc1
        omega
      · intro hlt7
        have hq6 : 2 ^ w * ((p + 4) / 2 ^ w) + 2 ^ w = p + 6 := by
          generalize hz : 2 ^ w * ((p + 4) / 2 ^ w) + 2 ^ w = z at *
          omega
        rw [← hq6]
        exact dvd_add ⟨_, rfl⟩ (dvd_refl _)

/-- C145.  The address given by ca_alloc is aligned and the words asked for lie between the guards. -/
theorem C145_ca_place (p pw2 bytes n : Nat) (hp : p % 2 = 0) (hn : n = (2 ^ pw2 + 8 + bytes + 7) / 8) :
    2 ^ pw2 ∣ 8 * caPlace p (2 ^ pw2) pw2 ∧ 8 * (p + 4) ≤ 8 * caPlace p (2 ^ pw2) pw2 ∧
      8 * caPlace p (2 ^ pw2) pw2 + bytes ≤ 8 * (p + 3 + n) := by
  obtain ⟨h1, h2, h3, _⟩ := caPlace_spec p pw2 hp
  refine ⟨h1, by omega, ?_⟩
  generalize caPlace p (2 ^ pw2) pw2 = q at *
  generalize 2 ^ pw2 = z at *
  omega

/-- C145.  But ca_deallc finds the block exactly if `48` bytes behind its beginning there is no aligned address. -/
theorem C145_ca_free {hf hl : Nat} (h1 : hf + 6 ≤ hl) {s t : St} {p n : Nat} (hp : hl + 6 ≤ p)
    (h2 : p % 2 = 0) (h : alloc hf hl none s p n = some t) (pw2 : Nat) :
    caTarget (caFill t.mem p (caPlace p (2 ^ pw2) pw2)) (caPlace p (2 ^ pw2) pw2) = p ↔ ¬ 2 ^ pw2 ∣ 8 * (p + 6) := by
  obtain ⟨_, ⟨g1, g2, g3, g4⟩, _⟩ := alloc_spec h1 hp h
  obtain ⟨_, k1, _, k2⟩ := caPlace_spec p pw2 h2
  rw [k2]
  generalize caPlace p (2 ^ pw2) pw2 = q at *
  simp only at g1 g2 g3 g4
  simp only [caTarget, caFill]
  by_cases hq : q < p + 7
  · have hc : q = p + 4 ∨ q = p + 5 ∨ q = p + 6 := by omega
    rcases hc with rfl | rfl | rfl
    · rw [if_neg (by omega), show p + 4 - 4 = p by omega, g1]; omega
    · rw [if_neg (by omega), show p + 5 - 4 = p + 1 by omega, g2]; omega
    · rw [if_neg (by omega), show p + 6 - 4 = p + 2 by omega, g3]; omega
  · rw [if_pos (by omega)]; omega

example : ¬ 2 ^ 6 ∣ 8 * (100 + 6) ∧ 2 ^ 6 ∣ 8 * (1024 + 2 + 6) ∧ 2 ^ 4 ∣ 8 * (100 + 6) := by decide

/-- C145.  With a negative exponent the block is found, but the address is a multiple of 16 bytes only, although 32 are
meant. -/
theorem C145_ca_negative (m : Nat → Nat) {p : Nat} (h2 : p % 2 = 0) (k : Int) (hk : -3 ≤ k ∧ k ≤ -1) :
    caAlign k = some (32, (-k).toNat) ∧
      caTarget (caFill m p (caPlace p 32 (-k).toNat)) (caPlace p 32 (-k).toNat) = p ∧
      (8 * caPlace p 32 (-k).toNat % 32 = 0 ↔ p % 4 = 0) := by
  have hc : k = -1 ∨ k = -2 ∨ k = -3 := by omega
  have hq : caPlace p 32 (-k).toNat = p + 8 := by
    rcases hc with rfl | rfl | rfl <;> simp [caPlace] <;> omega
  refine ⟨?_, ?_, ?_⟩
  · unfold caAlign; rw [if_pos (by omega), if_pos (by omega)]
  · rw [hq]; simp only [caTarget, caFill]; rw [if_pos (by omega)]
  · rw [hq]; omega

/-- A run. -/
example : Runs 8 16 ⟨fun _ => 5, false⟩
    (step 8 16 ⟨put ((alloc 8 16 none ⟨fun _ => 5, false⟩ 100 2).get rfl).mem 104 1, false⟩ (.free 100 2)) [] true :=
  .next (s := ⟨put ((alloc 8 16 none ⟨fun _ => 5, false⟩ 100 2).get rfl).mem 104 1, false⟩) (live := [(100, 2)]) (u := true) _
    (.next (s := (alloc 8 16 none ⟨fun _ => 5, false⟩ 100 2).get rfl) (live := [(100, 2)]) (u := true) (.write 104 1)
      (.next (.alloc 100 2) .start (by simp [Fair])) (by simp [Fair])) (by simp [Fair])

end Verif.Dmms
