import Verif.MtxInv
import Mathlib.Tactic

namespace Verif.MtxInv

/-! # C144: inverting a matrix -/

/-- `y = A x`. -/
def Rel {n : Nat} (A : Mat n) (x y : Fin n → ℚ) : Prop := ∀ i, y i = ∑ j, A i j * x j

/-- The interchange of two components, with a sign, as it is made on the unknowns. -/
def sw {n : Nat} (k l : Fin n) (y : Fin n → ℚ) : Fin n → ℚ :=
  if k < l then fun i => if i = k then y l else if i = l then -y k else y i else y

theorem rowSwap_rel {n : Nat} (A : Mat n) (k l : Fin n) (x y : Fin n → ℚ) :
    Rel (rowSwap A k l) x (sw k l y) ↔ Rel A x y := by
  unfold rowSwap sw
  by_cases h : k < l
  · simp only [if_pos h]
    have hne : l ≠ k := ne_of_gt h
    constructor
    · intro hr i
      by_cases hik : i = k
      · have := hr l
        simp only [hne, if_false, if_true] at this
        rw [hik]
        simp only [neg_mul, Finset.sum_neg_distrib] at this
        linarith
      · by_cases hil : i = l
        · have := hr k
          simp only [if_true] at this
          rw [hil]; exact this
        · have := hr i
          simpa only [hik, hil, if_false] using this
    · intro hr i
      by_cases hik : i = k
      · subst hik; simp only [if_true]; exact hr l
      · by_cases hil : i = l
        · subst hil
          simp only [hik, if_false, if_true, neg_mul, Finset.sum_neg_distrib]
          rw [hr k]
        · simp only [hik, hil, if_false]; exact hr i
  · simp only [if_neg h]

theorem colSwap_sum {n : Nat} (A : Mat n) (k m : Fin n) (x : Fin n → ℚ) (i : Fin n) :
    ∑ j, colSwap A k m i j * sw k m x j = ∑ j, A i j * x j := by
  unfold colSwap sw
  by_cases h : k < m
  · simp only [if_pos h]
    have hne : m ≠ k := ne_of_gt h
    rw [← Equiv.sum_comp (Equiv.swap k m) (fun j => A i j * x j)]
    refine Finset.sum_congr rfl fun j _ => ?_
    by_cases hk : j = k
    · subst hk; simp
    · by_cases hm : j = m
      · subst hm; simp [hk]
      · simp [hk, hm, Equiv.swap_apply_of_ne_of_ne hk hm]
  · simp only [if_neg h]

theorem colSwap_rel {n : Nat} (A : Mat n) (k m : Fin n) (x y : Fin n → ℚ) :
    Rel (colSwap A k m) (sw k m x) y ↔ Rel A x y := by
  unfold Rel
  simp only [colSwap_sum]

theorem colBack_sum {n : Nat} (A : Mat n) (k l : Fin n) (x : Fin n → ℚ) (i : Fin n) :
    ∑ j, colBack A k l i j * x j = ∑ j, A i j * sw k l x j := by
  unfold colBack sw
  by_cases h : k < l
  · simp only [if_pos h]
    have hne : l ≠ k := ne_of_gt h
    rw [← Equiv.sum_comp (Equiv.swap k l) (fun j => A i j * _)]
    refine Finset.sum_congr rfl fun j _ => ?_
    by_cases hk : j = k
    · subst hk; simp [hne]
    · by_cases hm : j = l
      · subst hm; simp [hk]
      · simp [hk, hm, Equiv.swap_apply_of_ne_of_ne hk hm]
  · simp only [if_neg h]

theorem colBack_rel {n : Nat} (A : Mat n) (k l : Fin n) (x y : Fin n → ℚ) :
    Rel (colBack A k l) x y ↔ Rel A (sw k l x) y := by
  unfold Rel
  simp only [colBack_sum]

theorem rowBack_rel {n : Nat} (A : Mat n) (k m : Fin n) (x y : Fin n → ℚ) :
    Rel (rowBack A k m) x y ↔ Rel A x (sw k m y) := by
  unfold rowBack sw
  by_cases h : k < m
  · simp only [if_pos h]
    have hne : m ≠ k := ne_of_gt h
    constructor
    · intro hr i
      by_cases hik : i = k
      · have := hr m
        simp only [hne, if_false, if_true] at this
        rw [hik]; simp only [if_true]; exact this
      · by_cases hil : i = m
        · have := hr k
          simp only [if_true, neg_mul, Finset.sum_neg_distrib] at this
          rw [hil]
          simp only [hne, if_false, if_true]
          linarith
        · have := hr i
          simpa only [hik, hil, if_false] using this
    · intro hr i
      by_cases hik : i = k
      · subst hik
        have := hr m
        simp only [hne, if_false, if_true] at this
        simp only [if_true, neg_mul, Finset.sum_neg_distrib]
        linarith
      · by_cases hil : i = m
        · subst hil
          have := hr k
          simp only [if_true] at this
          simp only [hik, if_false, if_true]
          exact this
        · have := hr i
          simpa only [hik, hil, if_false] using this
  · simp only [if_neg h]

/-- The elimination of one unknown, all steps together. -/
def sweep {n : Nat} (A : Mat n) (k : Fin n) (p : ℚ) : Mat n :=
  recip (divRow (reduce (divCol A k p) k) k p) k p

theorem sweep_eq {n : Nat} (A : Mat n) (k : Fin n) (p : ℚ) (i j : Fin n) :
    sweep A k p i j = if i = k then (if j = k then 1 / p else A k j / p)
      else (if j = k then A i k / (-p) else A i k / (-p) * A k j + A i j) := by
  unfold sweep recip divRow reduce divCol
  by_cases hi : i = k <;> by_cases hj : j = k <;> simp_all

/-- Unknown `k` and right hand side `k` exchanged, with signs. -/
def ex {n : Nat} (k : Fin n) (x y : Fin n → ℚ) : Fin n → ℚ := fun i => if i = k then -y k else x i

theorem sweep_rel {n : Nat} (A : Mat n) (k : Fin n) (p : ℚ) (hp : p ≠ 0) (hpk : A k k = p) (x y : Fin n → ℚ) :
    Rel (sweep A k p) (ex k x y) (ex k y x) ↔ Rel A x y := by
  have split : ∀ f : Fin n → ℚ, ∑ j, f j = f k + ∑ j ∈ Finset.univ.erase k, f j := fun f =>
    (Finset.add_sum_erase _ f (Finset.mem_univ k)).symm
  have rowk : ∑ j, sweep A k p k j * ex k x y j =
      -(y k / p) + (∑ j ∈ Finset.univ.erase k, A k j * x j) / p := by
    rw [split]
    have : ∀ j ∈ Finset.univ.erase k, sweep A k p k j * ex k x y j = A k j * x j / p := by
      intro j hj
      have hj' : j ≠ k := Finset.ne_of_mem_erase hj
      rw [sweep_eq]; simp [ex, hj']; ring
    rw [Finset.sum_congr rfl this, ← Finset.sum_div, sweep_eq]
    simp [ex]; ring
  have rowi : ∀ i, i ≠ k → ∑ j, sweep A k p i j * ex k x y j =
      A i k / p * y k - A i k / p * (∑ j ∈ Finset.univ.erase k, A k j * x j) +
        ∑ j ∈ Finset.univ.erase k, A i j * x j := by
    intro i hi
    rw [split]
    have : ∀ j ∈ Finset.univ.erase k, sweep A k p i j * ex k x y j =
        -(A i k / p * (A k j * x j)) + A i j * x j := by
      intro j hj
      have hj' : j ≠ k := Finset.ne_of_mem_erase hj
      rw [sweep_eq]; simp [ex, hj', hi]; field_simp
    rw [Finset.sum_congr rfl this, Finset.sum_add_distrib, Finset.sum_neg_distrib, ← Finset.mul_sum, sweep_eq]
    simp [ex, hi]; field_simp; ring
  constructor
  · intro h
    have hk := h k
    rw [rowk] at hk
    simp only [ex, if_true] at hk
    have hyk : y k = ∑ j, A k j * x j := by
      rw [split, hpk]
      field_simp at hk
      linarith
    intro i
    by_cases hi : i = k
    · rw [hi]; exact hyk
    · have := h i
      rw [rowi i hi] at this
      simp only [ex, hi, if_false] at this
      rw [this, split (fun j => A i j * x j)]
      rw [hyk, split (fun j => A k j * x j), hpk]
      field_simp
      ring
  · intro h i
    have hk := h k
    rw [split (fun j => A k j * x j), hpk] at hk
    by_cases hi : i = k
    · subst hi
      rw [rowk]
      simp only [ex, if_true]
      rw [hk]; field_simp; ring
    · rw [rowi i hi]
      simp only [ex, hi, if_false]
      rw [h i, split (fun j => A i j * x j), hk]
      field_simp; ring

theorem foldl_inv {α β : Type} (P : β → Prop) (f : β → α → β) (l : List α) :
    ∀ s, P s → (∀ s a, a ∈ l → P s → P (f s a)) → P (l.foldl f s) := by
  induction l with
  | nil => intro s h _; exact h
  | cons a l ih =>
    intro s h hf
    exact ih _ (hf s a (by simp) h) (fun s b hb => hf s b (by simp [hb]))

theorem foldl_reach {α β : Type} (P : β → Prop) (Q : α → β → Prop) (f : β → α → β) (l : List α) :
    ∀ s, P s → (∀ s a, a ∈ l → P s → P (f s a)) → (∀ s a, a ∈ l → P s → Q a (f s a)) →
      (∀ s a b, b ∈ l → P s → Q a s → Q a (f s b)) → ∀ a ∈ l, Q a (l.foldl f s) := by
  induction l with
  | nil => intro s _ _ _ _ a ha; simp at ha
  | cons b l ih =>
    intro s h hf hq hk a ha
    have hP := hf s b (by simp) h
    rcases List.mem_cons.mp ha with rfl | ha
    · have : P (l.foldl f (f s a)) ∧ Q a (l.foldl f (f s a)) :=
        foldl_inv (fun s => P s ∧ Q a s) f l (f s a) ⟨hP, hq s a (by simp) h⟩
          (fun s c hc hs => ⟨hf s c (by simp [hc]) hs.1, hk s a c (by simp [hc]) hs.1 hs.2⟩)
      exact this.2
    · exact ih _ hP (fun s c hc => hf s c (by simp [hc])) (fun s c hc => hq s c (by simp [hc]))
        (fun s c d hd => hk s c d (by simp [hd])) a ha

/-- The search finds the largest element from row and column `k` on. -/
theorem search_spec {n : Nat} (A : Mat n) (k : Fin n) :
    k ≤ (search A k).2.1 ∧ k ≤ (search A k).2.2 ∧ (search A k).1 = A (search A k).2.1 (search A k).2.2 ∧
      ∀ i j, k ≤ i → k ≤ j → |A i j| ≤ |(search A k).1| := by
  let P : ℚ × Fin n × Fin n → Prop := fun s => k ≤ s.2.1 ∧ k ≤ s.2.2 ∧ s.1 = A s.2.1 s.2.2
  have hb : ∀ s i j, k ≤ i → k ≤ j → P s → P (better A s i j) := by
    intro s i j hi hj hs
    unfold better
    split
    · exact ⟨hi, hj, rfl⟩
    · exact hs
  have hmono : ∀ s i j, |s.1| ≤ |(better A s i j).1| := by
    intro s i j
    unfold better
    split
    · rename_i h; exact h.le
    · exact le_refl _
  have hmem : ∀ i : Fin n, i ∈ (List.finRange n).filter (k ≤ ·) ↔ k ≤ i := by intro i; simp
  have hP : P (search A k) := by
    refine foldl_inv P _ _ _ ⟨le_refl _, le_refl _, rfl⟩ ?_
    intro s j hj hs
    refine foldl_inv P _ _ _ hs ?_
    intro s i hi hs
    exact hb s i j ((hmem i).mp hi) ((hmem j).mp hj) hs
  refine ⟨hP.1, hP.2.1, hP.2.2, ?_⟩
  intro i j hi hj
  have hout := foldl_reach (fun _ => True) (fun j (s : ℚ × Fin n × Fin n) => ∀ i, k ≤ i → |A i j| ≤ |s.1|)
    (fun s j => ((List.finRange n).filter (k ≤ ·)).foldl (fun s i => better A s i j) s)
    ((List.finRange n).filter (k ≤ ·)) (A k k, k, k) trivial (fun _ _ _ _ => trivial) (by
      intro s j _ _ i hi
      refine foldl_reach (fun _ => True) (fun i (s : ℚ × Fin n × Fin n) => |A i j| ≤ |s.1|) _ _ s trivial
        (fun _ _ _ _ => trivial) (by
          intro s i _ _
          unfold better
          split
          · exact le_refl _
          · rename_i h; exact not_lt.mp h) (by
          intro s a b _ _ h
          exact le_trans h (hmono s b j)) i ((hmem i).mpr hi)) (by
      intro s a b _ _ h i hi
      refine foldl_inv (fun s : ℚ × Fin n × Fin n => |A i a| ≤ |s.1|) _ _ s (h i hi) ?_
      intro s c _ hs
      exact le_trans hs (hmono s c b)) j ((hmem j).mpr hj)
  exact hout i hi

abbrev Note (n : Nat) := Fin n × Fin n × Fin n

/-- What a turn does to the unknowns and the right hand sides. -/
def act1 {n : Nat} (v : (Fin n → ℚ) × (Fin n → ℚ)) (t : Note n) : (Fin n → ℚ) × (Fin n → ℚ) :=
  (ex t.1 (sw t.1 t.2.2 v.1) (sw t.1 t.2.1 v.2), ex t.1 (sw t.1 t.2.1 v.2) (sw t.1 t.2.2 v.1))

theorem pivot_place {n : Nat} (A : Mat n) (k l m : Fin n) (hl : k ≤ l) (hm : k ≤ m) :
    colSwap (rowSwap A k l) k m k k = A l m := by
  unfold colSwap rowSwap
  by_cases h1 : k < l <;> by_cases h2 : k < m
  · simp [h1, h2]
  · have : k = m := le_antisymm hm (not_lt.mp h2)
    subst this; simp [h1]
  · have : k = l := le_antisymm hl (not_lt.mp h1)
    subst this; simp [h2]
  · have e1 : k = m := le_antisymm hm (not_lt.mp h2)
    have e2 : k = l := le_antisymm hl (not_lt.mp h1)
    simp [← e1, ← e2]

theorem turn_rel {n : Nat} {A A' : Mat n} {k l m : Fin n} (h : turn A k = some (A', l, m)) :
    k ≤ l ∧ k ≤ m ∧ ∀ x y, Rel A' (act1 (x, y) (k, l, m)).1 (act1 (x, y) (k, l, m)).2 ↔ Rel A x y := by
  unfold turn at h
  obtain ⟨h1, h2, h3, _⟩ := search_spec A k
  simp only at h
  by_cases hz : (search A k).1 = 0
  · simp [hz] at h
  · rw [if_neg hz] at h
    simp only [Option.some.injEq, Prod.mk.injEq] at h
    obtain ⟨rfl, rfl, rfl⟩ := h
    refine ⟨h1, h2, fun x y => ?_⟩
    have hp := pivot_place A k _ _ h1 h2
    rw [← h3] at hp
    show Rel (sweep _ k _) (ex k _ _) (ex k _ _) ↔ _
    rw [sweep_rel _ k _ hz hp, colSwap_rel, rowSwap_rel]

theorem forward_rel {n : Nat} (ks : List (Fin n)) : ∀ {A B : Mat n} {notes : List (Note n)},
    forward ks A = some (B, notes) →
    notes.map (·.1) = ks ∧ (∀ t ∈ notes, t.1 ≤ t.2.1 ∧ t.1 ≤ t.2.2) ∧
      ∀ x y, Rel B (notes.foldl act1 (x, y)).1 (notes.foldl act1 (x, y)).2 ↔ Rel A x y := by
  induction ks with
  | nil =>
    intro A B notes h
    simp only [forward, Option.some.injEq, Prod.mk.injEq] at h
    obtain ⟨rfl, rfl⟩ := h
    exact ⟨rfl, by simp, fun x y => Iff.rfl⟩
  | cons k ks ih =>
    intro A B notes h
    simp only [forward] at h
    cases ht : turn A k with
    | none => simp [ht] at h
    | some r =>
      obtain ⟨A', l, m⟩ := r
      simp only [ht] at h
      cases hf : forward ks A' with
      | none => simp [hf] at h
      | some r =>
        obtain ⟨B', notes'⟩ := r
        simp only [hf, Option.some.injEq, Prod.mk.injEq] at h
        obtain ⟨rfl, rfl⟩ := h
        obtain ⟨h1, h2, h3⟩ := turn_rel ht
        obtain ⟨g1, g2, g3⟩ := ih hf
        refine ⟨by simp [g1], ?_, fun x y => ?_⟩
        · intro t ht
          rcases List.mem_cons.mp ht with rfl | ht
          · exact ⟨h1, h2⟩
          · exact g2 t ht
        · rw [List.foldl_cons, g3, h3]

/-- The interchanges of right hand sides and of unknowns, without the eliminations. -/
def perS {n : Nat} (notes : List (Note n)) (y : Fin n → ℚ) : Fin n → ℚ := notes.foldl (fun y t => sw t.1 t.2.1 y) y
def perT {n : Nat} (notes : List (Note n)) (x : Fin n → ℚ) : Fin n → ℚ := notes.foldl (fun x t => sw t.1 t.2.2 x) x

theorem sw_low {n : Nat} {k l i : Fin n} (hl : k ≤ l) (hi : i < k) (y : Fin n → ℚ) : sw k l y i = y i := by
  unfold sw
  split
  · have h1 : i ≠ k := ne_of_lt hi
    have h2 : i ≠ l := ne_of_lt (lt_of_lt_of_le hi hl)
    simp [h1, h2]
  · rfl

/-- Interchanges from `k` on depend on the components from `k` on only. -/
theorem sw_high {n : Nat} {k l i : Fin n} (hl : k ≤ l) (hi : k ≤ i) (y z : Fin n → ℚ) (h : ∀ j, k ≤ j → y j = z j) :
    sw k l y i = sw k l z i := by
  unfold sw
  split
  · simp only
    rw [h l hl, h k (le_refl _), h i hi]
  · exact h i hi

theorem act_mix {n : Nat} (notes : List (Note n)) (hk : ∀ (c : Nat) (h : c < notes.length), (notes[c].1).val = c)
    (hg : ∀ t ∈ notes, t.1 ≤ t.2.1 ∧ t.1 ≤ t.2.2) (x y : Fin n → ℚ) : ∀ c, c ≤ notes.length → ∀ i : Fin n,
    ((notes.take c).foldl act1 (x, y)).1 i = (if i.val < c then -perS (notes.take c) y i else perT (notes.take c) x i) ∧
    ((notes.take c).foldl act1 (x, y)).2 i = (if i.val < c then -perT (notes.take c) x i else perS (notes.take c) y i) := by
  intro c
  induction c with
  | zero => intro _ i; simp [perS, perT]
  | succ c ih =>
    intro hc i
    have hcl : c < notes.length := by omega
    have hkc := hk c hcl
    obtain ⟨hl, hm⟩ := hg _ (List.getElem_mem hcl)
    rw [List.take_succ_eq_append_getElem hcl]
    simp only [List.foldl_append, List.foldl_cons, List.foldl_nil, perS, perT]
    have ih' := ih (by omega)
    simp only [perS, perT] at ih'
    generalize hA : List.foldl act1 (x, y) (notes.take c) = V at *
    generalize hS : List.foldl (fun y (t : Note n) => sw t.1 t.2.1 y) y (notes.take c) = Sy at *
    generalize hT : List.foldl (fun x (t : Note n) => sw t.1 t.2.2 x) x (notes.take c) = Tx at *
    generalize notes[c] = t at *
    obtain ⟨k, l, m⟩ := t
    simp only at hkc hl hm ⊢
    have e1 : ∀ j, k ≤ j → V.1 j = Tx j := fun j hj => by
      have : ¬ j.val < c := by have : k.val ≤ j.val := hj; omega
      rw [(ih' j).1, if_neg this]
    have e2 : ∀ j, k ≤ j → V.2 j = Sy j := fun j hj => by
      have : ¬ j.val < c := by have : k.val ≤ j.val := hj; omega
      rw [(ih' j).2, if_neg this]
    simp only [act1, ex]
    by_cases hik : i = k
    · subst hik
      rw [if_pos rfl, if_pos rfl, if_pos (by omega), if_pos (by omega), sw_high hl (le_refl _) _ _ e2,
        sw_high hm (le_refl _) _ _ e1]
      exact ⟨rfl, rfl⟩
    · rw [if_neg hik, if_neg hik]
      by_cases hlt : i < k
      · have hlt' : i.val < k.val := hlt
        rw [if_pos (by omega), if_pos (by omega), sw_low hm hlt, sw_low hl hlt, sw_low hl hlt, sw_low hm hlt,
          (ih' i).1, (ih' i).2, if_pos (by omega), if_pos (by omega)]
        exact ⟨rfl, rfl⟩
      · have hge : k ≤ i := not_lt.mp hlt
        have hne : i.val ≠ k.val := fun h => hik (Fin.ext h)
        have hge' : k.val ≤ i.val := hge
        rw [if_neg (by omega), if_neg (by omega), sw_high hm hge _ _ e1, sw_high hl hge _ _ e2]
        exact ⟨rfl, rfl⟩

theorem back_rel {n : Nat} (notes : List (Note n)) (B : Mat n) : ∀ (y x : Fin n → ℚ),
    Rel (notes.reverse.foldl (fun A t => rowBack (colBack A t.1 t.2.1) t.1 t.2.2) B) y x ↔
      Rel B (perS notes y) (perT notes x) := by
  induction notes with
  | nil => intro y x; rfl
  | cons t notes ih =>
    intro y x
    rw [List.reverse_cons, List.foldl_append, List.foldl_cons, List.foldl_nil, rowBack_rel, colBack_rel, ih]
    rfl

theorem back_last {n : Nat} (notes : List (Note n)) (B : Mat n) (hk : notes.map (·.1) = List.finRange n)
    (hg : ∀ t ∈ notes, t.1 ≤ t.2.1 ∧ t.1 ≤ t.2.2) :
    back notes B = notes.reverse.foldl (fun A t => rowBack (colBack A t.1 t.2.1) t.1 t.2.2) B := by
  unfold back
  rcases List.eq_nil_or_concat notes with rfl | ⟨pre, t, rfl⟩
  · rfl
  · simp only [List.concat_eq_append, List.reverse_append, List.reverse_cons, List.reverse_nil, List.nil_append,
      List.cons_append, List.drop_succ_cons, List.drop_zero, List.foldl_cons]
    have hlen : pre.length + 1 = n := by
      have := congrArg List.length hk; simpa using this
    have hlast : t.1.val = n - 1 := by
      have h1 : ((pre.concat t).map (·.1))[pre.length]? = (List.finRange n)[pre.length]? := by rw [hk]
      rw [List.getElem?_eq_getElem (l := List.finRange n) (by simp; omega)] at h1
      simp at h1
      rw [h1]; simp; omega
    obtain ⟨h1, h2⟩ := hg t (by simp)
    have g1 : ¬ t.1 < t.2.1 := by
      intro h; have h' : t.1.val < t.2.1.val := h; have := t.2.1.isLt; omega
    have g2 : ¬ t.1 < t.2.2 := by
      intro h; have h' : t.1.val < t.2.2.val := h; have := t.2.2.isLt; omega
    simp [rowBack, colBack, g1, g2]

theorem rel_neg {n : Nat} (B : Mat n) (x y : Fin n → ℚ) : Rel B (fun i => -x i) (fun i => -y i) ↔ Rel B x y := by
  unfold Rel
  simp only [mul_neg, Finset.sum_neg_distrib, neg_inj]

/-- The notes are numbered by their turns. -/
theorem keys {n : Nat} (notes : List (Note n)) {post : List (Fin n)} (hk : notes.map (·.1) ++ post = List.finRange n)
    (c : Nat) (h : c < notes.length) : (notes[c].1).val = c := by
  have hl := congrArg List.length hk
  simp at hl
  have h1 : (notes.map (·.1) ++ post)[c]? = (List.finRange n)[c]? := by rw [hk]
  rw [List.getElem?_append_left (by simpa using h), List.getElem?_eq_getElem (l := List.finRange n) (by simp; omega)] at h1
  simp [h] at h1
  rw [h1]

/-- If the program does not stop, `y = A x` exactly if `x = B y`. -/
theorem mtxinv_rel {n : Nat} {A B : Mat n} (h : mtxinv A = some B) (x y : Fin n → ℚ) : Rel A x y ↔ Rel B y x := by
  unfold mtxinv at h
  rw [Option.map_eq_some_iff] at h
  obtain ⟨⟨C, notes⟩, hf, hb⟩ := h
  simp only at hb
  obtain ⟨hk, hg, hr⟩ := forward_rel _ hf
  have hlen : notes.length = n := by
    have := congrArg List.length hk; simpa using this
  have hm := act_mix notes (keys notes (post := []) (by simpa using hk)) hg x y n (le_of_eq hlen.symm)
  rw [List.take_of_length_le (by omega)] at hm
  rw [← hr x y, ← hb, back_last notes C hk hg, back_rel]
  have e1 : (notes.foldl act1 (x, y)).1 = fun i => -perS notes y i := funext fun i => by
    rw [(hm i).1, if_pos i.isLt]
  have e2 : (notes.foldl act1 (x, y)).2 = fun i => -perT notes x i := funext fun i => by
    rw [(hm i).2, if_pos i.isLt]
  rw [e1, e2, rel_neg]

/-- C144.  If the program does not stop, the result is the inverse of the matrix, on both sides. -/
theorem C144 {n : Nat} (A B : Mat n) (h : mtxinv A = some B) (i j : Fin n) :
    ∑ k, A i k * B k j = (if i = j then 1 else 0) ∧ ∑ k, B i k * A k j = (if i = j then 1 else 0) := by
  constructor
  · have h1 : Rel A (fun k => B k j) (fun i => if i = j then 1 else 0) := by
      rw [mtxinv_rel h]
      intro k; simp
    exact (h1 i).symm
  · have h1 : Rel B (fun k => A k j) (fun i => if i = j then 1 else 0) := by
      rw [← mtxinv_rel h]
      intro k; simp
    exact (h1 i).symm

theorem forward_none {n : Nat} (ks : List (Fin n)) : ∀ {A : Mat n}, forward ks A = none →
    ∃ pre k post C notes, ks = pre ++ k :: post ∧ forward pre A = some (C, notes) ∧ turn C k = none := by
  induction ks with
  | nil => intro A h; simp [forward] at h
  | cons k ks ih =>
    intro A h
    simp only [forward] at h
    cases ht : turn A k with
    | none => exact ⟨[], k, ks, A, [], rfl, rfl, ht⟩
    | some r =>
      obtain ⟨A', l, m⟩ := r
      simp only [ht] at h
      cases hf : forward ks A' with
      | none =>
        obtain ⟨pre, k', post, C, notes, e1, e2, e3⟩ := ih hf
        exact ⟨k :: pre, k', post, C, (k, l, m) :: notes, by rw [e1]; rfl, by simp [forward, ht, e2], e3⟩
      | some r => simp [hf] at h

theorem sw_onto {n : Nat} (k l : Fin n) (v : Fin n → ℚ) : ∃ y, sw k l y = v := by
  by_cases h : k < l
  · refine ⟨fun i => if i = k then -v l else if i = l then v k else v i, funext fun i => ?_⟩
    have hne : l ≠ k := ne_of_gt h
    by_cases h1 : i = k
    · subst h1; simp [sw, h, hne]
    · by_cases h2 : i = l
      · subst h2; simp [sw, h, hne]
      · simp [sw, h, h1, h2]
  · exact ⟨v, by simp [sw, h]⟩

theorem perS_onto {n : Nat} (notes : List (Note n)) : ∀ v : Fin n → ℚ, ∃ y, perS notes y = v := by
  induction notes with
  | nil => exact fun v => ⟨v, rfl⟩
  | cons t notes ih =>
    intro v
    obtain ⟨z, hz⟩ := ih v
    obtain ⟨y, hy⟩ := sw_onto t.1 t.2.1 z
    exact ⟨y, by rw [← hz, ← hy]; rfl⟩

/-- C144.  The program stops on singular matrices only: if it stops, no matrix is an inverse on the right. -/
theorem C144_singular {n : Nat} (A : Mat n) (h : mtxinv A = none) :
    ¬ ∃ B : Mat n, ∀ i j, ∑ k, A i k * B k j = (if i = j then 1 else 0) := by
  rintro ⟨B, hB⟩
  unfold mtxinv at h
  rw [Option.map_eq_none_iff] at h
  obtain ⟨pre, k, post, C, notes, e1, e2, e3⟩ := forward_none _ h
  obtain ⟨hk, hg, hr⟩ := forward_rel _ e2
  have hkk : k.val = notes.length := by
    have h1 : (List.finRange n)[pre.length]? = some k := by rw [e1]; simp
    have hp : pre.length = notes.length := by rw [← hk]; simp
    have hlt : pre.length < n := by
      have := congrArg List.length e1; simp at this; omega
    rw [List.getElem?_eq_getElem (by simpa using hlt)] at h1
    simp at h1
    rw [← h1, ← hp]
  obtain ⟨y, hy⟩ := perS_onto notes (fun i => if i = k then 1 else 0)
  have hA : Rel A (fun i => ∑ j, B i j * y j) y := by
    intro i
    show y i = ∑ a, A i a * ∑ j, B a j * y j
    simp only [Finset.mul_sum, ← mul_assoc]
    rw [Finset.sum_comm]
    simp only [← Finset.sum_mul, hB]
    simp
  generalize hx : (fun i => ∑ j, B i j * y j) = x at hA
  rw [← hr] at hA
  have hm := act_mix notes (keys notes (post := k :: post) (by rw [hk, ← e1])) hg x y notes.length (le_refl _)
  rw [List.take_length] at hm
  have h4 := hA k
  rw [(hm k).2, if_neg (by omega), hy] at h4
  simp only [if_true] at h4
  have hz : (search C k).1 = 0 := by
    by_contra hne
    simp [turn, hne] at e3
  obtain ⟨_, _, _, hs⟩ := search_spec C k
  rw [Finset.sum_eq_zero] at h4
  · exact one_ne_zero h4
  · intro j _
    by_cases hj : j.val < notes.length
    · have hjk : j ≠ k := fun e => by rw [e] at hj; omega
      rw [(hm j).1, if_pos hj, hy]; simp [hjk]
    · have := hs k j (le_refl _) (by show k.val ≤ j.val; omega)
      rw [hz, abs_zero] at this
      rw [abs_eq_zero.mp (le_antisymm this (abs_nonneg _)), zero_mul]

/-- C144.  So it stops exactly if the matrix has no inverse. -/
theorem C144_stops_iff {n : Nat} (A : Mat n) :
    mtxinv A = none ↔ ¬ ∃ B : Mat n, (∀ i j, ∑ k, A i k * B k j = (if i = j then 1 else 0)) ∧
      ∀ i j, ∑ k, B i k * A k j = (if i = j then 1 else 0) := by
  constructor
  · rintro h ⟨B, hB, _⟩
    exact C144_singular A h ⟨B, hB⟩
  · intro h
    cases hB : mtxinv A with
    | none => rfl
    | some B => exact absurd ⟨B, fun i j => (C144 A B hB i j).1, fun i j => (C144 A B hB i j).2⟩ h

example : (mtxinv (n := 2) (fun i j => if i = j then 0 else i.val + 1)).map (fun B => (B 0 0, B 0 1, B 1 0, B 1 1)) =
    some (0, 1 / 2, 1, 0) := by decide +kernel

example : (mtxinv (n := 2) (fun i j => (i.val + 1) * (j.val + 1))).isNone = true := by decide +kernel

end Verif.MtxInv
