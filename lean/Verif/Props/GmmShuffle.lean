/-
Cyclic renaming by the memory manager of named arrays (model: `Verif/Gmm.lean`).
-/
import Verif.Props.GmmMap

namespace Props.NamedArrays
open Gmm

/-- Rename in a map. -/
def mv (M : Name → Option Field) (a b : Name) : Name → Option Field :=
  match M a, M b with
  | some f, none => put (del M a) b f
  | _, _ => M

theorem rel_rename {s : S} {sp : Spec} (h : Rel s sp) {a b : Name} (ha : fixed a ≠ tomb)
    (hb : fixed b ≠ tomb) :
    Rel (rename a b s).1 { sp with map := mv sp.map (fixed a) (fixed b) } := by
  obtain ⟨s', hst, hrel⟩ := sim_rename h ha hb
  simp only [step, Option.some.injEq, Prod.mk.injEq] at hst
  rw [hst.1]
  refine hrel.congr ?_
  simp only [sstep, mv]
  cases sp.map (fixed a) <;> cases sp.map (fixed b) <;> rfl

theorem rel_find {s : S} {sp : Spec} (h : Rel s sp) {t : Name} (ht : fixed t ≠ tomb) :
    Rel (find t s).1 sp ∧ ((find t s).2 = -2 ↔ sp.map (fixed t) = none) := by
  rcases lookup h ht with ⟨hm, hfind, -⟩ | ⟨i, e, ad, arr, hi, hn, hp, ha, hm, hfind⟩
  · rw [hfind, hm]
    exact ⟨h.cursor 0 (fun _ => rfl), by simp⟩
  · rw [hfind, hm]
    refine ⟨h.cursor _ (nonempty_of hi _), ?_⟩
    simp [keyOf]
    omega

theorem findAll_rel : ∀ (tags : List Name) {s : S} {sp : Spec}, Rel s sp →
    (∀ t ∈ tags, fixed t ≠ tomb) →
    Rel (findAll tags s).1 sp ∧ (findAll tags s).2.length = tags.length ∧
      ∀ i : Nat, i < tags.length →
        (((findAll tags s).2[i]?).getD (-2) = -2 ↔ sp.map (fixed ((tags[i]?).getD [])) = none)
  | [], s, sp, h, _ => ⟨h, rfl, fun i hi => by simp at hi⟩
  | t :: ts, s, sp, h, ht => by
    obtain ⟨h1, hk⟩ := rel_find h (ht t (List.mem_cons_self ..))
    obtain ⟨h2, hl, hks⟩ := findAll_rel ts h1 (fun x hx => ht x (List.mem_cons_of_mem _ hx))
    refine ⟨h2, by simp [findAll, hl], ?_⟩
    intro i hi
    cases i with
    | zero => simpa [findAll] using hk
    | succ i => simpa [findAll] using hks i (by simpa using hi)

/-- The loop of renamings in a map. -/
def shiftM (nm : Nat → Name) : Nat → (Name → Option Field) → (Name → Option Field)
  | 0, M => M
  | j + 1, M => shiftM nm j (mv M (nm j) (nm (j + 1)))

theorem mv_eq {M : Name → Option Field} {a b : Name} {f : Field} (ha : M a = some f)
    (hb : M b = none) : mv M a b = put (del M a) b f := by
  simp [mv, ha, hb]

theorem shiftM_spec {nm : Nat → Name} {N : Nat}
    (hinj : ∀ i k, i ≤ N → k ≤ N → nm i = nm k → i = k) :
    ∀ j, j ≤ N → ∀ M : Name → Option Field, M (nm j) = none → (∀ i < j, M (nm i) ≠ none) →
      (∀ i < j, shiftM nm j M (nm (i + 1)) = M (nm i)) ∧ shiftM nm j M (nm 0) = none ∧
      ∀ x, (∀ i ≤ j, x ≠ nm i) → shiftM nm j M x = M x
  | 0, _, M, hM, _ => ⟨fun i hi => by omega, hM, fun _ _ => rfl⟩
  | j + 1, hj, M, hM, hs => by
    obtain ⟨f, hf⟩ : ∃ f, M (nm j) = some f := by
      cases hx : M (nm j) with
      | none => exact absurd hx (hs j (by omega))
      | some f => exact ⟨f, rfl⟩
    have hmv := mv_eq hf hM
    have hne : ∀ i k, i ≤ N → k ≤ N → i ≠ k → nm i ≠ nm k :=
      fun i k hi hk hik he => hik (hinj i k hi hk he)
    have h0 : (mv M (nm j) (nm (j + 1))) (nm j) = none := by
      rw [hmv]
      simp [put, del, hne j (j + 1) (by omega) hj (by omega)]
    have hsame : ∀ x, x ≠ nm j → x ≠ nm (j + 1) → (mv M (nm j) (nm (j + 1))) x = M x := by
      intro x h1 h2
      rw [hmv]
      simp [put, del, h1, h2]
    obtain ⟨ih1, ih2, ih3⟩ := shiftM_spec hinj j (by omega) (mv M (nm j) (nm (j + 1))) h0
      (fun i hi => by
        rw [hsame _ (hne i j (by omega) (by omega) (by omega))
          (hne i (j + 1) (by omega) hj (by omega))]
        exact hs i (by omega))
    refine ⟨?_, ih2, ?_⟩
    · intro i hi
      by_cases hij : i = j
      · subst hij
        show shiftM nm i (mv M (nm i) (nm (i + 1))) (nm (i + 1)) = _
        rw [ih3 _ (fun k hk => hne (i + 1) k hj (by omega) (by omega)), hmv]
        simp [put, hf]
      · show shiftM nm j (mv M (nm j) (nm (j + 1))) (nm (i + 1)) = _
        rw [ih1 i (by omega)]
        exact hsame _ (hne i j (by omega) (by omega) hij) (hne i (j + 1) (by omega) hj (by omega))
    · intro x hx
      show shiftM nm j (mv M (nm j) (nm (j + 1))) x = _
      rw [ih3 x (fun i hi => hx i (by omega))]
      exact hsame x (hx j (by omega)) (hx (j + 1) (Nat.le_refl _))

theorem shift_rel {tags : List Name} {ks : List Int} :
    ∀ (j : Nat) {s : S} {sp : Spec}, Rel s sp → j < tags.length →
      (∀ t ∈ tags, fixed t ≠ tomb) → (∀ i < j, (ks[i]?).getD (-2) ≠ -2) →
      Rel (shift tags ks j s)
        { sp with map := shiftM (fun i => fixed ((tags[i]?).getD [])) j sp.map }
  | 0, s, sp, h, _, _, _ => h
  | j + 1, s, sp, h, hj, ht, hk => by
    have hmem : ∀ i, i < tags.length → fixed ((tags[i]?).getD []) ≠ tomb := by
      intro i hi
      rw [List.getElem?_eq_getElem hi]
      exact ht _ (List.getElem_mem hi)
    have h1 := rel_rename h (hmem j (by omega)) (hmem (j + 1) hj)
    have h2 := shift_rel j h1 (by omega) ht (fun i hi => hk i (by omega))
    simp only [shift, shiftM]
    rw [if_pos (hk j (by omega))]
    exact h2

theorem temp_fixed : fixed temp = temp := by decide
theorem temp_tomb : temp ≠ tomb := by decide

theorem takeWhile_blank {tags rest : List Name} (h1 : ∀ t ∈ tags, t.any (· != ' ') = true)
    (h2 : ∀ t, rest.head? = some t → t.any (· != ' ') = false) :
    (tags ++ rest).takeWhile (fun t => t.any (· != ' ')) = tags := by
  induction tags with
  | nil =>
    cases rest with
    | nil => rfl
    | cons t rest => simp [h2 t rfl]
  | cons t tags ih =>
    rw [List.cons_append, List.takeWhile_cons, if_pos (h1 t (List.mem_cons_self ..)),
      ih (fun x hx => h1 x (List.mem_cons_of_mem _ hx))]

/-- **C71** When all variables of the list exist (under different names), `gmm_shuffle` hands
each name on to the next variable: what was under the name before is found under the name
after it, and what was under the last name under the first one.  No other variable changes. -/
theorem C71_cycle_partial {s : S} {sp : Spec} (h : Rel s sp) (tags rest : List Name)
    (hblank : ∀ t ∈ tags, t.any (· != ' ') = true)
    (hrest : ∀ t, rest.head? = some t → t.any (· != ' ') = false)
    (hne : tags ≠ [])
    (htomb : ∀ t ∈ tags, fixed t ≠ tomb) (htemp : ∀ t ∈ tags, fixed t ≠ temp)
    (hex : ∀ t ∈ tags, sp.map (fixed t) ≠ none)
    (hdis : ∀ (i j : Nat) t u, tags[i]? = some t → tags[j]? = some u → fixed t = fixed u → i = j)
    (hnotemp : sp.map temp = none) :
    ∃ s' M, shuffle (tags ++ rest) s = (s', 0) ∧ Rel s' { sp with map := M } ∧
      (∀ (i : Nat) t u, tags[i]? = some t → tags[i + 1]? = some u →
        M (fixed u) = sp.map (fixed t)) ∧
      (∀ t u, tags.getLast? = some t → tags[0]? = some u → M (fixed u) = sp.map (fixed t)) ∧
      (∀ x, (∀ t ∈ tags, x ≠ fixed t) → M x = sp.map x) := by
  have htt : fixed temp ≠ tomb := by rw [temp_fixed]; exact temp_tomb
  obtain ⟨h0, hk0⟩ := rel_find h htt
  obtain ⟨h1, hlen, hks⟩ := findAll_rel tags h0 htomb
  have hpos : 0 < tags.length := List.length_pos_iff.2 hne
  have hall : ∀ i, i < tags.length → ((findAll tags (find temp s).1).2[i]?).getD (-2) ≠ -2 := by
    intro i hi hx
    have := (hks i hi).1 hx
    rw [List.getElem?_eq_getElem hi] at this
    exact hex _ (List.getElem_mem hi) this
  have hvalid : ((findAll tags (find temp s).1).2.all (· == -2)) = false := by
    rw [List.all_eq_false]
    have h00 := hall 0 hpos
    have h0l : 0 < (findAll tags (find temp s).1).2.length := by omega
    rw [List.getElem?_eq_getElem h0l] at h00
    exact ⟨_, List.getElem_mem h0l, by simpa using h00⟩
  unfold shuffle
  simp only [takeWhile_blank hblank hrest, hvalid, Bool.false_eq_true, if_false]
  by_cases h2 : tags.length = 2
  · rw [if_pos h2, if_neg (hall 0 (by omega)), if_neg (hall 1 (by omega))]
    obtain ⟨a, b, rfl⟩ : ∃ a b, tags = [a, b] := by
      match tags, h2 with
      | [a, b], _ => exact ⟨a, b, rfl⟩
    have hab : fixed a ≠ fixed b := fun he => by
      have := hdis 0 1 a b rfl rfl he
      omega
    have ha := htomb a (by simp)
    have hb := htomb b (by simp)
    have ha' := htemp a (by simp)
    have hb' := htemp b (by simp)
    obtain ⟨fa, hfa⟩ := Option.ne_none_iff_exists'.1 (hex a (by simp))
    obtain ⟨fb, hfb⟩ := Option.ne_none_iff_exists'.1 (hex b (by simp))
    have r1 := rel_rename h1 (a := a) (b := temp) ha htt
    rw [temp_fixed, mv_eq hfa hnotemp] at r1
    have r2 := rel_rename r1 (a := b) (b := a) hb ha
    rw [mv_eq (f := fb) (by simp [put, del, hb', hab.symm, hfb]) (by simp [put, del, ha'])] at r2
    have r3 := rel_rename r2 (a := temp) (b := b) htt hb
    rw [temp_fixed, mv_eq (f := fa) (by simp [put, del, ha'.symm, hb'.symm])
      (by simp [put, del, hab.symm])] at r3
    refine ⟨_, _, rfl, r3, ?_, ?_, ?_⟩
    · intro i t u hi hu
      cases i with
      | zero =>
        simp at hi hu
        subst hi hu
        simp [put, hfa]
      | succ i => simp at hu
    · intro t u ht hu
      simp at ht hu
      subst ht hu
      simp [put, del, hab, ha', hfb]
    · intro x hx
      have h1 := hx a (by simp)
      have h2 := hx b (by simp)
      by_cases h3 : x = temp
      · subst h3
        simp [put, del, h2, hnotemp]
      · simp [put, del, h1, h2, h3]
  · rw [if_neg h2]
    generalize hS : (findAll tags (find temp s).1).1 = s1 at *
    generalize hK : (findAll tags (find temp s).1).2 = ks at *
    obtain ⟨n, hn⟩ : ∃ n, tags.length = n + 1 := ⟨tags.length - 1, by omega⟩
    have hkne : ∀ k ∈ ks, k ≠ -2 := by
      intro k hk
      obtain ⟨i, hi⟩ := List.getElem?_of_mem hk
      have hlt := (List.getElem?_eq_some_iff.1 hi).1
      have := hall i (by omega)
      rwa [hi] at this
    have hksne : ks ≠ [] := by
      intro hx
      rw [hx] at hlen
      simp at hlen
      omega
    -- the keys after they have been moved are all there as well
    generalize hK2 : (ks.getLast?.getD (-2) :: ks.dropLast) = ks2
    have hk2 : ∀ k ∈ ks2, k ≠ -2 := by
      intro k hk
      rw [← hK2] at hk
      rcases List.mem_cons.1 hk with rfl | hk
      · rw [List.getLast?_eq_some_getLast hksne]
        exact hkne _ (List.getLast_mem hksne)
      · exact hkne k (List.dropLast_subset _ hk)
    have hl2 : ks2.length = n + 1 := by
      rw [← hK2]
      simp
      omega
    have hne2 : ks2 ≠ [] := by
      intro hx
      rw [hx] at hl2
      simp at hl2
    have hlast2 : ks2.getLast?.getD (-2) ≠ -2 := by
      rw [List.getLast?_eq_some_getLast hne2]
      exact hk2 _ (List.getLast_mem hne2)
    rw [if_pos hlast2]
    have hnm : ∀ i, i < tags.length → ∃ t, tags[i]? = some t ∧ t ∈ tags := by
      intro i hi
      exact ⟨tags[i], List.getElem?_eq_getElem hi, List.getElem_mem hi⟩
    obtain ⟨tl, htl, htlm⟩ := hnm n (by omega)
    have htagl : tags.getLast? = some tl := by
      rw [List.getLast?_eq_getElem?, hn]
      exact htl
    obtain ⟨t0, ht0, ht0m⟩ := hnm 0 hpos
    obtain ⟨fl, hfl⟩ := Option.ne_none_iff_exists'.1 (hex tl htlm)
    have r1 := rel_rename h1 (a := tl) (b := temp) (htomb tl htlm) htt
    rw [temp_fixed, mv_eq hfl hnotemp] at r1
    have r2 := shift_rel (tags := tags) (ks := ks2) n r1 (by omega) htomb (fun i hi => by
      rw [List.getElem?_eq_getElem (by omega)]
      exact hk2 _ (List.getElem_mem _))
    have hnmi : ∀ (i : Nat) t, tags[i]? = some t →
        fixed ((tags[i]?).getD []) = fixed t := by
      intro i t ht
      simp [ht]
    obtain ⟨c1, c2, c3⟩ := shiftM_spec (nm := fun i => fixed ((tags[i]?).getD [])) (N := n)
      (fun i k hi hk he => by
        obtain ⟨t, ht, -⟩ := hnm i (by omega)
        obtain ⟨u, hu, -⟩ := hnm k (by omega)
        rw [hnmi i t ht, hnmi k u hu] at he
        exact hdis i k t u ht hu he)
      n (Nat.le_refl _) (put (del sp.map (fixed tl)) temp fl)
      (by
        rw [hnmi n tl htl]
        simp [put, del, htemp tl htlm])
      (fun i hi => by
        obtain ⟨t, ht, htm⟩ := hnm i (by omega)
        rw [hnmi i t ht]
        have : fixed t ≠ fixed tl := fun he => by
          have := hdis i n t tl ht htl he
          omega
        simp only [put, del, htemp t htm, this, if_false]
        exact hex t htm)
    generalize hM2 : shiftM (fun i => fixed ((tags[i]?).getD [])) n
      (put (del sp.map (fixed tl)) temp fl) = M2 at *
    have hM2t : M2 temp = some fl := by
      rw [c3 temp (fun i hi he => ?_)]
      · simp [put]
      · obtain ⟨t, ht, htm⟩ := hnm i (by omega)
        rw [hnmi i t ht] at he
        exact htemp t htm he.symm
    have hM20 : M2 (fixed t0) = none := by
      rw [hnmi 0 t0 ht0] at c2
      exact c2
    rw [htagl, hn]
    simp only [Option.getD_some, Nat.add_sub_cancel]
    obtain ⟨r3, hk3⟩ := rel_find r2 htt
    have hk3' : (find temp (shift tags ks2 n (rename tl temp s1).1)).2 ≠ -2 := by
      intro hx
      have : M2 (fixed temp) = none := hk3.1 hx
      rw [temp_fixed, hM2t] at this
      simp at this
    rw [if_pos hk3', ht0]
    have r4 := rel_rename r3 (a := temp) (b := t0) htt (htomb t0 ht0m)
    rw [temp_fixed, mv_eq (f := fl) hM2t hM20] at r4
    refine ⟨_, _, rfl, r4, ?_, ?_, ?_⟩
    · intro i t u hi hu
      have hiu : i + 1 < tags.length := (List.getElem?_eq_some_iff.1 hu).1
      have hum : u ∈ tags := List.mem_of_getElem? hu
      have htm : t ∈ tags := List.mem_of_getElem? hi
      have hu0 : fixed u ≠ fixed t0 := fun he => by
        have := hdis (i + 1) 0 u t0 hu ht0 he
        omega
      have htl' : fixed t ≠ fixed tl := fun he => by
        have := hdis i n t tl hi htl he
        omega
      have := c1 i (by omega)
      rw [hnmi (i + 1) u hu, hnmi i t hi] at this
      simp only [put, del, hu0, htemp u hum, if_false, this, htemp t htm, htl']
    · intro t u ht hu
      obtain rfl := Option.some.inj ht
      obtain rfl := Option.some.inj hu
      simp [put, hfl]
    · intro x hx
      have hx0 := hx t0 ht0m
      have hxl := hx tl htlm
      by_cases hxt : x = temp
      · subst hxt
        simp [put, del, hx0, hnotemp]
      · simp only [put, del, hx0, hxt, if_false]
        rw [c3 x (fun i hi => ?_)]
        · simp [put, del, hxt, hxl]
        · obtain ⟨t, ht, htm⟩ := hnm i (by omega)
          rw [hnmi i t ht]
          exact hx t htm

/-- **C71** With two names one of which is free, the variable moves to the free name. -/
theorem C71_move {s : S} {sp : Spec} (h : Rel s sp) (a b : Name) (f : Field)
    (hblank : a.any (· != ' ') = true ∧ b.any (· != ' ') = true)
    (ha : fixed a ≠ tomb) (hb : fixed b ≠ tomb)
    (hex : (sp.map (fixed a) = some f ∧ sp.map (fixed b) = none) ∨
      (sp.map (fixed a) = none ∧ sp.map (fixed b) = some f)) :
    ∃ s' M, shuffle [a, b] s = (s', 0) ∧ Rel s' { sp with map := M } ∧
      M (fixed a) = sp.map (fixed b) ∧ M (fixed b) = sp.map (fixed a) ∧
      ∀ x, x ≠ fixed a → x ≠ fixed b → M x = sp.map x := by
  have htt : fixed temp ≠ tomb := by rw [temp_fixed]; exact temp_tomb
  obtain ⟨h0, hk0⟩ := rel_find h htt
  have htomb : ∀ t ∈ [a, b], fixed t ≠ tomb := by
    intro t ht
    simp at ht
    rcases ht with rfl | rfl
    · exact ha
    · exact hb
  obtain ⟨h1, hlen, hks⟩ := findAll_rel [a, b] h0 htomb
  have k0 := hks 0 (by simp)
  have k1 := hks 1 (by simp)
  simp only [List.getElem?_cons_zero, List.getElem?_cons_succ, Option.getD_some] at k0 k1
  have htw : [a, b].takeWhile (fun t => t.any (· != ' ')) = [a, b] := by
    have := takeWhile_blank (tags := [a, b]) (rest := []) (by
      intro t ht
      simp only [List.mem_cons, List.not_mem_nil, or_false] at ht
      rcases ht with rfl | rfl
      · exact hblank.1
      · exact hblank.2) (by simp)
    simpa using this
  unfold shuffle
  simp only [htw]
  have hvalid : ((findAll [a, b] (find temp s).1).2.all (· == -2)) = false := by
    rw [List.all_eq_false]
    have hl2 : (findAll [a, b] (find temp s).1).2.length = 2 := hlen
    rcases hex with ⟨e1, e2⟩ | ⟨e1, e2⟩
    · have hl : 0 < (findAll [a, b] (find temp s).1).2.length := by omega
      rw [List.getElem?_eq_getElem hl] at k0
      refine ⟨_, List.getElem_mem hl, ?_⟩
      simp only [Option.getD_some, e1, reduceCtorEq, iff_false] at k0
      simpa using k0
    · have hl : 1 < (findAll [a, b] (find temp s).1).2.length := by omega
      rw [List.getElem?_eq_getElem hl] at k1
      refine ⟨_, List.getElem_mem hl, ?_⟩
      simp only [Option.getD_some, e2, reduceCtorEq, iff_false] at k1
      simpa using k1
  simp only [hvalid, Bool.false_eq_true, if_false]
  rw [if_pos (by rfl)]
  simp only [List.getElem?_cons_zero, List.getElem?_cons_succ, Option.getD_some]
  rcases hex with ⟨e1, e2⟩ | ⟨e1, e2⟩
  · have hab : fixed a ≠ fixed b := fun he => by rw [he, e2] at e1; simp at e1
    rw [if_neg (fun hx => by rw [k0.1 hx] at e1; simp at e1), if_pos (k1.2 e2)]
    have r := rel_rename h1 (a := a) (b := b) ha hb
    rw [mv_eq e1 e2] at r
    refine ⟨_, _, rfl, r, ?_, ?_, ?_⟩
    · simp [put, del, hab, e2]
    · simp [put, e1]
    · intro x h1 h2
      simp [put, del, h1, h2]
  · have hab : fixed b ≠ fixed a := fun he => by rw [he, e1] at e2; simp at e2
    rw [if_pos (k0.2 e1)]
    have r := rel_rename h1 (a := b) (b := a) hb ha
    rw [mv_eq e2 e1] at r
    refine ⟨_, _, rfl, r, ?_, ?_, ?_⟩
    · simp [put, e2]
    · simp [put, del, hab, e1]
    · intro x h1 h2
      simp [put, del, h1, h2]

def nA : Name := "A".toList
def nB : Name := "B".toList
def nC : Name := "C".toList

/-- Where the variables made by `ops` are found after a shuffle. -/
def after (ops : List Op) (tags : List Name) : Option (List (Option Nat)) :=
  (run init ops).map fun r =>
    let s := (shuffle tags r.1).1
    [nA, nB, nC].map fun n => ((Gmm.get 142 n 0 s).bind fun q => q.2.p)

/-- Three variables, all there: they move on by one place. -/
example : after [.create 142 nA none (meta2 2 3 0) (fun k => k) 5,
    .create 142 nB none (meta2 2 3 0) (fun k => k) 5,
    .create 142 nC none (meta2 2 3 0) (fun k => k) 5] [nA, nB, nC]
    = some [some 2, some 0, some 1] := by decide +kernel

/-- **C71** With three names, one of which is free, the keys are moved before it is tested
which variables exist, so the wrong ones are moved.  Here `B` does not exist: `C` should
become `A`, but stays; `A` becomes `B`.  The status is 0 all the same. -/
theorem C71_missing_witness :
    after [.create 142 nA none (meta2 2 3 0) (fun k => k) 5,
      .create 142 nC none (meta2 2 3 0) (fun k => k) 5] [nA, nB, nC]
      = some [none, some 0, some 1] ∧
    (run init [.create 142 nA none (meta2 2 3 0) (fun k => k) 5,
      .create 142 nC none (meta2 2 3 0) (fun k => k) 5]).map
        (fun r => (shuffle [nA, nB, nC] r.1).2) = some 0 := by
  exact ⟨by decide +kernel, by decide +kernel⟩

end Props.NamedArrays
