import Verif.EzCloud
import Mathlib.Tactic

namespace Verif.EzCloud

/-! # C124, C125, C126: scattered points -/

/-- The distance of two longitudes on the circle, the shorter way round. -/
def gap (a b : ℚ) : ℚ := min |a - b| |(360 - |a - b|)|

theorem abs_dlon (a b : ℚ) : |dlon a b| = gap a b := by
  unfold dlon gap
  have h0 := abs_nonneg (a - b)
  split_ifs with h
  · rw [abs_abs, abs_sub_comm 360, min_eq_right]
    rw [abs_le]; constructor <;> linarith
  · rw [min_eq_left]
    rw [le_abs]; left; linarith

theorem dlon_sq (a b : ℚ) : dlon a b * dlon a b = gap a b ^ 2 := by
  rw [← abs_dlon, sq_abs, sq]

/-- A point of the input near the point `lon`, `lat`, with its squared distance and number. -/
def Near (thr lon lat : ℚ) (ps : List (ℚ × ℚ × Bool)) (e : Entry) : Prop :=
  1 ≤ e.2 ∧ ∃ p, ps[e.2 - 1]? = some p ∧ p.2.2 = true ∧ |lat - p.2.1| < thr ∧ gap lon p.1 < thr ∧
    e.1 = gap lon p.1 ^ 2 + (lat - p.2.1) ^ 2

theorem exists_max (l : List Entry) (h : l ≠ []) : ∃ e ∈ l, ∀ e' ∈ l, e'.1 ≤ e.1 := by
  induction l with
  | nil => exact absurd rfl h
  | cons a l ih =>
    by_cases hl : l = []
    · subst hl
      exact ⟨a, by simp, by simp⟩
    · obtain ⟨e, he, hm⟩ := ih hl
      rcases le_total a.1 e.1 with h1 | h1
      · refine ⟨e, by simp [he], fun e' h' => ?_⟩
        rcases List.mem_cons.1 h' with rfl | h'
        · exact h1
        · exact hm e' h'
      · refine ⟨a, by simp, fun e' h' => ?_⟩
        rcases List.mem_cons.1 h' with rfl | h'
        · exact le_rfl
        · exact le_trans (hm e' h') h1

theorem maxloc_spec (l : List Entry) (h : l ≠ []) :
    ∃ e, l[maxloc l]? = some e ∧ ∀ e' ∈ l, e'.1 ≤ e.1 := by
  have hlt : maxloc l < l.length := by
    rw [maxloc, List.findIdx_lt_length]
    obtain ⟨e, he, hm⟩ := exists_max l h
    exact ⟨e, he, by simpa using hm⟩
  refine ⟨l[maxloc l], List.getElem?_eq_getElem hlt, fun e' h' => ?_⟩
  have := List.findIdx_getElem (w := hlt)
  simp only [List.all_eq_true, decide_eq_true_eq] at this
  exact this e' h'

theorem maxloc_first (F : List Entry) (r : Nat) (hF : ∀ e ∈ F, e.1 < big) :
    maxloc (F ++ List.replicate (r + 1) (big, 0)) = F.length := by
  rw [maxloc, List.findIdx_eq (by simp)]
  constructor
  · rw [List.getElem_append_right (le_refl _)]
    simp only [Nat.sub_self, List.getElem_replicate, List.all_eq_true, List.mem_append, List.mem_replicate,
      decide_eq_true_eq]
    rintro e (he | he)
    · exact (hF e he).le
    · rw [he.2]
  · intro j hj
    rw [List.getElem_append_left hj]
    rw [← Bool.not_eq_true]
    intro hall
    simp only [List.all_eq_true, decide_eq_true_eq] at hall
    have := hall (big, 0) (by simp)
    have h2 := hF _ (List.getElem_mem hj)
    exact absurd this (not_le.2 h2)

/-- The state of the scan when the points before number `k` are done: `F` are the nearest so far. -/
structure Inv (n : Nat) (thr lon lat : ℚ) (ps : List (ℚ × ℚ × Bool)) (k : Nat) (F : List Entry) (r : Nat)
    (s : List Entry × Nat × Bool) : Prop where
  es : s.1 = F ++ List.replicate r (big, 0)
  len : F.length + r = n
  loc : ∃ e, s.1[s.2.1]? = some e ∧ ∀ e' ∈ s.1, e'.1 ≤ e.1
  first : r ≠ 0 → s.2.1 = F.length
  near : ∀ e ∈ F, Near thr lon lat ps e ∧ e.2 < k
  nodup : (F.map (·.2)).Nodup
  best : ∀ c, Near thr lon lat ps c → c.2 < k → c ∈ F ∨ (r = 0 ∧ ∀ e ∈ F, e.1 ≤ c.1)
  found : s.2.2 = true ↔ F ≠ []

theorem near_lt {thr lon lat : ℚ} {ps : List (ℚ × ℚ × Bool)} {e : Entry} (hthr : 2 * thr ^ 2 ≤ 6371000)
    (h : Near thr lon lat ps e) : 0 ≤ e.1 ∧ e.1 < 6371000 := by
  obtain ⟨-, p, -, -, h1, h2, h3⟩ := h
  rw [h3]
  have a1 := abs_nonneg (lat - p.2.1)
  have a2 : 0 ≤ gap lon p.1 := le_min (abs_nonneg _) (abs_nonneg _)
  have b1 : (lat - p.2.1) ^ 2 = |lat - p.2.1| ^ 2 := (sq_abs _).symm
  constructor
  · positivity
  · rw [b1]
    nlinarith

theorem near_unique {thr lon lat : ℚ} {ps : List (ℚ × ℚ × Bool)} {e e' : Entry} (h : Near thr lon lat ps e)
    (h' : Near thr lon lat ps e') (hk : e.2 = e'.2) : e = e' := by
  obtain ⟨-, p, h1, -, -, -, h2⟩ := h
  obtain ⟨-, p', h1', -, -, -, h2'⟩ := h'
  rw [hk, h1'] at h1
  cases h1
  exact Prod.ext (by rw [h2, h2']) hk

theorem scan_inv (n : Nat) (hn : 1 ≤ n) (thr lon lat : ℚ) (hthr : 2 * thr ^ 2 ≤ 6371000) (ps qs : List (ℚ × ℚ × Bool)) :
    ∀ (pre : List (ℚ × ℚ × Bool)) (s : List Entry × Nat × Bool) (F : List Entry) (r : Nat), ps = pre ++ qs →
      Inv n thr lon lat ps (pre.length + 1) F r s →
      ∃ F' r', Inv n thr lon lat ps (ps.length + 1) F' r' (scan thr lon lat (pre.length + 1) qs s) := by
  induction qs with
  | nil =>
    intro pre s F r hp hi
    refine ⟨F, r, ?_⟩
    rw [scan, hp, List.append_nil]
    rw [hp, List.append_nil] at hi
    exact hi
  | cons p qs ih =>
    intro pre s F r hp hi
    obtain ⟨es, loc, found⟩ := s
    have hget : ps[pre.length]? = some p := by rw [hp]; simp
    have hbig : (6371000 : ℚ) < big := by unfold big; norm_num
    -- the state after this point
    have key : ∀ s', (∃ F' r', Inv n thr lon lat ps (pre.length + 1 + 1) F' r' s') →
        ∃ F' r', Inv n thr lon lat ps (ps.length + 1) F' r' (scan thr lon lat (pre.length + 1 + 1) qs s') := by
      rintro s' ⟨F', r', h'⟩
      have := ih (pre ++ [p]) s' F' r' (by rw [hp]; simp) (by simpa using h')
      simpa using this
    rw [scan]
    apply key
    have hno : ∀ c, Near thr lon lat ps c → c.2 < pre.length + 1 + 1 → c.2 < pre.length + 1 ∨ c.2 = pre.length + 1 := by
      intro c _ h
      omega
    by_cases hc : p.2.2 ∧ |lat - p.2.1| < thr ∧ |dlon lon p.1| < thr
    · have hnear : Near thr lon lat ps
          (dlon lon p.1 * dlon lon p.1 + (lat - p.2.1) * (lat - p.2.1), pre.length + 1) :=
        ⟨by simp, p, by simpa using hget, hc.1, hc.2.1, by rw [← abs_dlon]; exact hc.2.2, by simp only [dlon_sq]; ring⟩
      obtain ⟨hd0, hd⟩ := near_lt hthr hnear
      simp only [if_pos hc]
      set d := dlon lon p.1 * dlon lon p.1 + (lat - p.2.1) * (lat - p.2.1) with hdef
      obtain ⟨e, he, hmax⟩ := hi.loc
      simp only at he hmax
      simp only [he]
      have hes := hi.es
      simp only at hes
      have hfresh : pre.length + 1 ∉ F.map (·.2) := by
        intro hmem
        obtain ⟨x, hx, hx2⟩ := List.mem_map.1 hmem
        have := (hi.near x hx).2
        omega
      by_cases hlt : d < e.1
      · simp only [if_pos hlt]
        cases r with
        | succ r =>
          have hloc : loc = F.length := hi.first (by omega)
          have hset : es.set loc (d, pre.length + 1) =
              (F ++ [(d, pre.length + 1)]) ++ List.replicate r (big, 0) := by
            rw [hes, hloc, List.set_append_right _ _ (le_refl _), Nat.sub_self, List.replicate_succ, List.set_cons_zero]
            simp
          refine ⟨F ++ [(d, pre.length + 1)], r, ?_⟩
          have hlt' : ∀ x ∈ F ++ [(d, pre.length + 1)], x.1 < big := by
            intro x hx
            rcases List.mem_append.1 hx with hx | hx
            · exact lt_trans (near_lt hthr (hi.near x hx).1).2 hbig
            · simp only [List.mem_singleton] at hx
              subst hx
              exact lt_trans hd hbig
          refine ⟨hset, ?_, ?_, ?_, ?_, ?_, ?_, ?_⟩
          · have := hi.len
            simp only [List.length_append, List.length_singleton]
            omega
          · simp only
            exact maxloc_spec _ (by rw [hset]; simp)
          · intro hr
            obtain ⟨r', rfl⟩ : ∃ r', r = r' + 1 := ⟨r - 1, by omega⟩
            simp only
            rw [hset]
            exact maxloc_first _ _ hlt'
          · intro x hx
            rcases List.mem_append.1 hx with hx | hx
            · exact ⟨(hi.near x hx).1, by have := (hi.near x hx).2; omega⟩
            · simp only [List.mem_singleton] at hx
              subst hx
              exact ⟨hnear, by simp⟩
          · rw [List.map_append, List.nodup_append]
            refine ⟨hi.nodup, by simp, ?_⟩
            intro a ha b hb
            simp only [List.map_cons, List.map_nil, List.mem_singleton] at hb
            rintro rfl
            rw [hb] at ha
            exact hfresh ha
          · intro c hcn hk
            rcases hno c hcn hk with h | h
            · rcases hi.best c hcn h with hb | ⟨hb, -⟩
              · exact Or.inl (List.mem_append_left _ hb)
              · omega
            · exact Or.inl (by rw [near_unique hcn hnear h]; simp)
          · simp
        | zero =>
          have hesF : es = F := by rw [hes]; simp
          have hlocF : F[loc]? = some e := by rw [← hesF]; exact he
          have hlocl : loc < F.length := (List.getElem?_eq_some_iff.1 hlocF).1
          have heF : e ∈ F := List.mem_of_getElem? hlocF
          refine ⟨F.set loc (d, pre.length + 1), 0, ?_⟩
          have hmem : ∀ x ∈ F.set loc (d, pre.length + 1), x = (d, pre.length + 1) ∨ x ∈ F := by
            intro x hx
            rcases List.mem_or_eq_of_mem_set hx with h | h
            · exact Or.inr h
            · exact Or.inl h
          refine ⟨by rw [hesF]; simp, ?_, ?_, ?_, ?_, ?_, ?_, ?_⟩
          · have := hi.len
            simp only [List.length_set]
            omega
          · simp only
            refine maxloc_spec _ ?_
            rw [hesF]
            intro h
            have := congrArg List.length h
            simp only [List.length_set, List.length_nil] at this
            omega
          · intro h
            exact absurd rfl h
          · intro x hx
            rcases hmem x hx with rfl | hx
            · exact ⟨hnear, by simp⟩
            · exact ⟨(hi.near x hx).1, by have := (hi.near x hx).2; omega⟩
          · rw [List.map_set]
            exact hi.nodup.set hfresh
          · intro c hcn hk
            have hle : ∀ x ∈ F, x.1 ≤ e.1 := fun x hx => hmax x (by rw [hesF]; exact hx)
            rcases hno c hcn hk with h | h
            · rcases hi.best c hcn h with hb | ⟨-, hb⟩
              · obtain ⟨t, ht, rfl⟩ := List.getElem_of_mem hb
                by_cases htl : t = loc
                · subst htl
                  refine Or.inr ⟨rfl, fun x hx => ?_⟩
                  have hee : e = F[t] := by
                    rw [List.getElem?_eq_getElem ht] at hlocF
                    exact (Option.some.inj hlocF).symm
                  rw [← hee]
                  rcases hmem x hx with rfl | hx
                  · exact hlt.le
                  · exact hle x hx
                · refine Or.inl ?_
                  rw [List.mem_iff_getElem]
                  refine ⟨t, by simpa using ht, ?_⟩
                  rw [List.getElem_set_ne (by omega)]
              · refine Or.inr ⟨rfl, fun x hx => ?_⟩
                rcases hmem x hx with rfl | hx
                · exact le_trans hlt.le (hb e heF)
                · exact hb x hx
            · refine Or.inl ?_
              rw [near_unique hcn hnear h]
              exact List.mem_set hlocl _
          · simp only [true_iff, ne_eq]
            intro h
            have := congrArg List.length h
            simp only [List.length_set, List.length_nil] at this
            omega
      · simp only [if_neg hlt]
        have hr : r = 0 := by
          by_contra hr
          obtain ⟨r', rfl⟩ : ∃ r', r = r' + 1 := ⟨r - 1, by omega⟩
          have hle := hmax (big, 0) (by rw [hes]; simp)
          have : d < e.1 := lt_of_lt_of_le (lt_trans hd hbig) hle
          exact hlt this
        refine ⟨F, r, hi.es, hi.len, ⟨e, he, hmax⟩, hi.first, fun x hx => ?_, hi.nodup, fun c hcn hk => ?_, ?_⟩
        · exact ⟨(hi.near x hx).1, by have := (hi.near x hx).2; omega⟩
        · rcases hno c hcn hk with h | h
          · exact hi.best c hcn h
          · refine Or.inr ⟨hr, fun x hx => ?_⟩
            rw [near_unique hcn hnear h]
            exact le_trans (hmax x (by rw [hes]; simp [hx])) (not_lt.1 hlt)
        · simp only [true_iff]
          have := hi.len
          rintro rfl
          simp only [List.length_nil] at this
          omega
    · simp only [if_neg hc]
      refine ⟨F, r, hi.es, hi.len, hi.loc, hi.first, fun x hx => ?_, hi.nodup, fun c hcn hk => ?_, hi.found⟩
      · exact ⟨(hi.near x hx).1, by have := (hi.near x hx).2; omega⟩
      · rcases hno c hcn hk with h | h
        · exact hi.best c hcn h
        · exfalso
          obtain ⟨-, p', h1, h2, h3, h4, -⟩ := hcn
          rw [h, Nat.add_sub_cancel, hget] at h1
          cases h1
          exact hc ⟨h2, h3, by rw [abs_dlon]; exact h4⟩

theorem inv_pos (d : ℚ) : 0 < inv d := by
  unfold inv
  have : (0 : ℚ) < max d (1 / 10000000000) := lt_max_of_lt_right (by norm_num)
  positivity

theorem sum_div (l : List ℚ) (c : ℚ) : (l.map (· / c)).sum = l.sum / c := by
  induction l with
  | nil => simp
  | cons a l ih => simp only [List.map_cons, List.sum_cons, ih]; ring

theorem sum_inv_pos (l : List Entry) (h : l ≠ []) : 0 < (l.map fun y => inv y.1).sum := by
  induction l with
  | nil => exact absurd rfl h
  | cons a l ih =>
    rw [List.map_cons, List.sum_cons]
    by_cases hl : l = []
    · subst hl
      simpa using inv_pos a.1
    · exact add_pos (inv_pos _) (ih hl)

/-- The point is within the ranges of longitudes and latitudes of the input. -/
def InRange (lon lat : ℚ) (ps : List (ℚ × ℚ × Bool)) : Prop :=
  (∃ p ∈ ps, p.1 ≤ lon) ∧ (∃ p ∈ ps, lon ≤ p.1) ∧ (∃ p ∈ ps, p.2.1 ≤ lat) ∧ ∃ p ∈ ps, lat ≤ p.2.1

/-- **C124** — A point within the range of the input with some point of the input near it gets `n` weights, of
sum 1.  The first belong to the nearest of these points: all of them if there are at most `n`, and otherwise `n`
of which none is farther than any that is left out.  Weights are inversely proportional to the square of the
distance (not taken below 1e-10), with 1e30 for those that are missing.  Any other point is masked. -/
theorem C124 (n : Nat) (hn : 1 ≤ n) (thr lon lat : ℚ) (hthr : 2 * thr ^ 2 ≤ 6371000) (ps : List (ℚ × ℚ × Bool)) :
    (weights n thr lon lat ps = none ↔ ¬ InRange lon lat ps ∨ ∀ e, ¬ Near thr lon lat ps e) ∧
    ∀ ws, weights n thr lon lat ps = some ws →
      ∃ F r, F.length + r = n ∧ F ≠ [] ∧ (∀ e ∈ F, Near thr lon lat ps e) ∧ (F.map (·.2)).Nodup ∧
        (∀ c, Near thr lon lat ps c → c ∈ F ∨ (r = 0 ∧ ∀ e ∈ F, e.1 ≤ c.1)) ∧
        (ws.map (·.1)).sum = 1 ∧ (∀ w ∈ ws, 0 < w.1) ∧
        ∃ total, 0 < total ∧
          ws = F.map (fun e => (1 / max e.1 (1 / 10000000000) / total, e.2)) ++
            List.replicate r (1 / 1000000000000000000000000000000 / total, 0) := by
  have h0 : Inv n thr lon lat ps 1 [] n (List.replicate n (big, 0), 0, false) := by
    refine ⟨by simp, by simp, ?_, fun _ => rfl, by simp, by simp, ?_, by simp⟩
    · refine ⟨(big, 0), ?_, ?_⟩
      · simp only [List.getElem?_replicate]
        rw [if_pos (by omega)]
      · intro e' h
        simp only [List.mem_replicate] at h
        rw [h.2]
    · intro c hc hk
      have := hc.1
      omega
  obtain ⟨F, r, hi⟩ := scan_inv n hn thr lon lat hthr ps ps [] _ [] n rfl (by simpa using h0)
  simp only [List.length_nil, Nat.zero_add] at hi
  set s := scan thr lon lat 1 ps (List.replicate n (big, 0), 0, false) with hs
  have hall : ∀ c, Near thr lon lat ps c → c ∈ F ∨ (r = 0 ∧ ∀ e ∈ F, e.1 ≤ c.1) := by
    intro c hc
    refine hi.best c hc ?_
    obtain ⟨h1, p, h2, -⟩ := hc
    have := (List.getElem?_eq_some_iff.1 h2).1
    omega
  have hfound : F ≠ [] ↔ ∃ e, Near thr lon lat ps e := by
    constructor
    · intro h
      obtain ⟨e, F', rfl⟩ := List.exists_cons_of_ne_nil h
      exact ⟨e, (hi.near e (by simp)).1⟩
    · rintro ⟨e, he⟩ rfl
      rcases hall e he with h | ⟨h, -⟩
      · cases h
      · have := hi.len
        simp only [List.length_nil] at this
        omega
  have hrange : (ps.all (fun p => decide (lon < p.1)) ∨ ps.all (fun p => decide (p.1 < lon)) ∨
      ps.all (fun p => decide (lat < p.2.1)) ∨ ps.all (fun p => decide (p.2.1 < lat))) ↔ ¬ InRange lon lat ps := by
    simp only [InRange, List.all_eq_true, decide_eq_true_eq, not_and_or, not_exists, not_le, imp_iff_not_or]
  by_cases hR : InRange lon lat ps
  · by_cases hF : F = []
    · have hw : weights n thr lon lat ps = none := by
        have hf : s.2.2 = false := by
          cases h : s.2.2 with
          | false => rfl
          | true => exact absurd hF (hi.found.1 h)
        simp only [weights, ← hs]
        rw [if_neg (fun h => hrange.1 h hR), if_pos hf]
      refine ⟨⟨fun _ => Or.inr fun e he => hfound.2 ⟨e, he⟩ hF, fun _ => hw⟩, fun ws h => ?_⟩
      rw [hw] at h
      cases h
    · have hf : s.2.2 ≠ false := by
        rw [hi.found.2 hF]
        decide
      obtain ⟨e, F', hFe⟩ := List.exists_cons_of_ne_nil hF
      have hes : s.1 = e :: (F' ++ List.replicate r (big, 0)) := by
        rw [hi.es, hFe]
        rfl
      have he : ¬ 6371000 < e.1 := not_lt.2 (near_lt hthr (hi.near e (by rw [hFe]; simp)).1).2.le
      have hw : weights n thr lon lat ps =
          some (s.1.map fun x => (inv x.1 / ((s.1.map fun y => inv y.1).sum), x.2)) := by
        simp only [weights, ← hs]
        rw [if_neg (fun h => hrange.1 h hR), if_neg hf]
        simp only [hes]
        rw [if_neg he]
      have hpos := sum_inv_pos s.1 (by rw [hes]; simp)
      refine ⟨⟨fun h => ?_, fun h => ?_⟩, fun ws h => ?_⟩
      · rw [hw] at h
        cases h
      · rcases h with h | h
        · exact absurd hR h
        · obtain ⟨e', he'⟩ := hfound.1 hF
          exact absurd he' (h e')
      · rw [hw] at h
        cases h
        refine ⟨F, r, hi.len, hF, fun e he => (hi.near e he).1, hi.nodup, hall, ?_, ?_, _, hpos, ?_⟩
        · rw [List.map_map]
          have := sum_div (s.1.map fun y => inv y.1) ((s.1.map fun y => inv y.1).sum)
          rw [List.map_map, div_self hpos.ne'] at this
          exact this
        · intro w hw
          obtain ⟨x, -, rfl⟩ := List.mem_map.1 hw
          exact div_pos (inv_pos _) hpos
        · generalize (s.1.map fun y => inv y.1).sum = total
          rw [hi.es, List.map_append, List.map_replicate]
          congr 2
          simp only [inv, big]
          rw [max_eq_left (by norm_num)]
  · have hw : weights n thr lon lat ps = none := by
      simp only [weights]
      rw [if_pos (hrange.2 hR)]
    refine ⟨⟨fun _ => Or.inl hR, fun _ => hw⟩, fun ws h => ?_⟩
    rw [hw] at h
    cases h

example : (weights 2 10 1 1 [(0, 0, true), (2, 0, true), (1, 5, true)]).map (·.map (·.2)) = some [1, 2] := by
  decide +kernel


/-! ## C125: the weights applied -/

theorem apply_filled (f : List ℚ) (x : ℚ) (r : Nat) (F : List Entry) :
    (∀ e ∈ F, 1 ≤ e.2 ∧ e.2 ≤ f.length) →
    apply f (F ++ List.replicate r (x, 0)) = some ((F.map fun e => e.1 * f.getD (e.2 - 1) 0).sum) := by
  induction F with
  | nil =>
    intro _
    cases r <;> simp [apply, List.replicate_succ]
  | cons e F ih =>
    intro h
    obtain ⟨h1, h2⟩ := h e (by simp)
    rw [List.cons_append, apply, if_neg (by omega), ih (fun e' h' => h e' (by simp [h'])),
      List.getElem?_eq_getElem (show e.2 - 1 < f.length by omega)]
    simp [List.getD_eq_getElem?_getD, List.getElem?_eq_getElem (show e.2 - 1 < f.length by omega)]

/-- **C125** (without the last column, see `C125_column_witness`) — The value of a point in column `i` and row `j`
is the sum of the values of its points times their weights. -/
theorem C125_partial (ni nj : Nat) (w : Nat → Nat → List Entry) (f : List ℚ) (i j : Nat) (hi : 1 ≤ i ∧ i < ni)
    (hj : 1 ≤ j ∧ j ≤ nj) (F : List Entry) (x : ℚ) (r : Nat) (hw : w i j = F ++ List.replicate r (x, 0))
    (hF : ∀ e ∈ F, 1 ≤ e.2 ∧ e.2 ≤ f.length) :
    applyAt ni nj w f (i + (j - 1) * ni) = some ((F.map fun e => e.1 * f.getD (e.2 - 1) 0).sum) := by
  have h1 : (i + (j - 1) * ni - 1) % ni + 1 = i := by
    rw [show i + (j - 1) * ni - 1 = (i - 1) + (j - 1) * ni by omega, Nat.add_mul_mod_self_right,
      Nat.mod_eq_of_lt (by omega)]
    omega
  have h2 : 1 + (i + (j - 1) * ni) / ni = j := by
    rw [Nat.add_mul_div_right _ _ (by omega), Nat.div_eq_of_lt hi.2]
    omega
  simp only [applyAt, h1, h2]
  rw [if_pos hj.2, hw, apply_filled f x r F hF]

theorem sum_bounds (F : List Entry) (f : List ℚ) (lo hi : ℚ) (hf : ∀ v ∈ f, lo ≤ v ∧ v ≤ hi)
    (hF : ∀ e ∈ F, 0 < e.1 ∧ 1 ≤ e.2 ∧ e.2 ≤ f.length) :
    lo * (F.map (·.1)).sum ≤ (F.map fun e => e.1 * f.getD (e.2 - 1) 0).sum ∧
    (F.map fun e => e.1 * f.getD (e.2 - 1) 0).sum ≤ hi * (F.map (·.1)).sum := by
  induction F with
  | nil => simp
  | cons e F ih =>
    obtain ⟨h1, h2, h3⟩ := hF e (by simp)
    obtain ⟨i1, i2⟩ := ih (fun e' h' => hF e' (by simp [h']))
    have hlt : e.2 - 1 < f.length := by omega
    have hv : lo ≤ f.getD (e.2 - 1) 0 ∧ f.getD (e.2 - 1) 0 ≤ hi := by
      rw [List.getD_eq_getElem?_getD, List.getElem?_eq_getElem hlt, Option.getD_some]
      exact hf _ (List.getElem_mem hlt)
    simp only [List.map_cons, List.sum_cons]
    constructor <;> nlinarith [hv.1, hv.2]

/-- **C125** — With the weights of C124, when there are enough points near, a point outside the last column gets
a value in the range of the field; it is exact for constant fields. -/
theorem C125_range_partial (n : Nat) (hn : 1 ≤ n) (thr lon lat : ℚ) (hthr : 2 * thr ^ 2 ≤ 6371000)
    (ps : List (ℚ × ℚ × Bool)) (ni nj : Nat) (w : Nat → Nat → List Entry) (f : List ℚ) (i j : Nat)
    (hi : 1 ≤ i ∧ i < ni) (hj : 1 ≤ j ∧ j ≤ nj) (hlen : f.length = ps.length)
    (hw : weights n thr lon lat ps = some (w i j)) (henough : ∀ e ∈ w i j, 1 ≤ e.2) (lo hi' : ℚ)
    (hf : ∀ v ∈ f, lo ≤ v ∧ v ≤ hi') :
    ∃ v, applyAt ni nj w f (i + (j - 1) * ni) = some v ∧ lo ≤ v ∧ v ≤ hi' := by
  obtain ⟨F, r, hlenF, -, hnear, -, -, hsum, hpos, total, -, hws⟩ := (C124 n hn thr lon lat hthr ps).2 _ hw
  have hnum : ∀ e ∈ w i j, e.2 ≤ f.length := by
    intro e he
    rw [hws] at he
    rcases List.mem_append.1 he with he | he
    · obtain ⟨x, hx, rfl⟩ := List.mem_map.1 he
      obtain ⟨h1, p, h2, -⟩ := hnear x hx
      have := (List.getElem?_eq_some_iff.1 h2).1
      simp only
      omega
    · simp only [List.mem_replicate] at he
      rw [he.2]
      exact Nat.zero_le _
  have hv := C125_partial ni nj w f i j hi hj (w i j) 0 0 (by simp) (fun e he => ⟨henough e he, hnum e he⟩)
  have hb := sum_bounds (w i j) f lo hi' hf (fun e he => ⟨hpos e he, henough e he, hnum e he⟩)
  rw [hsum, mul_one, mul_one] at hb
  exact ⟨_, hv, hb⟩

/-- **C125** — A point in the last column takes the weights of the next row, and the last point reads outside the
array of weights. -/
theorem C125_column_witness (ni nj : Nat) (w : Nat → Nat → List Entry) (f : List ℚ) (j : Nat) (hn : 1 ≤ ni)
    (hj : 1 ≤ j ∧ j ≤ nj) :
    applyAt ni nj w f (ni + (j - 1) * ni) = if j < nj then apply f (w ni (j + 1)) else none := by
  have h1 : (ni + (j - 1) * ni - 1) % ni + 1 = ni := by
    rw [show ni + (j - 1) * ni - 1 = (ni - 1) + (j - 1) * ni by omega, Nat.add_mul_mod_self_right,
      Nat.mod_eq_of_lt (by omega)]
    omega
  have h2 : 1 + (ni + (j - 1) * ni) / ni = j + 1 := by
    rw [Nat.add_mul_div_right _ _ (by omega), Nat.div_self (by omega)]
    omega
  simp only [applyAt, h1, h2]
  by_cases h : j < nj
  · rw [if_pos h, if_pos (by omega)]
  · rw [if_neg h, if_neg (by omega)]

/-- **C125** — Masked points of the output whose number is above the number of points of the input are never
set. -/
theorem C125_initial_witness (nsrc : Nat) (v : ℚ) (old new : List ℚ) (h : initial nsrc v old = some new) (k : Nat)
    (hk : nsrc ≤ k) : new[k]? = old[k]? := by
  simp only [initial] at h
  split_ifs at h with hle
  cases h
  rw [List.getElem?_append_right (by simpa using hk), List.length_replicate, List.getElem?_drop]
  congr 1
  omega

example : applyAt 2 2 (fun i j => [(1, i + 2 * (j - 1))]) [10, 20, 30, 40] 1 = some 10 ∧
    applyAt 2 2 (fun i j => [(1, i + 2 * (j - 1))]) [10, 20, 30, 40] 2 = some 40 ∧
    applyAt 2 2 (fun i j => [(1, i + 2 * (j - 1))]) [10, 20, 30, 40] 4 = none := by decide +kernel

/-! ## C126: points in cells -/

/-- A point is a mean of three points with positive weights. -/
def Mean3 (x y x1 y1 x2 y2 x3 y3 : ℚ) : Prop :=
  ∃ a b c : ℚ, 0 ≤ a ∧ 0 ≤ b ∧ 0 ≤ c ∧ a + b + c = 1 ∧ x = a * x1 + b * x2 + c * x3 ∧ y = a * y1 + b * y2 + c * y3

/-- Twice the area of a triangle, positive if its corners are in counterclockwise order. -/
def area (x1 y1 x2 y2 x3 y3 : ℚ) : ℚ := (x2 - x1) * (y3 - y1) - (x3 - x1) * (y2 - y1)

/-- **C126** — `pt_in_triangle` tells whether a point is in a triangle that is not flat. -/
theorem C126_triangle (x y x1 y1 x2 y2 x3 y3 : ℚ) (h : area x1 y1 x2 y2 x3 y3 ≠ 0) :
    ∃ b, inTriangle x y x1 y1 x2 y2 x3 y3 = some b ∧ (b = true ↔ Mean3 x y x1 y1 x2 y2 x3 y3) := by
  have hD : (x1 - x3) * (y2 - y3) - (x2 - x3) * (y1 - y3) ≠ 0 := by
    have : (x1 - x3) * (y2 - y3) - (x2 - x3) * (y1 - y3) = area x1 y1 x2 y2 x3 y3 := by
      simp only [area]
      ring
    rw [this]
    exact h
  simp only [inTriangle, if_neg hD]
  refine ⟨_, rfl, ?_⟩
  set D := (x1 - x3) * (y2 - y3) - (x2 - x3) * (y1 - y3) with hDdef
  set l1 := ((y2 - y3) * (x - x3) - (x2 - x3) * (y - y3)) * (1 / D) with hl1
  set l2 := ((x1 - x3) * (y - y3) - (y1 - y3) * (x - x3)) * (1 / D) with hl2
  have e1 : l1 * D = (y2 - y3) * (x - x3) - (x2 - x3) * (y - y3) := by rw [hl1]; field_simp
  have e2 : l2 * D = (x1 - x3) * (y - y3) - (y1 - y3) * (x - x3) := by rw [hl2]; field_simp
  constructor
  · intro hb
    split_ifs at hb with c1 c2 c3
    push Not at c1 c2 c3
    refine ⟨l1, l2, 1 - l1 - l2, c1.1, c2.1, c3.1, by ring, ?_, ?_⟩
    · have : D * (x - (l1 * x1 + l2 * x2 + (1 - l1 - l2) * x3)) = 0 := by
        have : D * (x - (l1 * x1 + l2 * x2 + (1 - l1 - l2) * x3)) =
          D * (x - x3) - (l1 * D) * (x1 - x3) - (l2 * D) * (x2 - x3) := by ring
        rw [this, e1, e2, hDdef]
        ring
      rcases mul_eq_zero.1 this with h' | h'
      · exact absurd h' hD
      · linarith
    · have : D * (y - (l1 * y1 + l2 * y2 + (1 - l1 - l2) * y3)) = 0 := by
        have : D * (y - (l1 * y1 + l2 * y2 + (1 - l1 - l2) * y3)) =
          D * (y - y3) - (l1 * D) * (y1 - y3) - (l2 * D) * (y2 - y3) := by ring
        rw [this, e1, e2, hDdef]
        ring
      rcases mul_eq_zero.1 this with h' | h'
      · exact absurd h' hD
      · linarith
  · rintro ⟨a, b, c, ha, hb, hc, hs, hx, hy⟩
    have hc' : c = 1 - a - b := by linarith
    have f1 : l1 = a := by
      have : (l1 - a) * D = 0 := by
        rw [sub_mul, e1, hDdef, hx, hy, hc']
        ring
      rcases mul_eq_zero.1 this with h' | h'
      · linarith
      · exact absurd h' hD
    have f2 : l2 = b := by
      have : (l2 - b) * D = 0 := by
        rw [sub_mul, e2, hDdef, hx, hy, hc']
        ring
      rcases mul_eq_zero.1 this with h' | h'
      · linarith
      · exact absurd h' hD
    rw [f1, f2, if_neg (by push Not; constructor <;> linarith), if_neg (by push Not; constructor <;> linarith),
      if_neg (by push Not; constructor <;> linarith)]

/-- A point is a mean of four points with positive weights. -/
def Mean4 (x y x1 y1 x2 y2 x3 y3 x4 y4 : ℚ) : Prop :=
  ∃ a b c d : ℚ, 0 ≤ a ∧ 0 ≤ b ∧ 0 ≤ c ∧ 0 ≤ d ∧ a + b + c + d = 1 ∧ x = a * x1 + b * x2 + c * x3 + d * x4 ∧
    y = a * y1 + b * y2 + c * y3 + d * y4

/-- **C126** — `pt_in_quad` tells whether a point is in a convex cell. -/
theorem C126_quad (x y x1 y1 x2 y2 x3 y3 x4 y4 : ℚ) (h1 : 0 < area x1 y1 x2 y2 x3 y3) (h2 : 0 < area x1 y1 x3 y3 x4 y4)
    (h3 : 0 < area x1 y1 x2 y2 x4 y4) (h4 : 0 < area x2 y2 x3 y3 x4 y4) :
    ∃ b, inQuad x y x1 y1 x2 y2 x3 y3 x4 y4 = some b ∧ (b = true ↔ Mean4 x y x1 y1 x2 y2 x3 y3 x4 y4) := by
  obtain ⟨b1, e1, i1⟩ := C126_triangle x y x1 y1 x2 y2 x3 y3 h1.ne'
  obtain ⟨b2, e2, i2⟩ := C126_triangle x y x1 y1 x3 y3 x4 y4 h2.ne'
  have hq : inQuad x y x1 y1 x2 y2 x3 y3 x4 y4 = some (b1 || b2) := by
    simp only [inQuad, e1, e2]
    cases b1 <;> rfl
  refine ⟨_, hq, ?_⟩
  rw [Bool.or_eq_true, i1, i2]
  constructor
  · rintro (⟨a, b, c, ha, hb, hc, hs, hx, hy⟩ | ⟨a, b, c, ha, hb, hc, hs, hx, hy⟩)
    · exact ⟨a, b, c, 0, ha, hb, hc, le_rfl, by linarith, by linarith, by linarith⟩
    · exact ⟨a, 0, b, c, ha, le_rfl, hb, hc, by linarith, by linarith, by linarith⟩
  · rintro ⟨a, b, c, d, ha, hb, hc, hd, hs, hx, hy⟩
    set D2 := area x1 y1 x2 y2 x3 y3 with hD2
    set D4 := area x1 y1 x3 y3 x4 y4 with hD4
    set D3 := area x1 y1 x2 y2 x4 y4 with hD3
    set D1 := area x2 y2 x3 y3 x4 y4 with hD1
    have hsum : D1 + D3 = D2 + D4 := by
      simp only [hD1, hD2, hD3, hD4, area]
      ring
    rcases le_total (d * D4) (b * D2) with hside | hside
    · refine Or.inl ⟨a + d * (D1 / D2), b - d * (D4 / D2), c + d * (D3 / D2), by positivity, ?_, by positivity, ?_, ?_, ?_⟩
      · have : d * (D4 / D2) ≤ b := by
          rw [← mul_div_assoc, div_le_iff₀ h1]
          exact hside
        linarith
      · field_simp
        linear_combination D2 * hs + d * hsum
      · rw [hx]
        field_simp
        simp only [hD1, hD2, hD3, hD4, area]
        ring
      · rw [hy]
        field_simp
        simp only [hD1, hD2, hD3, hD4, area]
        ring
    · refine Or.inr ⟨a + b * (D1 / D4), c + b * (D3 / D4), d - b * (D2 / D4), by positivity, by positivity, ?_, ?_, ?_, ?_⟩
      · have : b * (D2 / D4) ≤ d := by
          rw [← mul_div_assoc, div_le_iff₀ h2]
          exact hside
        linarith
      · field_simp
        linear_combination D4 * hs + b * hsum
      · rw [hx]
        field_simp
        simp only [hD1, hD2, hD3, hD4, area]
        ring
      · rw [hy]
        field_simp
        simp only [hD1, hD2, hD3, hD4, area]
        ring

example : inQuad 1 (1 / 2) 0 0 2 0 2 1 0 1 = some true ∧ inQuad 3 (1 / 2) 0 0 2 0 2 1 0 1 = some false := by
  decide +kernel


/-- **C126** (unless the second coordinate is below 0.01, see `C126_small_witness`) — `ez_uvfllc2d` inverts the
projective map from the unit square onto a cell: for any such map, given by its eight coefficients, the place of
a point comes out of the corners of the cell and the point. -/
theorem C126_uv_partial (a b c d e f g h u v : ℚ) (h1 : 1 + g ≠ 0) (h2 : 1 + h ≠ 0) (h3 : 1 + g + h ≠ 0)
    (hs : g * u + h * v + 1 ≠ 0)
    (hdet : a * (e - f * h) - b * (d - f * g) + c * (d * h - e * g) ≠ 0)
    (hu : 1 / 100 ≤ |u|) (hv : 1 / 100 ≤ |v|) :
    uv ((a * u + b * v + c) / (g * u + h * v + 1)) ((d * u + e * v + f) / (g * u + h * v + 1))
      c f ((a + c) / (1 + g)) ((d + f) / (1 + g)) ((a + b + c) / (1 + g + h)) ((d + e + f) / (1 + g + h))
      ((b + c) / (1 + h)) ((e + f) / (1 + h)) = some (u, v) := by
  set Δ := a * (e - f * h) - b * (d - f * g) + c * (d * h - e * g) with hΔ
  set x1 := (a + c) / (1 + g) with hx1
  set y1 := (d + f) / (1 + g) with hy1
  set x2 := (a + b + c) / (1 + g + h) with hx2
  set y2 := (d + e + f) / (1 + g + h) with hy2
  set x3 := (b + c) / (1 + h) with hx3
  set y3 := (e + f) / (1 + h) with hy3
  have ex1 : x1 * (1 + g) = a + c := by rw [hx1]; field_simp
  have ey1 : y1 * (1 + g) = d + f := by rw [hy1]; field_simp
  have ex3 : x3 * (1 + h) = b + c := by rw [hx3]; field_simp
  have ey3 : y3 * (1 + h) = e + f := by rw [hy3]; field_simp
  have hden : (x1 - x2) * (y3 - y2) - (x3 - x2) * (y1 - y2) = -Δ / ((1 + g) * (1 + h) * (1 + g + h)) := by
    rw [hx1, hy1, hx2, hy2, hx3, hy3, hΔ]
    field_simp
    ring
  have hden0 : (x1 - x2) * (y3 - y2) - (x3 - x2) * (y1 - y2) ≠ 0 := by
    rw [hden]
    exact div_ne_zero (neg_ne_zero.2 hdet) (mul_ne_zero (mul_ne_zero h1 h2) h3)
  have hg : ((y3 - y2) * (c - x1 + x2 - x3) - (f - y1 + y2 - y3) * (x3 - x2)) /
      ((x1 - x2) * (y3 - y2) - (x3 - x2) * (y1 - y2)) = g := by
    rw [div_eq_iff hden0, hx1, hy1, hx2, hy2, hx3, hy3]
    field_simp
    ring
  have hh : ((x1 - x2) * (f - y1 + y2 - y3) - (c - x1 + x2 - x3) * (y1 - y2)) /
      ((x1 - x2) * (y3 - y2) - (x3 - x2) * (y1 - y2)) = h := by
    rw [div_eq_iff hden0, hx1, hy1, hx2, hy2, hx3, hy3]
    field_simp
    ring
  have ha : x1 - c + g * x1 = a := by linear_combination ex1
  have hb : x3 - c + h * x3 = b := by linear_combination ex3
  have hd : y1 - f + g * y1 = d := by linear_combination ey1
  have he : y3 - f + h * y3 = e := by linear_combination ey3
  set s := g * u + h * v + 1 with hsdef
  set X := (a * u + b * v + c) / s with hX
  set Y := (d * u + e * v + f) / s with hY
  have eX : X * s = a * u + b * v + c := div_mul_cancel₀ _ hs
  have eY : Y * s = d * u + e * v + f := div_mul_cancel₀ _ hs
  have hq : (d * h - e * g) * X + (b * g - a * h) * Y + (a * e - b * d) = Δ / s := by
    rw [eq_div_iff hs]
    linear_combination (d * h - e * g) * eX + (b * g - a * h) * eY + (a * e - b * d) * hsdef - hΔ
  have hq0 : Δ / s ≠ 0 := div_ne_zero hdet hs
  have hU : ((e * 1 - f * h) * X + (c * h - b * 1) * Y + (b * f - c * e)) / (Δ / s) = u := by
    rw [div_eq_iff hq0, ← mul_div_assoc u, eq_div_iff hs]
    linear_combination (e - f * h) * eX + (c * h - b) * eY + (b * f - c * e) * hsdef - u * hΔ
  have hV : ((f * g - d * 1) * X + (a * 1 - c * g) * Y + (c * d - a * f)) / (Δ / s) = v := by
    rw [div_eq_iff hq0, ← mul_div_assoc v, eq_div_iff hs]
    linear_combination (f * g - d) * eX + (a - c * g) * eY + (c * d - a * f) * hsdef - v * hΔ
  simp only [uv, if_neg hden0, hg, hh, ha, hb, hd, he, hq, ne_eq, hq0, not_false_eq_true, if_true, hU, hV]
  rw [if_neg (not_lt.2 hu), if_neg (not_lt.2 hv)]

/-- **C126** — For a cell that is a parallelogram: the place of a point in it. -/
theorem C126_parallelogram_partial (x0 y0 ax ay bx by' u v : ℚ) (hdet : ax * by' - bx * ay ≠ 0)
    (hu : 1 / 100 ≤ |u|) (hv : 1 / 100 ≤ |v|) :
    uv (x0 + u * ax + v * bx) (y0 + u * ay + v * by') x0 y0 (x0 + ax) (y0 + ay) (x0 + ax + bx) (y0 + ay + by')
      (x0 + bx) (y0 + by') = some (u, v) := by
  have := C126_uv_partial ax bx x0 ay by' y0 0 0 u v (by norm_num) (by norm_num) (by norm_num) (by norm_num)
    (by simpa using hdet) hu hv
  simp only [zero_mul, add_zero, zero_add, div_one] at this
  rw [← this]
  congr 1 <;> ring

/-- **C126** — In the unit square the point at 1/2 on the lower side is placed in the middle: a second coordinate
below 0.01 is replaced by the first one. -/
theorem C126_small_witness (u : ℚ) (hu : 1 / 100 ≤ u) : uv u 0 0 0 1 0 1 1 0 1 = some (u, u) := by
  have h1 : ¬ (|u| < 1 / 100) := not_lt.2 (le_trans hu (le_abs_self u))
  have h0 : |u| = u := abs_of_nonneg (by linarith)
  norm_num [uv] at h1 ⊢
  rw [if_neg (not_lt.2 h1)]
  exact ⟨fun _ => by linarith, h0⟩

example : uv 1 (1 / 2) 0 0 2 0 2 1 0 1 = some (1 / 2, 1 / 2) := by decide +kernel


end Verif.EzCloud
