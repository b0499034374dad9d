import Verif.Ftn2c
import Mathlib.Tactic

namespace Verif.Ftn2c

/-! # Copies of strings with filling, and a file in an array: what is kept -/

/-- A string with neither NUL nor a blank at its end. -/
def Str (s : List Nat) : Prop := s ≠ [] ∧ (∀ c ∈ s, c ≠ 0) ∧ s.getLast? ≠ some 32

theorem strip_blanks (k : Nat) (t : List Nat) (h : t ≠ []) (hh : t.head? ≠ some 32) :
    strip (List.replicate k 32 ++ t) = some t := by
  induction k with
  | zero => cases t with
    | nil => exact absurd rfl h
    | cons c cs => simp at hh; simp [strip, hh]
  | succ k ih => simpa [List.replicate_succ, strip] using ih

theorem tw {l : List Nat} (h : ∀ c ∈ l, (c != 0) = true) : l.takeWhile (· != 0) = l := by
  induction l with
  | nil => rfl
  | cons c cs ih => rw [List.takeWhile_cons, if_pos (h c (by simp)), ih fun d hd => h d (by simp [hd])]

theorem upto_eq (s r : List Nat) (k lsrc : Nat) (hs : ∀ c ∈ s, c ≠ 0) (hl : s.length + k ≤ lsrc)
    (hr : lsrc = s.length + k ∨ r.head? = some 0) : upto (s ++ List.replicate k 32 ++ r) lsrc = s ++ List.replicate k 32 := by
  have hall : ∀ c ∈ s ++ List.replicate k 32, (c != 0) = true := by
    intro c hc
    rcases List.mem_append.1 hc with h | h
    · simpa using hs c h
    · simp [(List.mem_replicate.1 h).2]
  have hlen : (s ++ List.replicate k 32).length = s.length + k := by simp
  rw [upto]
  rcases hr with h | h
  · rw [h, List.take_left' hlen, tw hall]
  · cases r with
    | nil => simp at h
    | cons c cs =>
      simp at h
      subst h
      by_cases he : lsrc = s.length + k
      · rw [he, List.take_left' hlen, tw hall]
      · obtain ⟨m, hm⟩ : ∃ m, lsrc = (s.length + k) + (m + 1) := ⟨lsrc - (s.length + k) - 1, by omega⟩
        rw [hm, ← hlen, List.take_length_add_append, List.take_succ_cons,
          List.takeWhile_append_of_pos hall]
        simp

/-- The trimmed string is copied and its length returned; it is refused, and nothing written, if it is too long.  The source ends at a NUL or at
its length. -/
theorem C153_copy (s r d : List Nat) (k lsrc ldest pad : Nat) (hs : Str s) (hl : s.length + k ≤ lsrc)
    (hr : lsrc = s.length + k ∨ r.head? = some 0) (hd : d.length = ldest) :
    (s.length < ldest ∨ (s.length = ldest ∧ pad ≠ 0) →
      ∃ d', copy (s ++ List.replicate k 32 ++ r) (some d) lsrc ldest pad = some ((s.length : Int), some d') ∧ d'.length = ldest ∧
        d'.take s.length = s ∧ (pad ≠ 0 → ∀ i, s.length ≤ i → i < ldest → d'[i]? = some pad) ∧
        (pad = 0 → d'[s.length]? = some 0 ∧ ∀ i, s.length < i → d'[i]? = d[i]?)) ∧
    (ldest < s.length ∨ (s.length = ldest ∧ pad = 0) →
      copy (s ++ List.replicate k 32 ++ r) (some d) lsrc ldest pad = some (-1, some d)) ∧
    copy (s ++ List.replicate k 32 ++ r) none lsrc ldest pad = some ((s.length : Int), none) := by
  obtain ⟨h1, h2, h3⟩ := hs
  have hst : strip (upto (s ++ List.replicate k 32 ++ r) lsrc).reverse = some s.reverse := by
    rw [upto_eq s r k lsrc h2 hl hr, List.reverse_append, List.reverse_replicate]
    exact strip_blanks k s.reverse (by simpa using h1) (by simpa using h3)
  refine ⟨fun h => ?_, fun h => ?_, ?_⟩
  · simp only [copy, hst, List.reverse_reverse]
    rw [if_neg (by omega), if_neg (by rintro ⟨a, b⟩; omega)]
    by_cases hp : pad = 0
    · rw [if_neg (by simpa using hp)]
      refine ⟨_, rfl, by simp; omega, by simp, fun h' => absurd hp h', fun _ => ⟨by simp, fun i hi => ?_⟩⟩
      rw [List.getElem?_append_right (by omega)]
      obtain ⟨m, hm⟩ : ∃ m, i = s.length + (m + 1) := ⟨i - s.length - 1, by omega⟩
      rw [hm, Nat.add_sub_cancel_left, List.getElem?_cons_succ, List.getElem?_drop]
      congr 1
      omega
    · rw [if_pos hp]
      refine ⟨_, rfl, by simp; omega, by simp, fun _ i hi hlt => ?_, fun h' => absurd h' hp⟩
      rw [List.getElem?_append_left (by simp; omega), List.getElem?_append_right (by omega), List.getElem?_replicate,
        if_pos (by omega)]
  · simp only [copy, hst, List.reverse_reverse]
    rcases h with h | ⟨h, hp⟩
    · rw [if_pos h]
    · rw [if_neg (by omega), if_pos ⟨hp, h⟩]
  · simp only [copy, hst, List.reverse_reverse]

example : copy [65, 32, 66, 32, 0, 7] (some [1, 2, 3, 4, 5]) 6 5 0 = some (3, some [65, 32, 66, 0, 5]) ∧
    copy [65, 32] (some [1, 2, 3]) 2 3 42 = some (1, some [65, 42, 42]) ∧ copy [65, 66] (some [1]) 2 1 32 = some (-1, some [1]) := by
  decide +kernel

/-- A string which is empty or all blank is a fault: the character before it is read. -/
theorem C153_blank_witness (k lsrc ldest pad : Nat) (r : List Nat) (d : Option (List Nat)) (hl : k ≤ lsrc)
    (hr : lsrc = k ∨ r.head? = some 0) : copy (List.replicate k 32 ++ r) d lsrc ldest pad = none := by
  have h := upto_eq [] r k lsrc (by simp) (by simpa using hl) (by simpa using hr)
  have hs : ∀ k, strip (List.replicate k 32) = none := by
    intro k
    induction k with
    | zero => rfl
    | succ k ih => simpa [List.replicate_succ, strip] using ih
  simp only [List.nil_append] at h
  simp only [copy, h, List.reverse_replicate, hs]

theorem copy_pad (s : List Nat) (d : List Nat) (lsrc ldest : Nat) (hs : Str s) (h1 : s.length < lsrc) (h2 : s.length ≤ ldest)
    (hd : d.length = ldest) :
    copy (s ++ [0]) (some d) lsrc ldest 32 = some ((s.length : Int), some (s ++ List.replicate (ldest - s.length) 32)) := by
  obtain ⟨a1, a2, a3⟩ := hs
  have hu := upto_eq s [0] 0 lsrc a2 (by omega) (Or.inr rfl)
  simp only [List.replicate_zero, List.append_nil] at hu
  have hst : strip (s.reverse) = some s.reverse := by
    have := strip_blanks 0 s.reverse (by simpa using a1) (by simpa using a3)
    simpa using this
  simp only [copy, hu, hst, List.reverse_reverse]
  rw [if_neg (by omega), if_neg (by simp), if_pos (by simp), List.drop_of_length_le (by omega)]
  simp

theorem copy_nul (s : List Nat) (d : List Nat) (k ldest : Nat) (hs : Str s) (h2 : s.length < ldest)  :
    copy (s ++ List.replicate k 32) (some d) (s.length + k) ldest 0 = some ((s.length : Int), some (s ++ 0 :: d.drop (s.length + 1))) := by
  obtain ⟨a1, a2, a3⟩ := hs
  have hu := upto_eq s [] k (s.length + k) a2 (by omega) (Or.inl rfl)
  simp only [List.append_nil] at hu
  have hst := strip_blanks k s.reverse (by simpa using a1) (by simpa using a3)
  simp only [copy, hu, List.reverse_append, List.reverse_replicate, hst, List.reverse_reverse]
  rw [if_neg (by omega), if_neg (by rintro ⟨_, b⟩; omega), if_neg (by simp)]

/-- An array of C strings becomes the array of Fortran strings of `n` characters, and these the C strings again. -/
theorem C153_arrays (ss : List (List Nat)) (n lc : Nat) (d : List Nat) (ds : List (List Nat)) (hs : ∀ s ∈ ss, Str s ∧ s.length ≤ n ∧ s.length < lc)
    (hd : d.length = ss.length * n) (hds : ds.length = ss.length) :
    ∃ f, cToF lc n 32 (ss.map (· ++ [0])) d = some (0, f) ∧
      f = (ss.map fun s => s ++ List.replicate (n - s.length) 32).flatten ∧
      ∃ cs, fToC n lc 0 f ds = some (0, cs) ∧ cs.map (fun c => c.takeWhile (· != 0)) = ss := by
  induction ss generalizing d ds with
  | nil =>
    have : ds = [] := by simpa using hds
    subst this
    have : d = [] := by simpa using hd
    subst this
    exact ⟨[], rfl, rfl, [], rfl, rfl⟩
  | cons s ss ih =>
    obtain ⟨h1, h2, h3⟩ := hs s (by simp)
    have hd' : d.length = ss.length * n + n := by rw [hd, List.length_cons]; ring
    cases ds with
    | nil => simp at hds
    | cons e es =>
      obtain ⟨f, e1, e2, cs, e3, e4⟩ := ih (d.drop n) es (fun t ht => hs t (by simp [ht])) (by simp; omega) (by simpa using hds)
      refine ⟨s ++ List.replicate (n - s.length) 32 ++ f, ?_, by simp [e2], ?_⟩
      · rw [List.map_cons, cToF, copy_pad s (d.take n) lc n h1 h3 h2 (by simp; omega)]
        simp only []
        rw [if_neg (by omega), e1]
        simp
      · refine ⟨(s ++ 0 :: e.drop (s.length + 1)) :: cs, ?_, ?_⟩
        · have hl : (s ++ List.replicate (n - s.length) 32).length = n := by simp; omega
          have hc := copy_nul s e (n - s.length) lc h1 h3
          rw [show s.length + (n - s.length) = n by omega] at hc
          rw [fToC, List.take_left' hl, List.drop_left' hl, hc]
          simp only []
          rw [if_neg (by omega), e3]
          rfl
        · rw [List.map_cons, e4]
          congr 1
          rw [List.takeWhile_append_of_pos (by simpa using h1.2.1)]
          simp

example : cToF 9 3 32 [[65, 0], [66, 67, 0]] [1, 2, 3, 4, 5, 6] = some (0, [65, 32, 32, 66, 67, 32]) ∧
    fToC 3 4 0 [65, 32, 32, 66, 67, 32] [[1, 2, 3, 4], [5, 6, 7, 8]] = some (0, [[65, 0, 3, 4], [66, 67, 0, 8]]) := by decide +kernel

/-- A file which fits into the array is written again as it was, over any file; the first element is the last index used. -/
theorem C154_round_trip (file old : List Nat) (nw : Nat) (h2 : 2 ≤ nw) (h : file.length ≤ (nw - 2) * 4) :
    toFile (fromFile file nw) old = file ∧ (fromFile file nw).nchar = file.length ∧
    (fromFile file nw).last ≤ nw ∧ 4 * ((fromFile file nw).last - 2) < file.length + 4 ∧
    file.length ≤ 4 * ((fromFile file nw).last - 2) := by
  have e : file.take ((nw - 2) * 4) = file := List.take_of_length_le h
  refine ⟨?_, ?_, ?_, ?_, ?_⟩
  · simp only [toFile, fromFile, e, List.take_length]
    exact List.take_left' rfl
  all_goals simp only [fromFile, e]
  all_goals omega

/-- A larger file is cut without a sign of it: the last index is `nw`, as for a file which just fits, and not `nw - 2`. -/
theorem C154_cut_witness (file : List Nat) (nw : Nat) (h2 : 2 < nw) (h : (nw - 2) * 4 ≤ file.length) :
    fromFile file nw = fromFile (file.take ((nw - 2) * 4)) nw ∧ (fromFile file nw).last = nw := by
  refine ⟨by simp [fromFile, List.take_take], ?_⟩
  simp only [fromFile, List.length_take]
  omega

example : fromFile [1, 2, 3, 4, 5] 4 = ⟨4, 5, [1, 2, 3, 4, 5]⟩ ∧ toFile ⟨4, 5, [1, 2, 3, 4, 5]⟩ [9, 9, 9, 9, 9, 9, 9] = [1, 2, 3, 4, 5] := by
  decide +kernel

end Verif.Ftn2c
