import Verif.Constnt
import Mathlib.Tactic

namespace Verif.Constnt

/-! # C157: the constants are a map -/

/-- A request. -/
structure Call where
  nom : Name
  v : ℚ
  mode0 : ℕ

/-- The calls of a program, one after the other, until a stop. -/
def run (r4 : ℚ → ℚ) (file : Option (Table × Bool)) : Table → List Call → List Res
  | _, [] => []
  | t, c :: cs =>
    let a := constnt r4 file t c.nom c.v c.mode0
    a.2 :: if a.2 = .stop then [] else run r4 file a.1 cs

/-- The same on a map from names of 8 characters and the count of them. -/
def spec (r4 : ℚ → ℚ) : (Name → Option ℚ) → ℕ → List Call → List Res
  | _, _, [] => []
  | m, k, c :: cs =>
    match c.mode0 % 100, m (cut c.nom) with
    | 0, none => .ret 0 0 :: spec r4 m k cs
    | 0, some x => .ret 1 (if c.mode0 < 100 then r4 x else x) :: spec r4 m k cs
    | 2, some _ => [.stop]
    | 2, none => if k < 200 then .ret 1 c.v :: spec r4 (Function.update m (cut c.nom) (some c.v)) (k + 1) cs else [.stop]
    | 3, some _ => .ret 1 c.v :: spec r4 (Function.update m (cut c.nom) (some c.v)) k cs
    | 3, none => [.stop]
    | _, _ => .ret 0 c.v :: spec r4 m k cs

theorem find_append (t : Table) (n : Name) (v : ℚ) (h : find t n = none) : find (t ++ [(n, v)]) = Function.update (find t) n (some v) := by
  funext a
  induction t with
  | nil =>
    by_cases e : a = n
    · subst e; simp [find]
    · simp [find, e]
  | cons p t ih =>
    obtain ⟨m, w⟩ := p
    rw [find] at h
    split at h
    · exact absurd h (by simp)
    · rename_i hne
      rw [List.cons_append, find, ih h]
      by_cases e : a = n
      · subst e; simp [hne]
      · rw [Function.update_of_ne e, Function.update_of_ne e]; rfl

theorem find_change (t : Table) (n : Name) (v x : ℚ) (h : find t n = some x) : find (change t n v) = Function.update (find t) n (some v) := by
  funext a
  induction t with
  | nil => simp [find] at h
  | cons p t ih =>
    obtain ⟨m, w⟩ := p
    rw [find] at h
    rw [change]
    by_cases e : n = m
    · subst e
      rw [if_pos rfl, find]
      by_cases e2 : a = n
      · subst e2; simp
      · rw [if_neg e2, Function.update_of_ne e2, find, if_neg e2]
    · rw [if_neg e] at h ⊢
      rw [find, ih h]
      by_cases e2 : a = n
      · subst e2; simp [e]
      · rw [Function.update_of_ne e2, Function.update_of_ne e2]; rfl

theorem change_length (t : Table) (n : Name) (v : ℚ) : (change t n v).length = t.length := by
  induction t with
  | nil => rfl
  | cons p t ih =>
    obtain ⟨m, w⟩ := p
    rw [change]; split
    · rfl
    · simp [ih]

theorem unread_change (t : Table) (n : Name) (v : ℚ) : unread (change t n v) = unread t := by
  cases t with
  | nil => rfl
  | cons p t => obtain ⟨m, w⟩ := p; rw [change]; split <;> rfl

theorem unread_append (t : Table) (p : Name × ℚ) (h : unread t = false) : unread (t ++ [p]) = false := by
  cases t with
  | nil => simp [unread] at h
  | cons q t => exact h

/-- **C157**.  Once a table is read, the calls in any order and number do what a map from names does: a value asked for is the last
one given to the name, or the one of the file; a name is added once; a name which is not there is not changed. -/
theorem C157 (r4 : ℚ → ℚ) (file : Option (Table × Bool)) (cs : List Call) (t : Table) (h : unread t = false) :
    run r4 file t cs = spec r4 (find t) t.length cs := by
  induction cs generalizing t with
  | nil => rfl
  | cons c cs ih =>
    rw [run, spec]
    by_cases m4 : c.mode0 % 100 = 4
    · unfold constnt; rw [if_pos m4, m4]
      simp [ih t h]
    have e : constnt r4 file t c.nom c.v c.mode0 = serve r4 t 0 c.nom c.v c.mode0 := by
      unfold constnt; rw [if_neg m4, h]; rfl
    rw [e]; unfold serve
    simp only
    by_cases m0 : c.mode0 % 100 = 0
    · rw [if_pos m0, m0]
      cases hf : find t (cut c.nom) with
      | none => simp [ih t h]
      | some x => simp [ih t h]
    rw [if_neg m0]
    by_cases m2 : c.mode0 % 100 = 2
    · rw [if_pos m2, m2]
      cases hf : find t (cut c.nom) with
      | some x => simp
      | none =>
        by_cases hk : t.length < 200
        · simp only [hk, if_true]
          rw [ih _ (unread_append t _ h), find_append t _ _ hf]
          simp
        · simp [hk]
    rw [if_neg m2]
    by_cases m3 : c.mode0 % 100 = 3
    · rw [if_pos m3, m3]
      cases hf : find t (cut c.nom) with
      | none => simp
      | some x =>
        simp only
        rw [ih _ (by rw [unread_change]; exact h), find_change t _ _ _ hf, change_length]
        simp
    rw [if_neg m3, ih t h]
    generalize c.mode0 % 100 = m at *
    rw [if_neg (by simp)]
    split <;> first | exact absurd rfl m0 | exact absurd rfl m2 | exact absurd rfl m3 | rfl

/-- C157.  The first call reads the file: what it answers is the answer of the table of the file, of which at most 200 records are
taken, unless the table is listed or sent. -/
theorem C157_first (r4 : ℚ → ℚ) (t recs : Table) (ok : Bool) (nom : Name) (v : ℚ) (mode0 : ℕ) (h0 : unread t = true) (h1 : unread recs = false)
    (hm : mode0 % 100 = 0 ∨ mode0 % 100 = 2 ∨ mode0 % 100 = 3) :
    constnt r4 (some (recs, ok)) t nom v mode0 = constnt r4 none (recs.take 200) nom v mode0 := by
  have hne : recs ≠ [] := by rintro rfl; simp [unread] at h1
  have h2 : unread (recs.take 200) = false := by
    cases recs with
    | nil => exact absurd rfl hne
    | cons p t => exact h1
  have m4 : ¬ mode0 % 100 = 4 := by omega
  have m1 : ¬ mode0 % 100 = 1 := by omega
  have e1 : constnt r4 none (recs.take 200) nom v mode0 = serve r4 (recs.take 200) 0 nom v mode0 := by
    rw [constnt, if_neg m4, h2]; rfl
  have e2 : constnt r4 (some (recs, ok)) t nom v mode0 = serve r4 (recs.take 200) (if ok || 200 ≤ recs.length then 1 else 0) nom v mode0 := by
    rw [constnt, if_neg m4, h0, if_pos rfl]
    simp only [if_neg hne, if_neg m1]
  rw [e1, e2]
  unfold serve
  rcases hm with hm | hm | hm <;> simp [hm]

/-- The characters of a string. -/
def chars (s : String) : List ℕ := s.toList.map Char.toNat

def omega : Table := [(cut (chars "OMEGA"), 7 / 100000), (cut (chars "OMEGA"), 8)]

example : unread omega = false ∧ run (fun x => x) none omega [⟨chars "OMEGA", 0, 0⟩, ⟨chars "PI", 3, 2⟩, ⟨chars "PI", 4, 3⟩, ⟨chars "PI", 0, 100⟩, ⟨chars "PI", 5, 2⟩, ⟨chars "PI", 0, 0⟩] =
    [.ret 1 (7 / 100000), .ret 1 3, .ret 1 4, .ret 1 4, .stop] := by decide +kernel

example : unread [] = true ∧ constnt (fun x => x) (some (omega, true)) [] (chars "OMEGA") 0 0 = (omega, .ret 1 (7 / 100000)) := by decide +kernel

/-- C157.  Two names are one if they agree in 8 characters, where a shorter one is filled with blanks. -/
theorem C157_names (a b : Name) : cut a = cut b ↔ ∀ i < 8, a.getD i 32 = b.getD i 32 := by
  have hl : ∀ n : Name, (cut n).length = 8 := by intro n; simp [cut]; omega
  have hg : ∀ (n : Name) (i : ℕ), i < 8 → (cut n)[i]? = some (n.getD i 32) := by
    intro n i hi
    unfold cut
    by_cases h : i < n.length
    · rw [List.getElem?_append_left (by simp; omega), List.getElem?_take, if_pos hi, List.getElem?_eq_getElem h]
      simp [h]
    · rw [List.getElem?_append_right (by simp; omega), List.getElem?_replicate, if_pos (by simp; omega)]
      simp [h]
  constructor
  · intro h i hi
    have := hg a i hi
    rw [h, hg b i hi] at this
    exact (Option.some.inj this).symm
  · intro h
    apply List.ext_getElem?
    intro i
    by_cases hi : i < 8
    · rw [hg a i hi, hg b i hi, h i hi]
    · rw [List.getElem?_eq_none (by rw [hl]; omega), List.getElem?_eq_none (by rw [hl]; omega)]

example : cut (chars "PI") = cut (chars "PI  ") ∧ cut (chars "TEMPERAT") ≠ cut (chars "TEMPERA") := by decide +kernel

/-- C157.  Names which agree in 8 characters are one name. -/
theorem C157_long_witness : run (fun x => x) none omega [⟨chars "TEMPERATURE", 1, 2⟩, ⟨chars "TEMPERATE", 0, 0⟩] = [.ret 1 1, .ret 1 1] := by
  decide +kernel

/-- C157.  The list of the table is given by the first call only: later ones say that they failed. -/
theorem C157_list_witness : run (fun x => x) (some (omega, true)) [] [⟨[], 0, 1⟩, ⟨[], 0, 1⟩] = [.ret 1 0, .ret 0 0] := by decide +kernel

/-- C157.  With a blank name in the first record of the file each call reads it again and what was added is lost. -/
theorem C157_blank_witness :
    run (fun x => x) (some ((blank, 0) :: omega, true)) [] [⟨chars "PI", 3, 2⟩, ⟨chars "PI", 0, 0⟩] = [.ret 1 3, .ret 0 0] := by decide +kernel


end Verif.Constnt
