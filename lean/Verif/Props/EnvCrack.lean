import Verif.EnvCrack
import Mathlib.Tactic

namespace Verif.EnvCrack

/-! # C148: options in environment variables -/

/-- A character which has no meaning of its own. -/
def clean (c : Char) : Bool := !isSpace c && !([';', '=', ',', '[', ']', '(', ')', '{', '}', '\"', '\''].contains c)

/-- A word: some such characters. -/
def Word (w : List Char) : Prop := w ≠ [] ∧ ∀ c ∈ w, clean c = true

/-- Words with a character between them. -/
def join (sep : Char) : List (List Char) → List Char
  | [] => []
  | [w] => w
  | w :: ws => w ++ sep :: join sep ws

/-- A variable as a user writes it: its name, its values, and the brackets around them if there are any. -/
structure Var where
  name : List Char
  vals : List (List Char)
  brackets : Option (Char × Char)

/-- Names and values are words; a list in brackets has two values or more. -/
def Var.ok (v : Var) : Prop :=
  Word v.name ∧ v.vals ≠ [] ∧ (∀ w ∈ v.vals, Word w) ∧
    (v.brackets = none ∨ (v.brackets ∈ [some ('[', ']'), some ('(', ')'), some ('{', '}')] ∧ 2 ≤ v.vals.length))

def Var.text (v : Var) : List Char :=
  v.name ++ '=' :: match v.brackets with
    | none => join ',' v.vals
    | some (a, z) => a :: join ',' v.vals ++ [z]

/-- What is meant: the values in order, counted from 1. -/
def Var.calls (v : Var) : List Call := (v.vals.zipIdx 1).map fun p => (v.name.map upper, p.2, p.1)

theorem tokens_run (d : Char → Bool) : ∀ (a acc s : List Char), (∀ c ∈ a, d c = false) →
    tokens d acc (a ++ s) = tokens d (acc ++ a) s := by
  intro a
  induction a with
  | nil => intro acc s _; simp
  | cons c a ih =>
    intro acc s h
    rw [List.cons_append, tokens, h c (by simp)]
    simp only [Bool.false_eq_true, if_false]
    rw [ih _ _ (fun x hx => h x (by simp [hx]))]
    simp

theorem tokens_one (d : Char → Bool) (a : List Char) (ha : a ≠ []) (h : ∀ c ∈ a, d c = false) : tokens d [] a = [a] := by
  have := tokens_run d a [] [] h
  simp only [List.append_nil, List.nil_append] at this
  rw [this, tokens]
  simp [ha]

theorem tokens_cons (d : Char → Bool) (a s : List Char) (x : Char) (ha : a ≠ []) (h : ∀ c ∈ a, d c = false) (hx : d x = true) :
    tokens d [] (a ++ x :: s) = a :: tokens d [] s := by
  rw [tokens_run d a [] _ h, List.nil_append, tokens, hx]
  simp [ha]

theorem tokens_join (d : Char → Bool) (x : Char) (hx : d x = true) : ∀ ws : List (List Char),
    (∀ w ∈ ws, w ≠ [] ∧ ∀ c ∈ w, d c = false) → tokens d [] (join x ws) = ws := by
  intro ws
  induction ws with
  | nil => intro _; rfl
  | cons w ws ih =>
    intro h
    obtain ⟨h1, h2⟩ := h w (by simp)
    cases ws with
    | nil => exact tokens_one d w h1 h2
    | cons w' ws =>
      rw [show join x (w :: w' :: ws) = w ++ x :: join x (w' :: ws) from rfl, tokens_cons d _ _ _ h1 h2 hx,
        ih (fun v hv => h v (by simp [hv]))]

theorem join_mem (x : Char) : ∀ (ws : List (List Char)) (c : Char), c ∈ join x ws → c = x ∨ ∃ w ∈ ws, c ∈ w := by
  intro ws
  induction ws with
  | nil => intro c h; simp [join] at h
  | cons w ws ih =>
    intro c h
    cases ws with
    | nil => exact Or.inr ⟨w, by simp, h⟩
    | cons w' ws =>
      rw [show join x (w :: w' :: ws) = w ++ x :: join x (w' :: ws) from rfl] at h
      rcases List.mem_append.mp h with h | h
      · exact Or.inr ⟨w, by simp, h⟩
      · rcases List.mem_cons.mp h with h | h
        · exact Or.inl h
        · rcases ih c h with h | ⟨v, hv, hc⟩
          · exact Or.inl h
          · exact Or.inr ⟨v, by simp [hv], hc⟩

theorem clean_no {c : Char} (h : clean c = true) : isSpace c = false ∧ c ≠ ';' ∧ c ≠ '=' ∧ c ≠ ',' ∧ c ≠ '[' ∧ c ≠ ']' ∧
    c ≠ '(' ∧ c ≠ ')' ∧ c ≠ '{' ∧ c ≠ '}' ∧ c ≠ '\"' ∧ c ≠ '\'' := by
  simpa [clean] using h

theorem space_no {c : Char} (h : isSpace c = false) : c ≠ ' ' := by
  rintro rfl; simp [isSpace] at h

theorem word_comma {w : List Char} (h : Word w) : w ≠ [] ∧ ∀ c ∈ w, comma c = false :=
  ⟨h.1, fun c hc => by
    have h1 := clean_no (h.2 c hc)
    simp [comma, h1.2.2.2.1, space_no h1.1]⟩

theorem trim_id {s : List Char} (hs : s ≠ []) (h1 : isSpace (s.head hs) = false) (h2 : isSpace (s.getLast hs) = false) :
    trimRight (trimLeft s) = s := by
  have e1 : trimLeft s = s := by
    cases s with
    | nil => exact absurd rfl hs
    | cons c s => simp only [List.head_cons] at h1; simp [trimLeft, h1]
  rw [e1, trimRight]
  have : s.reverse.dropWhile isSpace = s.reverse := by
    have hr : s.reverse ≠ [] := by simpa using hs
    obtain ⟨c, t, hc⟩ := List.exists_cons_of_ne_nil hr
    have : c = s.getLast hs := by
      have h := List.head_reverse (l := s) hr
      rw [← h]; simp [hc]
    rw [hc, List.dropWhile_cons_of_neg]
    rw [this, h2]; simp
  rw [this, List.reverse_reverse]

theorem word_trim {w : List Char} (h : Word w) : trimRight (trimLeft w) = w :=
  trim_id h.1 (clean_no (h.2 _ (List.head_mem h.1))).1 (clean_no (h.2 _ (List.getLast_mem h.1))).1

theorem number_eq (name : List Char) : ∀ (ws : List (List Char)) (i : Nat), (∀ w ∈ ws, Word w) →
    number name i ws = (ws.zipIdx i).map fun p => (name, p.2, p.1) := by
  intro ws
  induction ws with
  | nil => intro i _; rfl
  | cons w ws ih =>
    intro i h
    rw [number, word_trim (h w (by simp)), ih _ (fun v hv => h v (by simp [hv]))]
    simp

theorem join_ends : ∀ (ws : List (List Char)), ws ≠ [] → (∀ w ∈ ws, Word w) →
    ∃ (a : Char) (s : List Char), join ',' ws = a :: s ∧ clean a = true ∧ clean ((a :: s).getLastD a) = true := by
  intro ws
  induction ws with
  | nil => intro h; exact absurd rfl h
  | cons w ws ih =>
    intro _ h
    obtain ⟨h1, h2⟩ := h w (by simp)
    cases ws with
    | nil =>
      obtain ⟨a, s, hw⟩ := List.exists_cons_of_ne_nil h1
      refine ⟨a, s, hw, h2 a (by simp [hw]), ?_⟩
      rw [List.getLastD_cons, ← List.getLast_eq_getLastD (l := s) (a := a)]
      apply h2
      rw [hw]; exact List.getLast_mem (by simp)
    | cons w' ws =>
      obtain ⟨a', s', e, _, e3⟩ := ih (by simp) (fun v hv => h v (by simp [hv]))
      obtain ⟨a, s, hw⟩ := List.exists_cons_of_ne_nil h1
      refine ⟨a, s ++ ',' :: a' :: s', ?_, h2 a (by simp [hw]), ?_⟩
      · rw [show join ',' (w :: w' :: ws) = w ++ ',' :: join ',' (w' :: ws) from rfl, e, hw]; rfl
      · have : (a :: (s ++ ',' :: a' :: s')).getLastD a = (a' :: s').getLastD a' := by
          simp [List.getLastD_eq_getLast?, List.getLast?_append, List.getLast?_cons]
        rw [this]; exact e3

theorem checkEnds_clean {a z : Char} (ha : clean a = true) (hz : clean z = true) : checkEnds a z = .plain := by
  obtain ⟨_, _, _, _, a1, a2, a3, a4, a5, a6, a7, a8⟩ := clean_no ha
  obtain ⟨_, _, _, _, z1, z2, z3, z4, z5, z6, z7, z8⟩ := clean_no hz
  simp [checkEnds, a1, a3, a5, a7, a8, z2, z3, z6, z7, z8]

theorem name_upper {n : List Char} (h : Word n) : trimRight (trimLeft (n.map upper)) = n.map upper := by
  have hs : ∀ c, clean c = true → isSpace (upper c) = false := by
    intro c hc
    have h1 := (clean_no hc).1
    unfold upper
    split
    · rename_i hr
      have : ∀ k, 97 ≤ k → k ≤ 122 → isSpace (Char.ofNat (k - 32)) = false := by decide +kernel
      exact this _ hr.1 hr.2
    · exact h1
  have hne : n.map upper ≠ [] := by simpa using h.1
  refine trim_id hne ?_ ?_
  · rw [List.head_map]; exact hs _ (h.2 _ (List.head_mem h.1))
  · rw [List.getLast_map]; exact hs _ (h.2 _ (List.getLast_mem h.1))

/-- The values of one variable. -/
theorem values_spec {v : Var} (hv : v.ok) (name : List Char) (index : Nat) (out : List Call) (t : List Char)
    (ht : t = match v.brackets with | none => join ',' v.vals | some (a, z) => a :: join ',' v.vals ++ [z]) :
    values name [t] index out = .go (out ++ (v.vals.zipIdx 1).map fun p => (name, p.2, p.1)) v.vals.length := by
  obtain ⟨h1, h2, h3, h4⟩ := hv
  obtain ⟨a, s, e1, e2, e3⟩ := join_ends v.vals h2 h3
  have htok : tokens comma [] (join ',' v.vals) = v.vals :=
    tokens_join comma ',' rfl _ (fun w hw => word_comma (h3 w hw))
  obtain ⟨u, us, hus⟩ := List.exists_cons_of_ne_nil h2
  rcases h4 with h4 | ⟨h4, h5⟩
  · rw [h4] at ht
    simp only at ht
    have htr : trimRight (trimLeft t) = a :: s := by
      rw [ht, e1]
      refine trim_id (by simp) (clean_no e2).1 ?_
      rw [List.getLastD_cons, ← List.getLast_eq_getLastD (l := s) (a := a)] at e3
      exact (clean_no e3).1
    rw [values, htr]
    simp only [checkEnds_clean e2 e3]
    rw [← e1, htok, hus]
    simp only [List.length_cons]
    rw [← List.length_cons (a := u), ← hus, number_eq name _ 1 h3]
  · obtain ⟨x, z, hb, hxz⟩ : ∃ x z, v.brackets = some (x, z) ∧ checkEnds x z = .quotes ∧ isSpace x = false ∧ isSpace z = false := by
      simp only [List.mem_cons, List.not_mem_nil, or_false] at h4
      rcases h4 with h | h | h <;> exact ⟨_, _, h, by decide, by decide, by decide⟩
    rw [hb] at ht
    simp only at ht
    have htr : trimRight (trimLeft t) = x :: (join ',' v.vals ++ [z]) := by
      rw [ht]
      refine trim_id (by simp) hxz.2.1 ?_
      simpa using hxz.2.2
    have hlast : (x :: (join ',' v.vals ++ [z])).getLastD x = z := by
      rw [← List.cons_append, List.getLastD_concat]
    have hrem : removeQuotes (x :: (join ',' v.vals ++ [z])) = some (join ',' v.vals) := by
      simp [removeQuotes]
    have hcomma : (join ',' v.vals).contains ',' = true := by
      rw [hus] at h5 ⊢
      cases us with
      | nil => simp at h5
      | cons u' us => simp [join]
    rw [values, htr]
    simp only [hlast, hxz.1, hrem, hcomma, if_true]
    rw [htok, hus]
    simp only [List.length_cons]
    rw [← List.length_cons (a := u), ← hus, number_eq name _ 1 h3]

theorem text_tokens {v : Var} (hv : v.ok) : ∃ t, tokens equals [] v.text = [v.name, t] ∧
    t = match v.brackets with | none => join ',' v.vals | some (a, z) => a :: join ',' v.vals ++ [z] := by
  obtain ⟨h1, h2, h3, h4⟩ := hv
  obtain ⟨a, s, e1, e2, e3⟩ := join_ends v.vals h2 h3
  have hj : ∀ c ∈ join ',' v.vals, equals c = false := by
    intro c hc
    rcases join_mem ',' _ c hc with rfl | ⟨w, hw, hcw⟩
    · rfl
    · have := clean_no ((h3 w hw).2 c hcw)
      simp [equals, this.2.2.1]
  have hn : ∀ c ∈ v.name, equals c = false := fun c hc => by
    have := clean_no (h1.2 c hc)
    simp [equals, this.2.2.1]
  refine ⟨_, ?_, rfl⟩
  unfold Var.text
  rw [tokens_cons equals _ _ '=' h1.1 hn rfl]
  congr 1
  apply tokens_one
  · rcases h4 with h | ⟨h, _⟩
    · rw [h]; simp [e1]
    · simp only [List.mem_cons, List.not_mem_nil, or_false] at h
      rcases h with h | h | h <;> rw [h] <;> simp
  · rcases h4 with h | ⟨h, _⟩
    · rw [h]; exact hj
    · simp only [List.mem_cons, List.not_mem_nil, or_false] at h
      rcases h with h | h | h <;> rw [h] <;> intro c hc <;> simp only [List.cons_append, List.mem_cons, List.mem_append,
        List.not_mem_nil, or_false] at hc <;> rcases hc with rfl | hc | rfl <;> first | rfl | exact hj c hc

theorem text_semi {v : Var} (hv : v.ok) : v.text ≠ [] ∧ ∀ c ∈ v.text, semi c = false := by
  obtain ⟨h1, h2, h3, h4⟩ := hv
  have hj : ∀ c ∈ join ',' v.vals, semi c = false := by
    intro c hc
    rcases join_mem ',' _ c hc with rfl | ⟨w, hw, hcw⟩
    · rfl
    · have := clean_no ((h3 w hw).2 c hcw)
      simp [semi, this.2.1]
  refine ⟨by simp [Var.text], ?_⟩
  intro c hc
  unfold Var.text at hc
  rcases List.mem_append.mp hc with hc | hc
  · have := clean_no (h1.2 c hc)
    simp [semi, this.2.1]
  · rcases List.mem_cons.mp hc with rfl | hc
    · rfl
    · rcases h4 with h | ⟨h, _⟩
      · rw [h] at hc; exact hj c hc
      · simp only [List.mem_cons, List.not_mem_nil, or_false] at h
        rcases h with h | h | h <;> rw [h] at hc <;> simp only [List.cons_append, List.mem_cons, List.mem_append,
          List.not_mem_nil, or_false] at hc <;> rcases hc with rfl | hc | rfl <;> first | rfl | exact hj c hc

theorem varLoop_spec : ∀ (vs : List Var) (index : Nat) (out : List Call), (∀ v ∈ vs, v.ok) →
    varLoop (vs.map Var.text) index out = some (out ++ vs.flatMap Var.calls) := by
  intro vs
  induction vs with
  | nil => intro index out _; simp [varLoop]
  | cons v vs ih =>
    intro index out h
    have hv := h v (by simp)
    obtain ⟨t, h1, h2⟩ := text_tokens hv
    rw [List.map_cons, varLoop, h1]
    simp only [name_upper hv.1, values_spec hv _ index out t h2]
    rw [ih _ _ (fun w hw => h w (by simp [hw]))]
    simp [Var.calls]

/-- C148.  Variables written as `NAME=v1,v2,...`, or with two values or more in brackets, separated by semicolons, are taken
apart as meant: the user function gets each value with its place. -/
theorem C148 (vs : List Var) (hne : vs ≠ []) (hv : ∀ v ∈ vs, v.ok) (h32 : vs.length ≤ 32) (hlen : ∀ v ∈ vs, v.text.length < 255) :
    cracker (join ';' (vs.map Var.text)) = some (vs.flatMap Var.calls) := by
  have htok : tokens semi [] (join ';' (vs.map Var.text)) = vs.map Var.text :=
    tokens_join semi ';' rfl _ (fun w hw => by
      obtain ⟨v, hvm, rfl⟩ := List.mem_map.mp hw
      exact text_semi (hv v hvm))
  obtain ⟨v, vs', e⟩ := List.exists_cons_of_ne_nil hne
  have hj : join ';' (vs.map Var.text) ≠ [] := by
    intro h
    rw [h] at htok
    rw [e] at htok
    simp [tokens] at htok
  unfold cracker
  rw [if_neg hj, htok]
  have hcond : (vs.map Var.text).length ≤ 32 ∧ (vs.map Var.text).all (fun s => decide (s.length < 255)) = true := by
    refine ⟨by simpa using h32, ?_⟩
    rw [List.all_eq_true]
    intro w hw
    obtain ⟨v, hvm, rfl⟩ := List.mem_map.mp hw
    simpa using hlen v hvm
  rw [e] at hcond ⊢
  simp only [List.map_cons] at hcond ⊢
  rw [if_pos hcond]
  have := varLoop_spec (v :: vs') 0 [] (by rw [← e]; exact hv)
  simpa using this

/-- Two variables. -/
def sample : List Var := [⟨"fst".toList, ["on".toList, "off".toList], some ('(', ')')⟩, ⟨"X".toList, ["1".toList], none⟩]

example : cracker "fst=(on,off);X=1".toList =
    some [("FST".toList, 1, "on".toList), ("FST".toList, 2, "off".toList), ("X".toList, 1, "1".toList)] := by decide +kernel

example : join ';' (sample.map Var.text) = "fst=(on,off);X=1".toList ∧ ∀ v ∈ sample, v.ok := by
  refine ⟨by decide +kernel, ?_⟩
  intro v hv
  simp only [sample, List.mem_cons, List.not_mem_nil, or_false] at hv
  rcases hv with rfl | rfl
  · exact ⟨⟨by decide, by decide⟩, by simp, by simp only [List.mem_cons, List.not_mem_nil, or_false]; rintro w (rfl | rfl) <;> exact ⟨by decide, by decide⟩,
      Or.inr ⟨by simp, by simp⟩⟩
  · exact ⟨⟨by decide, by decide⟩, by simp, by simp only [List.mem_cons, List.not_mem_nil, or_false]; rintro w rfl; exact ⟨by decide, by decide⟩, Or.inl rfl⟩

/-- C148.  The environment is changed: a second call for the same variable sees the first of its variables only. -/
theorem C148_second (v : Var) (vs : List Var) (hv : ∀ w ∈ v :: vs, w.ok) (hlen : v.text.length < 255) :
    cracker (envAfter (join ';' ((v :: vs).map Var.text))) = some v.calls := by
  obtain ⟨h1, h2⟩ := text_semi (hv v (by simp))
  have he : envAfter (join ';' ((v :: vs).map Var.text)) = v.text := by
    obtain ⟨rest, hrest, hr⟩ : ∃ rest, join ';' ((v :: vs).map Var.text) = v.text ++ rest ∧ (rest = [] ∨ ∃ r, rest = ';' :: r) := by
      cases vs with
      | nil => exact ⟨[], by simp [join], Or.inl rfl⟩
      | cons w vs => exact ⟨_, rfl, Or.inr ⟨_, rfl⟩⟩
    rw [hrest]
    obtain ⟨c, t, hc⟩ := List.exists_cons_of_ne_nil h1
    have hc1 : semi c = false := h2 c (by simp [hc])
    have e1 : (v.text ++ rest).takeWhile semi = [] := by rw [hc]; simp [hc1]
    have e2 : (v.text ++ rest).dropWhile semi = v.text ++ rest := by rw [hc]; simp [hc1]
    unfold envAfter
    rw [e1, e2, List.nil_append, List.takeWhile_append_of_pos (by simpa using h2)]
    rcases hr with rfl | ⟨r, rfl⟩
    · simp
    · simp [semi]
  rw [he]
  have := C148 [v] (by simp) (fun w hw => hv w (by simp at hw; simp [hw])) (by simp) (by simpa using hlen)
  simpa [join] using this

/-- C148.  A single value in brackets has the index of the value before plus one, and not 1. -/
theorem C148_index_witness : cracker "A=[x];B=[y]".toList = some [("A".toList, 1, "x".toList), ("B".toList, 2, "y".toList)] ∧
    cracker "A=p,q;B=[y]".toList = some [("A".toList, 1, "p".toList), ("A".toList, 2, "q".toList), ("B".toList, 3, "y".toList)] := by
  decide +kernel

/-- C148.  `)x(` is taken for parentheses, `(x)` in quotes also; a value which ends with `(` only ends everything. -/
theorem C148_reversed_witness : cracker "A=)x(".toList = some [("A".toList, 1, "x".toList)] ∧
    cracker "A=f(;B=1".toList = some [] := by decide +kernel

/-- C148.  One quote character as a value is a fault, as are values of commas only and an option of semicolons only. -/
theorem C148_fault_witness : cracker "A='".toList = none ∧ cracker "A=,".toList = none ∧ cracker ";".toList = none := by
  decide +kernel

/-- C148.  Blanks separate values as commas do: words joined with blanks are cut into the words. -/
theorem C148_blank (ws : List (List Char)) (h : ∀ w ∈ ws, Word w) : tokens comma [] (join ' ' ws) = ws :=
  tokens_join comma ' ' rfl _ (fun w hw => word_comma (h w hw))

example : cracker "A=x y z".toList = some [("A".toList, 1, "x".toList), ("A".toList, 2, "y".toList), ("A".toList, 3, "z".toList)] := by
  decide +kernel

end Verif.EnvCrack
