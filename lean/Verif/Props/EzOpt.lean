import Verif.EzOpt

/-! # Properties of the interpolation options -/

namespace Verif.EzOpt

/-- What `ezgetopt` can give back: names of options with their values, English then French. -/
def readable : List (String × List String) :=
  [("use_1subgrid", ["yes", "no"]), ("verbose", ["yes", "yesyesyes", "no"]),
   ("polar_correction", ["yes", "no"]), ("interp_degree", ["nearest", "linear", "cubic"]),
   ("extrap_degree", ["nearest", "linear", "cubic", "maximum", "minimum", "value", "abort"]),
   ("cloud_interp_alg", ["linear", "distance"]),
   ("degre_interp", ["voisin", "lineaire", "cubique"]),
   ("degre_extrap", ["voisin", "lineaire", "cubique", "maximum", "minimum", "valeur", "abort"])]

/-- The names of each option. -/
def families : List (List String) :=
  [["use_1subgrid", "use_1sousgrille"], ["verbose"], ["polar_correction", "correction_polaire"],
   ["interp_degree", "degre_interp"], ["extrap_degree", "degre_extrap"], ["cloud_interp_alg"]]

theorem lower_length (s : String) : (lower s).length = s.length := by simp [lower]

theorem setopt_short (o : Opts) (s t : String) (hs : s.length < 32) (ht : t.length < 32) :
    setopt o s t = some (match assign o (englishOpt (lower s)) (englishVal (lower t)) with
      | some o' => (0, o')
      | none => (-1, o)) := by
  rw [setopt, if_neg (by omega)]
  cases assign o (englishOpt (lower s)) (englishVal (lower t)) <;> rfl

/-- **C114** (read back).  Setting an option, in any mixture of cases, to a value of the table answers 0,
and asking for the option by that name gives the value. -/
theorem C114_partial (o : Opts) (s t w : String) (e : String × List String) (he : e ∈ readable)
    (hs : lower s = e.1) (ht : lower t ∈ e.2) :
    ∃ o', setopt o s t = some (0, o') ∧ getopt o' s w = some (lower t) := by
  have hl : s.length < 32 ∧ t.length < 32 := by
    rw [← lower_length s, ← lower_length t, hs]
    have : ∀ e ∈ readable, e.1.length < 32 ∧ ∀ v ∈ e.2, v.length < 32 := by decide +kernel
    exact ⟨(this e he).1, (this e he).2 _ ht⟩
  rw [setopt_short o s t hl.1 hl.2]
  simp only [getopt, if_neg (show ¬ 32 ≤ s.length by omega), hs]
  generalize lower t = v at ht
  simp only [readable, List.mem_cons, List.not_mem_nil, or_false] at he
  rcases he with rfl | rfl | rfl | rfl | rfl | rfl | rfl | rfl <;>
    simp only [List.mem_cons, List.not_mem_nil, or_false] at ht <;>
    (rcases ht with rfl | rfl | rfl | rfl | rfl | rfl | rfl) <;>
    exact ⟨_, rfl, by simp [interpName, extrapName]⟩

example : (setopt {} "Extrap_Degree" "MINIMUM").bind (fun r => getopt r.2 "extrap_degree" "?") = some "minimum" ∧
    (setopt {} "degre_interp" "Voisin").bind (fun r => getopt r.2 "degre_interp" "?") = some "voisin" := by
  decide +kernel

/-- **C114** (others kept).  A call changes only what is read under the names of the option it names; if
it answers -1, it changes nothing.  It answers 0 or -1. -/
theorem C114_others (o : Opts) (s t : String) (r : Int × Opts) (h : setopt o s t = some r) :
    (r.1 = 0 ∨ r.1 = -1) ∧ (r.1 = -1 → r.2 = o) ∧
      ∀ q w, (∀ f ∈ families, ¬ (lower s ∈ f ∧ lower q ∈ f)) → getopt r.2 q w = getopt o q w := by
  have hl : ¬ (32 ≤ s.length ∨ 32 ≤ t.length) := by
    intro hc; rw [setopt, if_pos hc] at h; exact absurd h (by simp)
  rw [setopt, if_neg hl] at h
  generalize hv : englishVal (lower t) = v at h
  generalize lower s = a at h ⊢
  cases ha : assign o (englishOpt a) v with
  | none =>
    rw [ha] at h
    simp only [Option.some.injEq] at h
    subst h
    exact ⟨Or.inr rfl, fun _ => rfl, fun _ _ _ => rfl⟩
  | some o' =>
    rw [ha] at h
    simp only [Option.some.injEq] at h
    subst h
    refine ⟨Or.inl rfl, fun h => absurd h (by simp), fun q w hq => ?_⟩
    simp only [getopt]
    generalize lower q = b at hq ⊢
    by_cases hc : 32 ≤ q.length
    · rw [if_pos hc, if_pos hc]
    rw [if_neg hc, if_neg hc]
    simp only [families, List.forall_mem_cons] at hq
    obtain ⟨q1, q2, q3, q4, q5, q6, -⟩ := hq
    simp only [List.mem_cons, List.not_mem_nil, or_false] at q1 q2 q3 q4 q5 q6
    by_cases h1 : englishOpt a = "use_1subgrid"
    · have e : a = "use_1subgrid" ∨ a = "use_1sousgrille" := by
        unfold englishOpt at h1; repeat' split at h1
        all_goals first | exact absurd h1 (by decide) | simp_all
      have hb : ¬ b = "use_1subgrid" := fun hb => q1 ⟨e, Or.inl hb⟩
      have : o'.verbose = o.verbose ∧ o'.polar = o.polar ∧ o'.interp = o.interp ∧
          o'.extrap = o.extrap ∧ o'.cld = o.cld := by
        simp only [assign, h1, if_true] at ha
        repeat' split at ha
        all_goals cases ha <;> simp
      obtain ⟨a1, a2, a3, a4, a5⟩ := this
      simp only [a1, a2, a3, a4, a5, if_neg hb]
    by_cases h2 : englishOpt a = "verbose"
    · have e : a = "verbose" := by
        unfold englishOpt at h2; repeat' split at h2
        all_goals first | exact absurd h2 (by decide) | simp_all
      have hb : ¬ b = "verbose" := fun hb => q2 ⟨e, hb⟩
      have : o'.use1 = o.use1 ∧ o'.polar = o.polar ∧ o'.interp = o.interp ∧
          o'.extrap = o.extrap ∧ o'.cld = o.cld := by
        simp only [assign, if_neg h1, if_pos h2] at ha
        repeat' split at ha
        all_goals cases ha <;> simp
      obtain ⟨a1, a2, a3, a4, a5⟩ := this
      simp only [a1, a2, a3, a4, a5, if_neg hb]
    by_cases h3 : englishOpt a = "polar_correction"
    · have e : a = "polar_correction" ∨ a = "correction_polaire" := by
        unfold englishOpt at h3; repeat' split at h3
        all_goals first | exact absurd h3 (by decide) | simp_all
      have hb : ¬ b = "polar_correction" := fun hb => q3 ⟨e, Or.inl hb⟩
      have : o'.use1 = o.use1 ∧ o'.verbose = o.verbose ∧ o'.interp = o.interp ∧
          o'.extrap = o.extrap ∧ o'.cld = o.cld := by
        simp only [assign, if_neg h1, if_neg h2, if_pos h3] at ha
        repeat' split at ha
        all_goals cases ha <;> simp
      obtain ⟨a1, a2, a3, a4, a5⟩ := this
      simp only [a1, a2, a3, a4, a5, if_neg hb]
    by_cases h4 : englishOpt a = "interp_degree"
    · have e : a = "interp_degree" ∨ a = "degre_interp" := by
        unfold englishOpt at h4; repeat' split at h4
        all_goals first | exact absurd h4 (by decide) | simp_all
      have hb : ¬ b = "interp_degree" := fun hb => q4 ⟨e, Or.inl hb⟩
      have hb' : ¬ b = "degre_interp" := fun hb => q4 ⟨e, Or.inr hb⟩
      have : o'.use1 = o.use1 ∧ o'.verbose = o.verbose ∧ o'.polar = o.polar ∧
          o'.extrap = o.extrap ∧ o'.cld = o.cld := by
        simp only [assign, if_neg h1, if_neg h2, if_neg h3, if_pos h4] at ha
        repeat' split at ha
        all_goals cases ha <;> simp
      obtain ⟨a1, a2, a3, a4, a5⟩ := this
      simp only [a1, a2, a3, a4, a5, if_neg hb, if_neg hb']
    by_cases h5 : englishOpt a = "extrap_degree"
    · have e : a = "extrap_degree" ∨ a = "degre_extrap" := by
        unfold englishOpt at h5; repeat' split at h5
        all_goals first | exact absurd h5 (by decide) | simp_all
      have hb : ¬ b = "extrap_degree" := fun hb => q5 ⟨e, Or.inl hb⟩
      have hb' : ¬ b = "degre_extrap" := fun hb => q5 ⟨e, Or.inr hb⟩
      have : o'.use1 = o.use1 ∧ o'.verbose = o.verbose ∧ o'.polar = o.polar ∧
          o'.interp = o.interp ∧ o'.cld = o.cld := by
        simp only [assign, if_neg h1, if_neg h2, if_neg h3, if_neg h4, if_pos h5] at ha
        repeat' split at ha
        all_goals cases ha <;> simp
      obtain ⟨a1, a2, a3, a4, a5⟩ := this
      simp only [a1, a2, a3, a4, a5, if_neg hb, if_neg hb']
    by_cases h6 : englishOpt a = "cloud_interp_alg"
    · have e : a = "cloud_interp_alg" := by
        unfold englishOpt at h6; repeat' split at h6
        all_goals first | exact absurd h6 (by decide) | simp_all
      have hb : ¬ b = "cloud_interp_alg" := fun hb => q6 ⟨e, hb⟩
      have : o'.use1 = o.use1 ∧ o'.verbose = o.verbose ∧ o'.polar = o.polar ∧
          o'.interp = o.interp ∧ o'.extrap = o.extrap := by
        simp only [assign, if_neg h1, if_neg h2, if_neg h3, if_neg h4, if_neg h5, if_pos h6] at ha
        repeat' split at ha
        all_goals cases ha <;> simp
      obtain ⟨a1, a2, a3, a4, a5⟩ := this
      simp only [a1, a2, a3, a4, a5, if_neg hb]
    · simp only [assign, if_neg h1, if_neg h2, if_neg h3, if_neg h4, if_neg h5, if_neg h6] at ha
      cases ha

example : (setopt {} "verbose" "oui").bind (fun r => getopt r.2 "polar_correction" "?") = some "yes" ∧
    setopt {} "verbose" "maybe" = some (-1, {}) := by decide +kernel

/-- The names and values `ezsetopt` accepts. -/
def accepted : List (List String × List String) :=
  [(["use_1subgrid", "use_1sousgrille"], ["yes", "oui", "no", "non"]),
   (["verbose"], ["yes", "oui", "yesyesyes", "ouiouioui", "no", "non"]),
   (["polar_correction", "correction_polaire"], ["yes", "oui", "no", "non"]),
   (["interp_degree", "degre_interp"],
     ["nearest", "voisin", "linear", "lineair", "lineaire", "cubic", "cubique", "average", "sph_average"]),
   (["extrap_degree", "degre_extrap"],
     ["neutral", "neutre", "nearest", "voisin", "linear", "lineair", "lineaire", "cubic", "cubique",
      "maximum", "minimum", "value", "valeur", "abort"]),
   (["cloud_interp_alg"], ["linear", "lineair", "lineaire", "distance"])]

theorem englishOpt_eq (a n : String) (h : englishOpt a = n) : a = n ∨
    (a, n) ∈ [("correction_polaire", "polar_correction"), ("degre_interp", "interp_degree"),
      ("degre_extrap", "extrap_degree"), ("use_1sousgrille", "use_1subgrid")] := by
  unfold englishOpt at h
  repeat' split at h
  all_goals simp_all

theorem englishVal_eq (b v : String) (h : englishVal b = v) : b = v ∨
    (b, v) ∈ [("oui", "yes"), ("ouiouioui", "yesyesyes"), ("non", "no"), ("voisin", "nearest"),
      ("lineair", "linear"), ("lineaire", "linear"), ("cubique", "cubic"), ("neutre", "neutral"),
      ("valeur", "value")] := by
  unfold englishVal at h
  repeat' split at h
  all_goals simp_all

/-- The English names and values. -/
def english : List (String × List String) :=
  [("use_1subgrid", ["yes", "no"]), ("verbose", ["yes", "yesyesyes", "no"]),
   ("polar_correction", ["yes", "no"]),
   ("interp_degree", ["nearest", "linear", "cubic", "average", "sph_average"]),
   ("extrap_degree", ["neutral", "nearest", "linear", "cubic", "maximum", "minimum", "value", "abort"]),
   ("cloud_interp_alg", ["linear", "distance"])]

theorem assign_english (o : Opts) (n v : String) (h : (assign o n v).isSome = true) :
    ∃ p ∈ english, n = p.1 ∧ v ∈ p.2 := by
  by_cases h1 : n = "use_1subgrid"
  · refine ⟨("use_1subgrid", _), List.mem_cons_self, h1, ?_⟩
    subst h1
    unfold assign at h
    simp only [String.reduceEq, if_true, if_false] at h
    repeat' split at h
    all_goals first | (cases h; done) | simp_all
  by_cases h2 : n = "verbose"
  · refine ⟨("verbose", ["yes", "yesyesyes", "no"]), by simp [english], h2, ?_⟩
    subst h2
    unfold assign at h
    simp only [String.reduceEq, if_true, if_false] at h
    repeat' split at h
    all_goals first | (cases h; done) | simp_all
  by_cases h3 : n = "polar_correction"
  · refine ⟨("polar_correction", ["yes", "no"]), by simp [english], h3, ?_⟩
    subst h3
    unfold assign at h
    simp only [String.reduceEq, if_true, if_false] at h
    repeat' split at h
    all_goals first | (cases h; done) | simp_all
  by_cases h4 : n = "interp_degree"
  · refine ⟨("interp_degree", ["nearest", "linear", "cubic", "average", "sph_average"]), by simp [english], h4, ?_⟩
    subst h4
    unfold assign at h
    simp only [String.reduceEq, if_true, if_false] at h
    repeat' split at h
    all_goals first | (cases h; done) | simp_all
  by_cases h5 : n = "extrap_degree"
  · refine ⟨("extrap_degree", ["neutral", "nearest", "linear", "cubic", "maximum", "minimum", "value", "abort"]),
      by simp [english], h5, ?_⟩
    subst h5
    unfold assign at h
    simp only [String.reduceEq, if_true, if_false] at h
    repeat' split at h
    all_goals first | (cases h; done) | simp_all
  by_cases h6 : n = "cloud_interp_alg"
  · refine ⟨("cloud_interp_alg", ["linear", "distance"]), by simp [english], h6, ?_⟩
    subst h6
    unfold assign at h
    simp only [String.reduceEq, if_true, if_false] at h
    repeat' split at h
    all_goals first | (cases h; done) | simp_all
  · simp only [assign, h1, h2, h3, h4, h5, h6, if_false] at h
    cases h

/-- Every name and value that is translated to an English one of the table. -/
theorem translated : ∀ p ∈ english, ∃ q ∈ accepted,
    (p.1 ∈ q.1 ∧ ∀ f ∈ [("correction_polaire", "polar_correction"), ("degre_interp", "interp_degree"),
      ("degre_extrap", "extrap_degree"), ("use_1sousgrille", "use_1subgrid")], f.2 = p.1 → f.1 ∈ q.1) ∧
    ∀ v ∈ p.2, v ∈ q.2 ∧ ∀ f ∈ [("oui", "yes"), ("ouiouioui", "yesyesyes"), ("non", "no"),
      ("voisin", "nearest"), ("lineair", "linear"), ("lineaire", "linear"), ("cubique", "cubic"),
      ("neutre", "neutral"), ("valeur", "value")], f.2 = v → f.1 ∈ q.2 := by decide +kernel

theorem assign_isSome (o : Opts) (a b : String) :
    (assign o (englishOpt a) (englishVal b)).isSome = true ↔
      ∃ p ∈ accepted, a ∈ p.1 ∧ b ∈ p.2 := by
  constructor
  · intro h
    obtain ⟨p, hp, hn, hv⟩ := assign_english o _ _ h
    obtain ⟨q, hq, ⟨t1, t2⟩, t3⟩ := translated p hp
    obtain ⟨t4, t5⟩ := t3 _ hv
    refine ⟨q, hq, ?_, ?_⟩
    · rcases englishOpt_eq a _ hn with h | h
      · rw [h]; exact t1
      · exact t2 _ h rfl
    · rcases englishVal_eq b _ rfl with h | h
      · rw [h]; exact t4
      · exact t5 _ h rfl
  · rintro ⟨p, hp, ha, hb⟩
    simp only [accepted, List.mem_cons, List.not_mem_nil, or_false] at hp
    rcases hp with rfl | rfl | rfl | rfl | rfl | rfl <;>
      simp only [List.mem_cons, List.not_mem_nil, or_false] at ha hb <;>
      rcases ha with rfl | rfl <;>
      (rcases hb with rfl | rfl | rfl | rfl | rfl | rfl | rfl | rfl | rfl | rfl | rfl | rfl | rfl | rfl) <;>
      rfl

/-- **C114** (what is accepted).  For names and values of fewer than 32 characters the call answers 0
exactly for the pairs of the table, in any mixture of cases. -/
theorem C114_accepts (o : Opts) (s t : String) (hs : s.length < 32) (ht : t.length < 32) :
    (∃ o', setopt o s t = some (0, o')) ↔ ∃ p ∈ accepted, lower s ∈ p.1 ∧ lower t ∈ p.2 := by
  rw [setopt_short o s t hs ht, ← assign_isSome o]
  cases assign o (englishOpt (lower s)) (englishVal (lower t)) <;> simp

/-- `neutral` is the degree of interpolation at the time of the call, not a link to it; with `average`
it becomes `maximum`.  The averages are accepted and read back as `error`.  The French names of two
options can be set but not read. -/
theorem C114_witness (o : Opts) (w : String) :
    (∃ o', setopt o "interp_degree" "average" = some (0, o') ∧
      getopt o' "interp_degree" w = some "error" ∧
      ∃ o'', setopt o' "extrap_degree" "neutral" = some (0, o'') ∧
        getopt o'' "extrap_degree" w = some "maximum") ∧
    (∃ o' o'' u, setopt o "interp_degree" "linear" = some (0, o') ∧
      setopt o' "extrap_degree" "neutral" = some (0, o'') ∧
      setopt o'' "interp_degree" "cubic" = some (0, u) ∧
      getopt u "extrap_degree" w = some "linear") ∧
    (∃ o', setopt o "correction_polaire" "oui" = some (0, o') ∧
      getopt o' "correction_polaire" w = some w) ∧
    (∃ o', setopt o "use_1sousgrille" "oui" = some (0, o') ∧
      getopt o' "use_1sousgrille" w = some w) :=
  ⟨⟨{ o with interp := 4 }, by
      rw [setopt_short _ _ _ (by decide +kernel) (by decide +kernel),
        show lower "interp_degree" = "interp_degree" by decide +kernel,
        show lower "average" = "average" by decide +kernel]
      rfl, by
      simp [getopt, show lower "interp_degree" = "interp_degree" by decide +kernel,
        show "interp_degree".length < 32 by decide +kernel, interpName],
      { o with interp := 4, extrap := 4 }, by
      rw [setopt_short _ _ _ (by decide +kernel) (by decide +kernel),
        show lower "extrap_degree" = "extrap_degree" by decide +kernel,
        show lower "neutral" = "neutral" by decide +kernel]
      rfl, by
      simp [getopt, show lower "extrap_degree" = "extrap_degree" by decide +kernel,
        show "extrap_degree".length < 32 by decide +kernel, extrapName]⟩, ⟨{ o with interp := 1 }, { o with interp := 1, extrap := 1 }, { o with interp := 3, extrap := 1 }, by
      rw [setopt_short _ _ _ (by decide +kernel) (by decide +kernel),
        show lower "interp_degree" = "interp_degree" by decide +kernel,
        show lower "linear" = "linear" by decide +kernel]
      rfl, by
      rw [setopt_short _ _ _ (by decide +kernel) (by decide +kernel),
        show lower "extrap_degree" = "extrap_degree" by decide +kernel,
        show lower "neutral" = "neutral" by decide +kernel]
      rfl, by
      rw [setopt_short _ _ _ (by decide +kernel) (by decide +kernel),
        show lower "interp_degree" = "interp_degree" by decide +kernel,
        show lower "cubic" = "cubic" by decide +kernel]
      rfl, by
      simp [getopt, show lower "extrap_degree" = "extrap_degree" by decide +kernel,
        show "extrap_degree".length < 32 by decide +kernel, extrapName]⟩, ⟨{ o with polar := 1 }, by
      rw [setopt_short _ _ _ (by decide +kernel) (by decide +kernel),
        show lower "correction_polaire" = "correction_polaire" by decide +kernel,
        show lower "oui" = "oui" by decide +kernel]
      rfl, by
      simp [getopt, show lower "correction_polaire" = "correction_polaire" by decide +kernel,
        show "correction_polaire".length < 32 by decide +kernel]⟩,
    ⟨{ o with use1 := 1 }, by
      rw [setopt_short _ _ _ (by decide +kernel) (by decide +kernel),
        show lower "use_1sousgrille" = "use_1sousgrille" by decide +kernel,
        show lower "oui" = "oui" by decide +kernel]
      rfl, by
      simp [getopt, show lower "use_1sousgrille" = "use_1sousgrille" by decide +kernel,
        show "use_1sousgrille".length < 32 by decide +kernel]⟩⟩

/-- **C114** (numbers).  The numeric options are read back, and setting one leaves the others. -/
theorem C114_numbers {F : Type} (ofInt : Int → F) (o : Vals F) (s : String) (f g : F) (i k : Int) :
    (lower s = "extrap_value" ∨ lower s = "missing_distance_threshold" →
      ∃ o', setfval o s f = some o' ∧ getval ofInt o' s g = some f ∧
        ∀ q, lower q ≠ lower s → getval ofInt o' q g = getval ofInt o q g ∧ getival o' q k = getival o q k) ∧
    (lower s = "weight_number" ∨ lower s = "missing_points_tolerance" →
      ∃ o', setival o s i = some o' ∧ getival o' s k = some i ∧ getval ofInt o' s g = some (ofInt i) ∧
        ∀ q, lower q ≠ lower s → getval ofInt o' q g = getval ofInt o q g ∧ getival o' q k = getival o q k) ∧
    (lower s = "subgridid" →
      ∃ o', setival o s i = some o' ∧ getival o' s k = some i ∧
        ∀ q, lower q ≠ lower s → getval ofInt o' q g = getval ofInt o q g ∧ getival o' q k = getival o q k) := by
  have hl : ∀ n : String, n.length < 32 → lower s = n → ¬ 32 ≤ s.length := by
    intro n hn hs; rw [← lower_length s, hs]; omega
  refine ⟨?_, ?_, ?_⟩
  · rintro (h | h)
    · have := hl _ (by decide) h
      refine ⟨{ o with extrap := f }, by simp [setfval, h, this], by simp [getval, h, this], fun q hq => ?_⟩
      rw [h] at hq
      simp [getval, getival, hq]
    · have := hl _ (by decide) h
      refine ⟨{ o with distThresh := f }, by simp [setfval, h, this], by simp [getval, h, this], fun q hq => ?_⟩
      rw [h] at hq
      simp [getval, getival, hq]
  · rintro (h | h)
    · have := hl _ (by decide) h
      refine ⟨{ o with wgtNum := i }, by simp [setival, h, this], by simp [getival, h, this],
        by simp [getval, h, this], fun q hq => ?_⟩
      rw [h] at hq
      simp [getval, getival, hq]
    · have := hl _ (by decide) h
      refine ⟨{ o with ptTol := i }, by simp [setival, h, this], by simp [getival, h, this],
        by simp [getval, h, this], fun q hq => ?_⟩
      rw [h] at hq
      simp [getval, getival, hq]
  · intro h
    have := hl _ (by decide) h
    refine ⟨{ o with subgrid := i }, by simp [setival, h, this], by simp [getival, h, this], fun q hq => ?_⟩
    rw [h] at hq
    simp [getval, getival, hq]

example : lower "Weight_Number" = "weight_number" := by decide +kernel

/-- `missing_gridpt_distance` can be set but not read; `subgridid` is not known to `ezgetval`. -/
theorem C114_numbers_witness {F : Type} (ofInt : Int → F) (o : Vals F) (f g : F) (i : Int) :
    (∃ o', setfval o "missing_gridpt_distance" f = some o' ∧ o'.gridptDist = f ∧
      getval ofInt o' "missing_gridpt_distance" g = some g) ∧
    (∃ o', setival o "subgridid" i = some o' ∧ o'.subgrid = i ∧ getval ofInt o' "subgridid" g = some g) :=
  ⟨⟨{ o with gridptDist := f }, by
      simp [setfval, show lower "missing_gridpt_distance" = "missing_gridpt_distance" by decide +kernel,
        show "missing_gridpt_distance".length < 32 by decide +kernel], rfl, by
      simp [getval, show lower "missing_gridpt_distance" = "missing_gridpt_distance" by decide +kernel,
        show "missing_gridpt_distance".length < 32 by decide +kernel]⟩,
    ⟨{ o with subgrid := i }, by
      simp [setival, show lower "subgridid" = "subgridid" by decide +kernel,
        show "subgridid".length < 32 by decide +kernel], rfl, by
      simp [getval, show lower "subgridid" = "subgridid" by decide +kernel,
        show "subgridid".length < 32 by decide +kernel]⟩⟩

end Verif.EzOpt
