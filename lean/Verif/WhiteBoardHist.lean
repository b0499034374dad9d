import Mathlib.Data.List.TakeWhile
import Verif.WhiteBoardLock

/-!
Histories of whiteboard operations, through any number of runs of the program.
-/
namespace WhiteBoard

/-- The flags of a variable, as `c_wb_lookup` (lines 894-957) finds them. -/
def flagsOf (w : List Page) (name : List Byte) : Option Flags :=
  match lookup w (fillLine (trim name)) with
  | none => none
  | some (k, i) => (w[k]?).map fun p => p.flagsAt i

/-- What a program does: put, lock, or checkpoint, stop and start again from the checkpoint
file, which holds `tail` behind the checkpoint when an older, longer file was there. -/
inductive Op
  | put (r : Req)
  | lock (name : List Byte)
  | restart (tail : List Byte)

def step (w : List Page) : Op → Option (List Page)
  | .put r => (put w r).map (·.1)
  | .lock name => (lock w name).map (·.1)
  | .restart tail => (reload [] (checkpoint w ++ tail)).map (·.1)

def run (w : List Page) : List Op → Option (List Page)
  | [] => some w
  | op :: ops => (step w op).bind fun w => run w ops

/-- An array is put over a scalar of eight byte numbers or over a string, and nothing
else forbids it: `c_wb_put` takes bytes of the value for the size of the array. -/
def Clashes (r : Req) (f : Flags) : Prop :=
  r.nbelem > 0 ∧ f.array = false ∧ f.type = r.type ∧ (r.type = WB_CHAR ∨ f.elementsize = 8) ∧
    (f.readonly && f.initialized) = false ∧ r.createOnly = false

instance (r : Req) (f : Flags) : Decidable (Clashes r f) := by
  unfold Clashes
  infer_instance

/-- What the caller has to see to. -/
def OkOp (w : List Page) : Op → Prop
  | .put r => r.Wf ∧ ∀ f, flagsOf w r.name = some f → r.passed → ¬ Clashes r f
  | .lock name => (significant name).length < 520
  | .restart _ => True

def Fair (w : List Page) : List Op → Prop
  | [] => True
  | op :: ops => OkOp w op ∧ ∀ w', step w op = some w' → Fair w' ops

theorem flagsOf_R {w : List Page} {ess : List (List Ent)} (h : R w ess) {name : List Byte}
    (h0 : 0#8 ∉ name) :
    flagsOf w name = (findEnt ess.flatten (keyOf name)).map Ent.fl := by
  unfold flagsOf
  rw [fillLine_key]
  cases locate h.pages (keyOf_ok h0) with
  | absent ha hl =>
    rw [hl, findEnt_none ha]
    rfl
  | found w₁ w₂ p ess₁ ess₂ es₁ es₂ e hw hess hr1 hr2 hp hk hn hl =>
    rw [hl]
    have hfind : findEnt ess.flatten (keyOf name) = some e := by
      rw [hess, List.flatten_append, List.flatten_cons, List.append_assoc, List.cons_append,
        ← List.append_assoc]
      exact findEnt_split hn hk
    rw [hfind]
    have hget : w[w₁.length]? = some p := by
      rw [hw]
      simp
    simp only [hget]
    obtain ⟨A, B, hat, _, _⟩ := hp.at
    show some (p.flagsAt _) = some e.fl
    rw [hat.flagsAt (hp.ok e (by simp)).valid]

theorem put_early {w : List Page} {r : Req} (hwf : r.Wf) (h : ¬ r.passed) :
    ∃ c, put w r = some (w, c) ∧ c < 0 := by
  unfold put
  simp only []
  rw [← Req.len, ← Req.count]
  by_cases h1 : typeOk r.type r.len r.len = true
  case neg =>
    have h1' : typeOk r.type r.len r.len = false := by simpa using h1
    rw [h1']
    exact ⟨_, rfl, by decide⟩
  simp only [h1, Bool.not_true, Bool.false_eq_true, if_false]
  by_cases h2 : r.nbelem < 0
  · rw [if_pos h2]
    exact ⟨_, rfl, by decide⟩
  rw [if_neg h2, if_neg (by have := hwf.small; omega)]
  by_cases h3 : (trim r.name).length > 27
  · rw [if_pos h3]
    exact ⟨_, rfl, by decide⟩
  · exact absurd ⟨h1, by omega, by omega⟩ h

/-- A put, with the precondition in terms of what the caller can see. -/
theorem put_ok {w : List Page} {ess : List (List Ent)} (h : R w ess) {r : Req}
    (ho : OkOp w (.put r)) :
    ∃ w' c ess', put w r = some (w', c) ∧ R w' ess' ∧
      (∀ k, k ≠ keyOf r.name ∨ ¬ r.passed → findEnt ess'.flatten k = findEnt ess.flatten k) ∧
      Eff r (findEnt ess.flatten (keyOf r.name)) (findEnt ess'.flatten (keyOf r.name)) c := by
  obtain ⟨hwf, hcl⟩ := ho
  by_cases hp : r.passed
  · obtain ⟨w', c, ess', h1, h2, h3, h4⟩ := put_R h hwf (by
      intro e he
      have := hcl e.fl (by rw [flagsOf_R h hwf.nonul, he]; rfl) hp
      exact this)
    exact ⟨w', c, ess', h1, h2, fun k hk => h3 k (hk.resolve_right fun hn => hn hp), h4⟩
  · obtain ⟨c, h1, h2⟩ := put_early (w := w) hwf hp
    exact ⟨w, c, ess, h1, h, fun _ _ => rfl, .early hp h2⟩

/-- What matters to `c_wb_get` is the same. -/
structure Kept (e e' : Ent) : Prop where
  area : e'.area = e.area
  type : e'.fl.type = e.fl.type
  arr : e'.fl.array = e.fl.array
  size : e'.fl.elementsize = e.fl.elementsize
  init : e'.fl.initialized = e.fl.initialized
  bad : e'.fl.badval = e.fl.badval
  loc : e'.fl.islocal = e.fl.islocal
  readonly : e.fl.readonly = true → e'.fl.readonly = true

theorem Kept.refl (e : Ent) : Kept e e := ⟨rfl, rfl, rfl, rfl, rfl, rfl, rfl, id⟩

theorem Kept.trans {a b c : Ent} (h : Kept a b) (g : Kept b c) : Kept a c :=
  ⟨g.area.trans h.area, g.type.trans h.type, g.arr.trans h.arr, g.size.trans h.size,
    g.init.trans h.init, g.bad.trans h.bad, g.loc.trans h.loc, fun hr => g.readonly (h.readonly hr)⟩

theorem Kept.getE {e e' : Ent} (h : Kept e e') (q : Query) (size n : Nat) (array : Bool) :
    getE e' q size n array = getE e q size n array := by
  unfold WhiteBoard.getE Ent.max
  rw [h.area, h.type, h.arr, h.size, h.init, h.bad]

theorem kept_lock {name : List Byte} {whole : Prop} {e e' : Ent}
    (h : Upd .rewriteUntil name cbReadOnly whole e e') : Kept e e' := by
  rcases h with ⟨rfl, _⟩ | ⟨_, g, hg, rfl⟩
  · exact Kept.refl _
  · unfold cbReadOnly at hg
    split at hg
    · cases hg
      exact ⟨rfl, rfl, rfl, rfl, rfl, rfl, rfl, fun _ => rfl⟩
    · cases hg

theorem lock_ok {w : List Page} {ess : List (List Ent)} (h : R w ess) {name : List Byte}
    (ho : OkOp w (.lock name)) :
    ∃ w' c ess', lock w name = some (w', c) ∧ R w' ess' ∧
      (∀ k, (findEnt ess.flatten k = none ∧ findEnt ess'.flatten k = none) ∨
        (∃ e e', findEnt ess.flatten k = some e ∧ findEnt ess'.flatten k = some e' ∧
          Upd .rewriteUntil (significant name) cbReadOnly (0 ≤ c) e e')) := by
  unfold lock
  rw [if_neg (by have : _ < _ := ho; omega)]
  obtain ⟨w', c, ess', h1, h2, h3, _⟩ := check_R (m := .rewriteUntil) (name := significant name)
    quiet_readOnly h
  exact ⟨w', c, ess', h1, h2, h3⟩

theorem kept_restart {e e' : Ent} (h : Restarted e e') (hl : e.fl.islocal = false) : Kept e e' :=
  ⟨h.area, h.type, h.arr, h.size, (h.global hl).1, (h.global hl).2, h.isloc, h.readonly⟩

/-- One operation that does not replace variable `k`. -/
theorem step_keeps {w : List Page} {ess : List (List Ent)} (h : R w ess) {op : Op}
    (ho : OkOp w op) :
    ∃ w' ess', step w op = some w' ∧ R w' ess' ∧
      ∀ k e, findEnt ess.flatten k = some e →
        (∀ r, op = .put r → r.passed → keyOf r.name ≠ k ∨
          (e.fl.readonly = true ∧ e.fl.initialized = true)) →
        (∀ t, op = .restart t → e.fl.islocal = false) →
        ∃ e', findEnt ess'.flatten k = some e' ∧ Kept e e' := by
  cases op with
  | put r =>
    obtain ⟨w', c, ess', h1, h2, h3, h4⟩ := put_ok h ho
    refine ⟨w', ess', by show (put w r).map _ = _; rw [h1]; rfl, h2, ?_⟩
    intro k e he hput _
    by_cases hk : k ≠ keyOf r.name ∨ ¬ r.passed
    · exact ⟨e, by rw [h3 k hk, he], Kept.refl e⟩
    · have hk1 : k = keyOf r.name := by
        refine Classical.byContradiction fun hc => hk (.inl hc)
      have hp : r.passed := by
        refine Classical.byContradiction fun hc => hk (.inr hc)
      subst hk1
      have hro := (hput r rfl hp).resolve_left fun hc => hc rfl
      have hw : (e.fl.readonly && e.fl.initialized) = true := by rw [hro.1, hro.2]; rfl
      rw [he] at h4
      generalize hf : findEnt ess'.flatten (keyOf r.name) = o at h4
      cases h4 with
      | early => exact ⟨e, rfl, Kept.refl e⟩
      | kept => exact ⟨e, rfl, Kept.refl e⟩
      | spoilt _ _ _ hw' => rw [hw] at hw'; cases hw'
      | replaced _ _ _ hw' => rw [hw] at hw'; cases hw'
  | lock name =>
    obtain ⟨w', c, ess', h1, h2, h3⟩ := lock_ok h ho
    refine ⟨w', ess', by show (lock w name).map _ = _; rw [h1]; rfl, h2, ?_⟩
    intro k e he _ _
    rcases h3 k with ⟨hn, _⟩ | ⟨x, x', hx, hx', hu⟩
    · rw [he] at hn; cases hn
    · rw [he] at hx
      cases hx
      exact ⟨x', hx', kept_lock hu⟩
  | restart t =>
    obtain ⟨w', ess', h1, h2, h3⟩ := reload_R h t
    refine ⟨w', ess', by show (reload _ _).map _ = _; rw [h1]; rfl, h2, ?_⟩
    intro k e he _ hloc
    rcases h3 k with ⟨hn, _⟩ | ⟨x, x', hx, hx', hu, _⟩
    · rw [he] at hn; cases hn
    · rw [he] at hx
      cases hx
      exact ⟨x', hx', kept_restart hu (hloc t rfl)⟩

theorem R_nil : R [] [] := ⟨.nil, by simp⟩

/-- A history of operations that do not replace variable `k`. -/
theorem run_keeps {w : List Page} {ess : List (List Ent)} (h : R w ess) {ops : List Op}
    (ho : Fair w ops) :
    ∃ w' ess', run w ops = some w' ∧ R w' ess' ∧
      ∀ k e, findEnt ess.flatten k = some e →
        (∀ r, .put r ∈ ops → r.passed → keyOf r.name ≠ k ∨
          (e.fl.readonly = true ∧ e.fl.initialized = true)) →
        (∀ t, .restart t ∈ ops → e.fl.islocal = false) →
        ∃ e', findEnt ess'.flatten k = some e' ∧ Kept e e' := by
  induction ops generalizing w ess with
  | nil => exact ⟨w, ess, rfl, h, fun k e he _ _ => ⟨e, he, Kept.refl e⟩⟩
  | cons op ops ih =>
    obtain ⟨ho1, ho2⟩ := ho
    obtain ⟨w1, ess1, h1, h2, h3⟩ := step_keeps h ho1
    obtain ⟨w', ess', g1, g2, g3⟩ := ih h2 (ho2 w1 h1)
    refine ⟨w', ess', ?_, g2, ?_⟩
    · unfold run
      rw [h1]
      exact g1
    · intro k e he hput hloc
      obtain ⟨e1, he1, k1⟩ := h3 k e he (fun r hr => hput r (by simp [hr]))
        (fun t ht => hloc t (by simp [ht]))
      obtain ⟨e2, he2, k2⟩ := g3 k e1 he1
        (fun r hr hp => (hput r (by simp [hr]) hp).imp_right fun hx =>
          ⟨k1.readonly hx.1, by rw [k1.init]; exact hx.2⟩)
        (fun t ht => by rw [k1.loc]; exact hloc t (by simp [ht]))
      exact ⟨e2, he2, k1.trans k2⟩

theorem Fair.append {w : List Page} {a b : List Op} (h : Fair w (a ++ b)) :
    Fair w a ∧ ∀ w', run w a = some w' → Fair w' b := by
  induction a generalizing w with
  | nil =>
    refine ⟨trivial, fun w' hw => ?_⟩
    cases hw
    exact h
  | cons op a ih =>
    obtain ⟨h1, h2⟩ := h
    refine ⟨⟨h1, fun w' hw => (ih (h2 w' hw)).1⟩, fun w' hw => ?_⟩
    unfold run at hw
    cases hs : step w op with
    | none => rw [hs] at hw; cases hw
    | some w1 =>
      rw [hs] at hw
      exact (ih (h2 w1 hs)).2 w' hw

theorem reached {w : List Page} {ops : List Op} (h : Fair [] ops) (hr : run [] ops = some w) :
    ∃ ess, R w ess := by
  obtain ⟨w', ess', h1, h2, _⟩ := run_keeps R_nil h
  rw [hr] at h1
  cases h1
  exact ⟨ess', h2⟩

/-! ### Names -/

theorem trim_append_blanks (s : List Byte) (k : Nat) :
    trim (s ++ List.replicate k blank) = trim s := by
  unfold trim
  rw [List.reverse_append, List.reverse_replicate]
  congr 1
  induction k with
  | zero => rfl
  | succ k ih =>
    rw [List.replicate_succ, List.cons_append, List.dropWhile_cons_of_pos (by simp), ih]

theorem trim_of_last {s : List Byte} (h : s.getLast? ≠ some blank) : trim s = s := by
  unfold trim
  rw [← List.reverse_reverse s] at h
  rw [List.getLast?_reverse] at h
  generalize hr : s.reverse = t at *
  cases t with
  | nil =>
    have : s = [] := by simpa using hr
    rw [this]
    rfl
  | cons a t =>
    rw [List.dropWhile_cons_of_neg (by simpa using h), ← hr, List.reverse_reverse]

theorem trim_last (s : List Byte) : (trim s).getLast? ≠ some blank := by
  unfold trim
  rw [List.getLast?_reverse]
  intro h
  have h2 := List.head?_dropWhile_not (p := fun x : Byte => x == blank) (l := s.reverse)
  rw [h] at h2
  simp at h2

theorem trim_trim (s : List Byte) : trim (trim s) = trim s := trim_of_last (trim_last s)

theorem up_blank (c : Byte) : up c = blank ↔ c = blank := by
  constructor
  · intro h
    unfold up at h
    split at h
    · rename_i hc
      have h1 : (c - 32#8).toNat = (blank).toNat := by rw [h]
      rw [BitVec.toNat_sub] at h1
      simp only [blank, BitVec.toNat_ofNat, Nat.reduceMod, Nat.reducePow] at h1
      omega
    · exact h
  · rintro rfl
    rfl

theorem map_up_last (s : List Byte) : ((trim s).map up).getLast? ≠ some blank := by
  rw [List.getLast?_map]
  have := trim_last s
  cases hl : (trim s).getLast? with
  | none => simp
  | some c =>
    rw [hl] at this
    simp only [Option.map_some, ne_eq, Option.some.injEq] at this ⊢
    rwa [up_blank]

/-- Two names are the same for the whiteboard: letter case and trailing blanks do not matter. -/
theorem keyOf_inj {a b : List Byte} (ha : (trim a).length ≤ 27) (hb : (trim b).length ≤ 27) :
    keyOf a = keyOf b ↔ (trim a).map up = (trim b).map up := by
  have hk : ∀ n : List Byte, (trim n).length ≤ 27 →
      keyOf n = (trim n).map up ++ List.replicate (27 - (trim n).length) blank := by
    intro n hn
    unfold keyOf
    rw [List.take_of_length_le hn, List.map_append, List.map_replicate]
    rfl
  rw [hk a ha, hk b hb]
  constructor
  · intro h
    have h1 := congrArg trim h
    rw [trim_append_blanks, trim_append_blanks, trim_of_last (map_up_last a),
      trim_of_last (map_up_last b)] at h1
    exact h1
  · intro h
    have hl : (trim a).length = (trim b).length := by
      have := congrArg List.length h
      simpa using this
    rw [h, hl]

/-! ### Values -/

/-- Concatenation of `f 0`, ..., `f (n-1)`. -/
def flat (n : Nat) (f : Nat → List Byte) : List Byte := (List.range n).flatMap f

theorem flat_succ (n : Nat) (f : Nat → List Byte) : flat (n + 1) f = f 0 ++ flat n fun i => f (i + 1) := by
  unfold flat
  rw [List.range_succ_eq_map, List.flatMap_cons, List.flatMap_map]

theorem flat_congr {n : Nat} {f g : Nat → List Byte} (h : ∀ i < n, f i = g i) : flat n f = flat n g := by
  induction n generalizing f g with
  | zero => rfl
  | succ n ih =>
    rw [flat_succ, flat_succ, h 0 (by omega), ih fun i hi => h (i + 1) (by omega)]

theorem take_flat (size n : Nat) (s : List Byte) : s.take (n * size) = flat n (elem s size) := by
  induction n generalizing s with
  | zero => simp [flat]
  | succ n ih =>
    rw [flat_succ, elem_zero]
    have : (fun i => elem s size (i + 1)) = elem (s.drop size) size := by
      funext i
      rw [elem_drop]
    rw [this, ← ih, show (n + 1) * size = size + n * size by rw [Nat.add_mul]; omega, List.take_add]

/-- The four bytes of a logical value. -/
def logical (s : List Byte) : List Byte := le32 (if s.all (· == 0#8) then 0 else 1)

theorem logicals_flat (n : Nat) (s : List Byte) :
    logicals n s = flat n fun i => logical (elem s 4 i) := by
  induction n generalizing s with
  | zero => rw [logicals]; rfl
  | succ n ih =>
    rw [logicals, flat_succ, ih, elem_zero]
    congr 1
    refine flat_congr fun i _ => ?_
    rw [elem_drop]

theorem logical_logical (s : List Byte) : logical (logical s) = logical s := by
  unfold logical
  by_cases h : s.all (· == 0#8) = true
  · rw [if_pos h]
    decide
  · rw [if_neg h]
    decide

theorem elem_flat {n i : Nat} {f : Nat → List Byte} {size : Nat} (hl : ∀ i < n, (f i).length = size)
    (hi : i < n) (B : List Byte) : elem (flat n f ++ B) size i = f i := by
  induction n generalizing f i with
  | zero => omega
  | succ n ih =>
    have h0 := hl 0 (by omega)
    rw [flat_succ, List.append_assoc]
    cases i with
    | zero =>
      rw [elem_zero, List.take_append_of_le_length (by omega), ← h0, List.take_length]
    | succ i =>
      rw [← elem_drop, List.drop_append_of_le_length (by omega), ← h0, List.drop_length,
        List.nil_append, h0]
      exact ih (f := fun i => f (i + 1)) (fun j hj => hl (j + 1) (by omega)) (by omega)

theorem significant_pad (s : List Byte) (k : Nat) :
    significant (padTo (significant s) k) = significant s := by
  have hn : ∀ c ∈ padTo (significant s) k, (c != 0#8) = true := by
    intro c hc
    unfold padTo at hc
    rcases List.mem_append.1 hc with hc | hc
    · unfold significant at hc
      have := mem_trim hc
      exact List.mem_takeWhile_imp (p := fun x : Byte => x != 0#8) this
    · rw [List.mem_replicate] at hc
      rw [hc.2]
      decide
  unfold significant at hn ⊢
  rw [List.takeWhile_eq_self_iff.2 hn]
  unfold padTo
  rw [trim_append_blanks, trim_trim]

theorem getStrings_stored {element size n : Nat} {m src : List Byte} {elt off : Nat}
    (h : ∀ i < n, (significant (elem src elt i)).length ≤ element ∧
      (m.drop (off + i * element)).take element = padTo (significant (elem src elt i)) element)
    (hs : ∀ i < n, (significant (elem src elt i)).length ≤ size) :
    getStrings element size n (m.drop off) =
      (flat n fun i => padTo (significant (elem src elt i)) size, true) := by
  induction n generalizing off src with
  | zero => rfl
  | succ n ih =>
    have h0 := h 0 (by omega)
    have s0 := hs 0 (by omega)
    rw [Nat.zero_mul, Nat.add_zero] at h0
    unfold getStrings copyString
    simp only []
    rw [h0.2, significant_pad, if_neg (by omega)]
    simp only []
    rw [List.drop_drop, flat_succ]
    have := ih (off := off + element) (src := src.drop elt)
      (fun i hi => by
        have := h (i + 1) (by omega)
        rw [elem_drop, show off + element + i * element = off + (i + 1) * element by
          rw [Nat.add_mul]; omega]
        exact this)
      (fun i hi => by rw [elem_drop]; exact hs (i + 1) (by omega))
    rw [this]
    simp only [elem_drop]
    rfl

end WhiteBoard
