import Verif.Excdes
import Mathlib.Data.List.GetD
import Mathlib.Tactic.Linarith
import Mathlib.Tactic.Ring
import Mathlib.Tactic.NormNum
import Mathlib.Tactic.Positivity
import Mathlib.Tactic.FieldSimp

/-!
C43: which records pass the filter.  What is asked is described without the table: a request set is at most
one wish of each sort; `holds` says what a wish means.
-/
namespace Props.Excdes
open Verif.Excdes

/-- A wish about ip1, ip2 or ip3. -/
inductive IpAsk
  | any
  | values (v : Int) (vs : List Int)
  | upTo (b : Int)
  | from (a : Int)
  | between (a b : Int)
  | every (a b d : Int)

/-- The list by which it is told to the library. -/
def IpAsk.list : IpAsk → List Int
  | .any => [-1]
  | .values v vs => v :: vs
  | .upTo b => [-2, b]
  | .from a => [a, -2]
  | .between a b => [a, -2, b]
  | .every a b d => [a, -2, b, -3, d]

/-- Arguments that can be told apart from the keywords.  Open ranges are left out: they do not work
(`C43_open_range`). -/
def IpAsk.Wf : IpAsk → Prop
  | .any => True
  | .values v vs => v ≠ -1 ∧ v ≠ -2 ∧ (∀ w ∈ vs, w ≠ -1) ∧ vs.head? ≠ some (-2)
  | .upTo _ => False
  | .from _ => False
  | .between a b => 0 ≤ a ∧ 0 ≤ b
  | .every a b d => 0 ≤ a ∧ 0 ≤ b ∧ 0 < d

/-- Its meaning: equal, or the same level but for rounding, or within a range of levels of the same kind (if the
variable has levels).  Level zero has to be given by its code (`C43_zero_witness`). -/
def IpAsk.holds (env : Env) (ip : Int) (tr : Bool) : IpAsk → Prop
  | .any => True
  | .values v vs => ip ∈ v :: vs ∨ (tr = true ∧ ∃ w ∈ v :: vs, (env.conv ip).2 = (env.conv w).2 ∧
      (env.conv w).1 ≠ 0 ∧ |1 - (env.conv ip).1 / (env.conv w).1| < 1 / 1000000)
  | .upTo b => tr = true ∧ (env.conv ip).2 = (env.conv b).2 ∧ (env.conv ip).1 ≤ (env.conv b).1
  | .from a => tr = true ∧ (env.conv ip).2 = (env.conv a).2 ∧ (env.conv a).1 ≤ (env.conv ip).1
  | .between a b => tr = true ∧ (env.conv ip).2 = (env.conv a).2 ∧ (env.conv ip).2 = (env.conv b).2 ∧
      min (env.conv a).1 (env.conv b).1 ≤ (env.conv ip).1 ∧ (env.conv ip).1 ≤ max (env.conv a).1 (env.conv b).1
  | .every a b d => tr = true ∧ (env.conv ip).2 = (env.conv a).2 ∧ (env.conv ip).2 = (env.conv b).2 ∧
      min (env.conv a).1 (env.conv b).1 ≤ (env.conv ip).1 ∧ (env.conv ip).1 ≤ max (env.conv a).1 (env.conv b).1 ∧
      ((env.conv ip).1 = min (env.conv a).1 (env.conv b).1 ∨
        ∃ δ : ℚ, δ = (if d < 0xFFFFF then (d : ℚ) else env.real d) ∧ 0 < δ ∧
          ∃ k : Int, |(env.conv ip).1 - min (env.conv a).1 (env.conv b).1 - k * δ| < δ / 100000)

/-- A wish about the date of validity. -/
inductive DateAsk
  | any
  | values (v : Int) (vs : List Int)
  | upTo (b : Int)
  | from (a : Int)
  | between (a b : Int)
  | every (a b h : Int)

def DateAsk.list : DateAsk → List Int
  | .any => [-1]
  | .values v vs => v :: vs
  | .upTo b => [-2, b]
  | .from a => [a, -2]
  | .between a b => [a, -2, b]
  | .every a b h => [a, -2, b, -3, h]

/-- Hours as an integer, or seconds as a real. -/
def seconds (env : Env) (h : Int) : Int := if h / 2 ^ 23 % 256 ≠ 0 then env.secs h else h * 3600

def DateAsk.Wf (env : Env) : DateAsk → Prop
  | .any => True
  | .values v vs => v ≠ -1 ∧ ∀ w ∈ v :: vs, w ≠ -2 ∧ w ≠ -3
  | .upTo b => 0 < b
  | .from a => 0 < a
  | .between a b => 0 < a ∧ 0 < b
  | .every a b h => 0 < a ∧ 0 < b ∧ h ≠ -2 ∧ h ≠ -3 ∧ 0 < seconds env h

/-- `hours x y` is the time from `y` to `x`. -/
def DateAsk.holds (env : Env) (d : Int) : DateAsk → Prop
  | .any => True
  | .values v vs => d ∈ v :: vs
  | .upTo b => env.hours d b ≤ 0
  | .from a => 0 ≤ env.hours d a
  | .between a b => 0 ≤ env.hours d a ∧ env.hours d b ≤ 0
  | .every a b h => 0 ≤ env.hours d a ∧ env.hours d b ≤ 0 ∧
      ∃ k : Int, 0 ≤ env.hours d a - k * ((seconds env h : ℚ) / 3600) ∧
        env.hours d a - k * ((seconds env h : ℚ) / 3600) ≤ 5 / 3600

/-- A wish about a name of `width` characters. -/
def strHolds (width : Nat) (l : List (List Char)) (name : List Char) : Prop :=
  (∃ e ∈ l.head?, e.head? = some ' ') ∨ ∃ e ∈ l, e.take width <+: name

/-- Dimensions and grid. -/
def supplHolds (s : Suppl) (x : Rec) : Prop :=
  (s.ni = -1 ∨ s.ni = x.ni) ∧ (s.nj = -1 ∨ s.nj = x.nj) ∧ (s.nk = -1 ∨ s.nk = x.nk) ∧
  (s.ig1 = -1 ∨ s.ig1 = x.ig1) ∧ (s.ig2 = -1 ∨ s.ig2 = x.ig2) ∧ (s.ig3 = -1 ∨ s.ig3 = x.ig3) ∧
  (s.ig4 = -1 ∨ s.ig4 = x.ig4) ∧ (s.grtyp = ' ' ∨ s.grtyp = x.grtyp)

/-- A request set. -/
structure Ask where
  desire : Bool
  etiket : Option (List (List Char)) := none
  nomvar : Option (List (List Char)) := none
  typvar : Option (List (List Char)) := none
  date : Option DateAsk := none
  ip1 : Option IpAsk := none
  ip2 : Option IpAsk := none
  ip3 : Option IpAsk := none
  suppl : Option Suppl := none

/-- A record satisfies a request when it satisfies every wish in it. -/
def Ask.holds (env : Env) (a : Ask) (x : Rec) : Prop :=
  (∀ l ∈ a.etiket, strHolds 12 l x.etiket) ∧ (∀ l ∈ a.nomvar, strHolds 4 l x.nomvar) ∧
  (∀ l ∈ a.typvar, strHolds 2 l x.typvar) ∧ (∀ d ∈ a.date, d.holds env x.date) ∧
  (∀ i ∈ a.ip1, i.holds env x.ip1 (env.translatable x.nomvar)) ∧
  (∀ i ∈ a.ip2, i.holds env x.ip2 (env.translatable x.nomvar)) ∧
  (∀ i ∈ a.ip3, i.holds env x.ip3 (env.translatable x.nomvar)) ∧
  (∀ s ∈ a.suppl, supplHolds s x)

/-- What can be added to a set. -/
inductive Item
  | ip1 (a : IpAsk)
  | ip2 (a : IpAsk)
  | ip3 (a : IpAsk)
  | date (a : DateAsk)
  | etiket (l : List (List Char))
  | nomvar (l : List (List Char))
  | typvar (l : List (List Char))
  | suppl (s : Suppl)

def Item.Wf (env : Env) : Item → Prop
  | .ip1 a => a.Wf
  | .ip2 a => a.Wf
  | .ip3 a => a.Wf
  | .date a => a.Wf env
  | _ => True

def Item.length : Item → Nat
  | .ip1 a => a.list.length
  | .ip2 a => a.list.length
  | .ip3 a => a.list.length
  | .date a => a.list.length
  | .etiket l => l.length
  | .nomvar l => l.length
  | .typvar l => l.length
  | .suppl _ => 1

/-- What the caller does. -/
inductive Wish
  | select (set : Nat) (des : Bool) (i : Item)
  | reset (set : Nat)
  | group (first last : Nat)

def des (b : Bool) : Int := if b then 1 else 0

def Wish.call : Wish → Call
  | .select n b (.ip1 a) => .ip1 n (des b) a.list
  | .select n b (.ip2 a) => .ip2 n (des b) a.list
  | .select n b (.ip3 a) => .ip3 n (des b) a.list
  | .select n b (.date a) => .date n (des b) a.list
  | .select n b (.etiket l) => .etiquette n (des b) l
  | .select n b (.nomvar l) => .nomvar n (des b) l
  | .select n b (.typvar l) => .typvar n (des b) l
  | .select n b (.suppl s) => .suppl n (des b) s
  | .reset n => .reset n
  | .group f l => .group f l

/-- The requests asked for, and the active group. -/
structure Table where
  ask : Nat → Option Ask
  first : Nat
  last : Nat

def empty : Table := ⟨fun _ => none, 0, 49⟩

def Ask.add (a : Ask) : Item → Ask
  | .ip1 i => { a with ip1 := some i }
  | .ip2 i => { a with ip2 := some i }
  | .ip3 i => { a with ip3 := some i }
  | .date i => { a with date := some i }
  | .etiket l => { a with etiket := some l }
  | .nomvar l => { a with nomvar := some l }
  | .typvar l => { a with typvar := some l }
  | .suppl s => { a with suppl := some s }

/-- A wish is refused when the set is already of the other sense, or the list is empty or too long. -/
def refused (t : Table) (n : Nat) (b : Bool) (i : Item) : Prop :=
  (∃ a, t.ask n = some a ∧ a.desire ≠ b) ∨ i.length = 0 ∨ 50 < i.length

open Classical in
noncomputable def Table.step (t : Table) : Wish → Table
  | .select n b i =>
    if refused t n b i then t
    else { t with ask := fun m => if m = n then some (((t.ask n).getD { desire := b }).add i) else t.ask m }
  | .reset n => if n < 50 then { t with ask := fun m => if m = n then none else t.ask m } else t
  | .group f l => if l < 50 ∧ f ≤ l then { t with first := f, last := l } else t

/-- Conditions on the caller: set numbers exist, arguments are not keywords, and nothing is refused on a set
that has a wish about dates (`C43_refused_witness`). -/
def Allowed (env : Env) (t : Table) : Wish → Prop
  | .select n b i => n < 50 ∧ i.Wf env ∧ (refused t n b i → ∀ a, t.ask n = some a → a.date = none)
  | _ => True

inductive History (env : Env) : List Wish → Table → Prop
  | nil : History env [] empty
  | snoc {ws t w} : History env ws t → Allowed env t w → History env (ws ++ [w]) (t.step w)

/-- The decision. -/
def Accepted (env : Env) (t : Table) (x : Rec) : Prop :=
  (∃ n a, t.first ≤ n ∧ n ≤ t.last ∧ t.ask n = some a ∧ a.desire = true ∧ a.holds env x ∧
    ∀ m b, t.first ≤ m → m < n → t.ask m = some b → ¬ b.holds env x) ∨
  (∀ n a, t.first ≤ n → n ≤ t.last → t.ask n = some a → a.desire = false ∧ ¬ a.holds env x)

/-! ### The criteria of the table -/

theorem put_same {β : Type} (f : Nat → β) (i : Nat) (v : β) : put f i v i = v := by simp [put]
theorem put_ne {β : Type} (f : Nat → β) (i j : Nat) (v : β) (h : j ≠ i) : put f i v j = f j := by simp [put, h]

def IpRep (env : Env) (c : IntC) : Option IpAsk → Prop
  | none => c.inUse = 0
  | some a => c.inUse ≠ 0 ∧ ∀ ip tr, (c.data 0 == -1 || matchIp env c ip tr) = true ↔ a.holds env ip tr

def DateRep (env : Env) (c : IntC) : Option DateAsk → Prop
  | none => c.inUse = 0
  | some a => c.inUse ≠ 0 ∧ ∀ d, env.hours d d = 0 → (matchDate env c d = true ↔ a.holds env d)

def StrRep (w : Nat) (c : StrC) : Option (List (List Char)) → Prop
  | none => c.inUse = 0
  | some l => c.inUse ≠ 0 ∧ ∀ x, (matchStr c w x = true ↔ strHolds w l x)

theorem any_range (l : List Int) (n : Nat) (f : Nat → Int) (hn : n = l.length)
    (h : ∀ i, i < n → f i = l.getD i 0) (p : Int → Bool) :
    ((List.range n).any fun i => p (f i)) = l.any p := by
  subst hn
  rw [Bool.eq_iff_iff, List.any_eq_true, List.any_eq_true]
  constructor
  · rintro ⟨i, hi, hp⟩
    rw [List.mem_range] at hi
    rw [h i hi] at hp
    refine ⟨l.getD i 0, ?_, hp⟩
    rw [List.getD_eq_getElem _ _ hi]
    exact List.getElem_mem _
  · rintro ⟨x, hx, hp⟩
    obtain ⟨i, hi, rfl⟩ := List.getElem_of_mem hx
    refine ⟨i, List.mem_range.2 hi, ?_⟩
    rw [h i hi, List.getD_eq_getElem _ _ hi]
    exact hp

theorem fillIp_values (c : IntC) (v : Int) (vs : List Int) (hv1 : v ≠ -1) (hv2 : v ≠ -2)
    (hh : vs.head? ≠ some (-2)) :
    (fillIp c (v :: vs)).inUse = VALUE ∧ (fillIp c (v :: vs)).nelm = (v :: vs).length ∧
      ∀ i, i < (v :: vs).length → (fillIp c (v :: vs)).data i = (v :: vs).getD i 0 := by
  have h1 : vs ≠ [] → vs.getD 0 0 ≠ -2 := by
    intro hne
    cases vs with
    | nil => exact absurd rfl hne
    | cons a t => simpa using hh
  by_cases hn : vs = []
  · subst hn
    refine ⟨?_, ?_, ?_⟩
    · simp [fillIp]
    · simp [fillIp]
    · intro i hi
      have : i = 0 := by simpa using hi
      subst this
      simp [fillIp, hv1, put]
  · have hl : (v :: vs).length ≠ 1 := by
      cases vs with
      | nil => exact absurd rfl hn
      | cons a t => simp
    have h2 : vs.getD 0 0 ≠ -2 := h1 hn
    have e1 : (v :: vs).getD 1 0 = vs.getD 0 0 := rfl
    have key : fillIp c (v :: vs) = ⟨VALUE, (v :: vs).length, 0, fun j => if 1 ≤ j ∧ j < (v :: vs).length then
        (v :: vs).getD j 0 else put (put c.data 0 v) 2 (-2) j⟩ := by
      unfold fillIp
      simp only [List.getD_cons_zero, if_neg hv1, if_neg hl, e1, h2, hv2, false_and, or_self, if_false]
    rw [key]
    refine ⟨rfl, rfl, ?_⟩
    intro i hi
    dsimp only
    by_cases h0 : i = 0
    · subst h0
      rw [if_neg (by omega), put_ne _ _ _ _ (by omega), put_same]
      rfl
    · rw [if_pos ⟨by omega, hi⟩]

theorem fract_iff (x δ ε : ℚ) (hδ : 0 < δ) :
    (decide (fmod x δ / δ < ε) || decide (fmod x δ / δ > 1 - ε)) = true ↔ ∃ k : Int, |x - k * δ| < δ * ε := by
  have e : fmod x δ / δ = Int.fract (x / δ) := by
    unfold fmod Int.fract
    field_simp
  rw [e]
  obtain ⟨y, hy⟩ : ∃ y, y = x / δ := ⟨_, rfl⟩
  have hx : x = y * δ := by rw [hy]; field_simp
  rw [← hy]
  have hk : ∀ k : Int, |x - k * δ| < δ * ε ↔ |y - k| < ε := by
    intro k
    rw [hx, show y * δ - k * δ = (y - k) * δ by ring, abs_mul, abs_of_pos hδ]
    constructor <;> intro h <;> nlinarith
  simp only [hk, Bool.or_eq_true, decide_eq_true_eq]
  have hf0 := Int.fract_nonneg y
  have hf1 := Int.fract_lt_one y
  have hfl : y = ⌊y⌋ + Int.fract y := (Int.floor_add_fract y).symm
  constructor
  · rintro (h | h)
    · refine ⟨⌊y⌋, ?_⟩
      rw [show y - (⌊y⌋ : ℚ) = Int.fract y from rfl, abs_of_nonneg hf0]
      exact h
    · refine ⟨⌊y⌋ + 1, ?_⟩
      rw [abs_lt]
      push_cast
      constructor <;> linarith
  · rintro ⟨k, hkk⟩
    rw [abs_lt] at hkk
    rcases lt_trichotomy k ⌊y⌋ with h | h | h
    · have : (k : ℚ) + 1 ≤ ⌊y⌋ := by exact_mod_cast h
      left; linarith
    · left; rw [h] at hkk; linarith
    · have : (⌊y⌋ : ℚ) + 1 ≤ k := by exact_mod_cast h
      right; linarith

theorem matchIp_range (env : Env) (c : IntC) (ip : Int) (p2 p3 : ℚ × Int) (hu : c.inUse = RANGE ∨ c.inUse = DELTA)
    (h2 : (if c.data 0 ≥ 0 then env.conv (c.data 0) else env.conv ip) = p2)
    (h3 : (if c.data 1 ≥ 0 then env.conv (c.data 1) else env.conv ip) = p3) :
    matchIp env c ip true =
      if (env.conv ip).2 ≠ p2.2 ∨ (env.conv ip).2 ≠ p3.2 then false
      else if (env.conv ip).1 < min p2.1 p3.1 ∨ (env.conv ip).1 > max p2.1 p3.1 then false
      else if c.inUse = RANGE then true
      else if c.data 2 ≤ 0 then false
      else if (env.conv ip).1 = min p2.1 p3.1 then true
      else if (if c.data 2 < 0xFFFFF then (c.data 2 : ℚ) else env.real (c.data 2)) ≤ 0 then false
      else decide (fmod ((env.conv ip).1 - min p2.1 p3.1)
            (if c.data 2 < 0xFFFFF then (c.data 2 : ℚ) else env.real (c.data 2)) /
            (if c.data 2 < 0xFFFFF then (c.data 2 : ℚ) else env.real (c.data 2)) < 1 / 100000) ||
          decide (fmod ((env.conv ip).1 - min p2.1 p3.1)
            (if c.data 2 < 0xFFFFF then (c.data 2 : ℚ) else env.real (c.data 2)) /
            (if c.data 2 < 0xFFFFF then (c.data 2 : ℚ) else env.real (c.data 2)) > 99999 / 100000) := by
  have hlo : (if p2.1 > p3.1 then p3.1 else p2.1) = min p2.1 p3.1 := by
    split
    · rename_i h; rw [min_eq_right (le_of_lt h)]
    · rename_i h; rw [min_eq_left (not_lt.1 h)]
  have hhi : (if p2.1 > p3.1 then p2.1 else p3.1) = max p2.1 p3.1 := by
    split
    · rename_i h; rw [max_eq_left (le_of_lt h)]
    · rename_i h; rw [max_eq_right (not_lt.1 h)]
  unfold matchIp
  rw [if_neg (by rcases hu with h | h <;> rw [h] <;> decide), if_pos hu, if_neg (by decide)]
  dsimp only
  simp only [h2, h3, hlo, hhi]

/-- The two ends are put in order after the open one has been replaced by the value itself, so that an open
range accepts whatever is of the same kind. -/
theorem C43_open_range (env : Env) (c : IntC) (b : Int) (hb : 0 ≤ b) (ip : Int) :
    (matchIp env (fillIp c (IpAsk.upTo b).list) ip true = true ↔ (env.conv ip).2 = (env.conv b).2) ∧
    (matchIp env (fillIp c (IpAsk.from b).list) ip true = true ↔ (env.conv ip).2 = (env.conv b).2) := by
  constructor
  · obtain ⟨h1, h2, h3⟩ : (fillIp c (IpAsk.upTo b).list).inUse = RANGE ∧ (fillIp c (IpAsk.upTo b).list).data 0 = -2 ∧
        (fillIp c (IpAsk.upTo b).list).data 1 = b := by
      unfold fillIp IpAsk.list
      simp [put, show b ≠ -2 by omega]
    rw [matchIp_range env _ ip (env.conv ip) (env.conv b) (Or.inl h1) (by rw [h2, if_neg (by omega)])
      (by rw [h3, if_pos hb]), if_pos h1]
    by_cases hk : (env.conv ip).2 = (env.conv b).2
    · simp [hk]
    · simp [hk]
  · obtain ⟨h1, h2, h3⟩ : (fillIp c (IpAsk.from b).list).inUse = RANGE ∧ (fillIp c (IpAsk.from b).list).data 0 = b ∧
        (fillIp c (IpAsk.from b).list).data 1 = -2 := by
      unfold fillIp IpAsk.list
      simp [put, show b ≠ -1 by omega]
    rw [matchIp_range env _ ip (env.conv b) (env.conv ip) (Or.inl h1) (by rw [h2, if_pos hb])
      (by rw [h3, if_neg (by omega)]), if_pos h1]
    by_cases hk : (env.conv ip).2 = (env.conv b).2
    · simp [hk]
    · simp [hk]

theorem fillIp_rep (env : Env) (c : IntC) (a : IpAsk) (ha : a.Wf) : IpRep env (fillIp c a.list) (some a) := by
  cases a with
  | any =>
    have h : fillIp c (IpAsk.any).list = ⟨VALUE, 1, 0, put c.data 0 (-1)⟩ := rfl
    rw [h]
    refine ⟨Nat.one_ne_zero, fun ip tr => ?_⟩
    dsimp only
    rw [put_same]
    simp [IpAsk.holds]
  | values v vs =>
    obtain ⟨hv1, hv2, hvs, hh⟩ := ha
    obtain ⟨e1, e2, e3⟩ := fillIp_values c v vs hv1 hv2 hh
    have hl : (IpAsk.values v vs).list = v :: vs := rfl
    rw [hl]
    refine ⟨by rw [e1]; decide, fun ip tr => ?_⟩
    have h0 : (fillIp c (v :: vs)).data 0 = v := e3 0 (by simp)
    rw [h0, show (v == -1) = false by simpa using hv1, Bool.false_or]
    unfold matchIp
    rw [e1, if_neg (by decide), if_neg (by decide), if_pos rfl]
    rw [any_range (v :: vs) _ _ e2 (by rw [e2]; exact e3) (fun w => ip == w || w == -1)]
    have hin : ((v :: vs).any fun w => ip == w || w == -1) = true ↔ ip ∈ v :: vs := by
      rw [List.any_eq_true]
      constructor
      · rintro ⟨w, hw, hp⟩
        rcases Bool.or_eq_true _ _ ▸ hp with h | h
        · rw [beq_iff_eq] at h; rw [h]; exact hw
        · rw [beq_iff_eq] at h
          rcases List.mem_cons.1 hw with h' | h'
          · exact absurd (h'.symm.trans h) hv1
          · exact absurd h (hvs w h')
      · intro h; exact ⟨ip, h, by simp⟩
    unfold IpAsk.holds
    by_cases hm : ip ∈ v :: vs
    · rw [if_pos (hin.2 hm)]
      simp only [true_iff]
      exact Or.inl hm
    · rw [if_neg (fun h => hm (hin.1 h))]
      cases tr with
      | false => simp [hm]
      | true =>
        rw [if_neg (by decide)]
        rw [any_range (v :: vs) _ _ e2 (by rw [e2]; exact e3) (fun w =>
          if (env.conv ip).2 ≠ (env.conv w).2 then false
          else if (env.conv w).1 = 0 then false
          else decide (|1 - (env.conv ip).1 / (env.conv w).1| < 1 / 1000000))]
        rw [List.any_eq_true]
        constructor
        · rintro ⟨w, hw, hp⟩
          refine Or.inr ⟨rfl, w, hw, ?_⟩
          split at hp
          · cases hp
          · rename_i hk
            split at hp
            · cases hp
            · rename_i hz
              exact ⟨not_not.1 hk, hz, of_decide_eq_true hp⟩
        · rintro (h | ⟨-, w, hw, hk, hz, hp⟩)
          · exact absurd h hm
          · refine ⟨w, hw, ?_⟩
            rw [if_neg (not_not.2 hk), if_neg hz]
            exact decide_eq_true hp
  | upTo b => exact ha.elim
  | «from» b => exact ha.elim
  | between a b =>
    obtain ⟨ha0, hb⟩ : 0 ≤ a ∧ 0 ≤ b := ha
    obtain ⟨h1, h2, h3⟩ : (fillIp c (IpAsk.between a b).list).inUse = RANGE ∧ (fillIp c (IpAsk.between a b).list).data 0 = a ∧
        (fillIp c (IpAsk.between a b).list).data 1 = b := by
      unfold fillIp IpAsk.list
      simp [put, show a ≠ -1 by omega]
    refine ⟨by rw [h1]; decide, fun ip tr => ?_⟩
    have hb1 : (a == -1) = false := by simp; omega
    rw [h2, hb1, Bool.false_or]
    cases tr with
    | false => simp [IpAsk.holds, matchIp, h1]
    | true =>
      simp only [IpAsk.holds]
      rw [matchIp_range env _ ip (env.conv a) (env.conv b) (Or.inl h1) (by rw [h2, if_pos ha0])
        (by rw [h3, if_pos hb]), if_pos h1]
      by_cases hk : (env.conv ip).2 = (env.conv a).2 ∧ (env.conv ip).2 = (env.conv b).2
      swap
      · rw [if_pos (by rw [← not_and_or]; exact hk)]
        constructor
        · intro h; cases h
        · rintro ⟨-, q1, q2, -⟩; exact absurd ⟨q1, q2⟩ hk
      rw [if_neg (by rw [← not_and_or]; exact not_not.2 hk)]
      by_cases hq : (env.conv ip).1 < min (env.conv a).1 (env.conv b).1 ∨ (env.conv ip).1 > max (env.conv a).1 (env.conv b).1
      · rw [if_pos hq]
        constructor
        · intro h; cases h
        · rintro ⟨-, -, -, q1, q2⟩
          rcases hq with h | h <;> linarith
      · have hq' := not_or.1 hq
        rw [if_neg hq]
        simp only [true_iff]
        exact ⟨trivial, hk.1, hk.2, not_lt.1 hq'.1, not_lt.1 hq'.2⟩
  | every a b d =>
    obtain ⟨ha0, hb, hd⟩ : 0 ≤ a ∧ 0 ≤ b ∧ 0 < d := ha
    obtain ⟨h1, h2, h3, h4⟩ : (fillIp c (IpAsk.every a b d).list).inUse = DELTA ∧ (fillIp c (IpAsk.every a b d).list).data 0 = a ∧
        (fillIp c (IpAsk.every a b d).list).data 1 = b ∧ (fillIp c (IpAsk.every a b d).list).data 2 = d := by
      unfold fillIp IpAsk.list
      simp [put, show a ≠ -1 by omega]
    refine ⟨by rw [h1]; decide, fun ip tr => ?_⟩
    have hb1 : (a == -1) = false := by simp; omega
    rw [h2, hb1, Bool.false_or]
    cases tr with
    | false => simp [IpAsk.holds, matchIp, h1]
    | true =>
      simp only [IpAsk.holds]
      rw [matchIp_range env _ ip (env.conv a) (env.conv b) (Or.inr h1) (by rw [h2, if_pos ha0])
        (by rw [h3, if_pos hb]), h1, h4]
      by_cases hk : (env.conv ip).2 = (env.conv a).2 ∧ (env.conv ip).2 = (env.conv b).2
      swap
      · rw [if_pos (by rw [← not_and_or]; exact hk)]
        constructor
        · intro h; cases h
        · rintro ⟨-, q1, q2, -⟩; exact absurd ⟨q1, q2⟩ hk
      rw [if_neg (by rw [← not_and_or]; exact not_not.2 hk)]
      by_cases hq : (env.conv ip).1 < min (env.conv a).1 (env.conv b).1 ∨ (env.conv ip).1 > max (env.conv a).1 (env.conv b).1
      · rw [if_pos hq]
        constructor
        · intro h; cases h
        · rintro ⟨-, -, -, q1, q2, -⟩
          rcases hq with h | h <;> linarith
      have hq' := not_or.1 hq
      rw [if_neg hq, if_neg (by decide), if_neg (by omega)]
      by_cases he : (env.conv ip).1 = min (env.conv a).1 (env.conv b).1
      · rw [if_pos he]
        simp only [true_iff]
        exact ⟨trivial, hk.1, hk.2, not_lt.1 hq'.1, not_lt.1 hq'.2, Or.inl he⟩
      rw [if_neg he]
      obtain ⟨δ, hδ⟩ : ∃ δ, δ = (if d < 0xFFFFF then (d : ℚ) else env.real d) := ⟨_, rfl⟩
      rw [← hδ]
      by_cases hpos : δ ≤ 0
      · rw [if_pos hpos]
        constructor
        · intro h; cases h
        · rintro ⟨-, -, -, -, -, h | ⟨δ', e', p', -⟩⟩
          · exact absurd h he
          · exfalso; rw [e'] at p'; linarith
      rw [if_neg hpos]
      have hf := fract_iff ((env.conv ip).1 - min (env.conv a).1 (env.conv b).1) δ (1 / 100000) (not_le.1 hpos)
      rw [show (1 : ℚ) - 1 / 100000 = 99999 / 100000 by norm_num] at hf
      rw [hf]
      constructor
      · rintro ⟨k, hkk⟩
        refine ⟨trivial, hk.1, hk.2, not_lt.1 hq'.1, not_lt.1 hq'.2, Or.inr ⟨δ, rfl, not_le.1 hpos, k, ?_⟩⟩
        rw [mul_one_div] at hkk
        exact hkk
      · rintro ⟨-, -, -, -, -, h | ⟨δ', e', p', k, hkk⟩⟩
        · exact absurd h he
        · refine ⟨k, ?_⟩
          rw [mul_one_div]
          rw [e'] at hkk
          exact hkk

theorem fillDate_values (env : Env) (l : List Int) (n : Nat) (hl : ∀ i, i < n → l.getD i 0 ≠ -2 ∧ l.getD i 0 ≠ -3) :
    ∀ fuel i range delta (c : IntC), i + fuel = n →
      ∃ d, fillDate env l n fuel i range delta c = some { c with data := d } ∧
        ∀ j, d j = if i ≤ j ∧ j < n then l.getD j 0 else c.data j := by
  intro fuel
  induction fuel with
  | zero =>
    intro i range delta c h
    refine ⟨c.data, rfl, fun j => ?_⟩
    rw [if_neg (by omega)]
  | succ f ih =>
    intro i range delta c h
    obtain ⟨h2, h3⟩ := hl i (by omega)
    obtain ⟨d, hd, hj⟩ := ih (i + 1) range delta { c with data := put c.data i (l.getD i 0) } (by omega)
    refine ⟨d, ?_, fun j => ?_⟩
    · rw [fillDate, if_pos (by omega)]
      simp only [if_neg h3, if_neg h2]
      exact hd
    · rw [hj j]
      by_cases e : j = i
      · subst e
        rw [if_neg (by omega), if_pos (by omega)]
        exact put_same _ _ _
      · by_cases g : i ≤ j ∧ j < n
        · rw [if_pos (by omega), if_pos g]
        · rw [if_neg (by omega), if_neg g]
          exact put_ne _ _ _ _ e

theorem fillDates_values (env : Env) (c : IntC) (v : Int) (vs : List Int) (hv1 : v ≠ -1)
    (hl : ∀ w ∈ v :: vs, w ≠ -2 ∧ w ≠ -3) :
    (fillDates env c (v :: vs)).1.inUse = VALUE ∧ (fillDates env c (v :: vs)).1.nelm = (v :: vs).length ∧
      ∀ i, i < (v :: vs).length → (fillDates env c (v :: vs)).1.data i = (v :: vs).getD i 0 := by
  unfold fillDates
  simp only [List.getD_cons_zero, if_neg hv1]
  by_cases hn : (v :: vs).length = 1
  · rw [if_pos hn]
    refine ⟨rfl, rfl, ?_⟩
    intro i hi
    have : i = 0 := by omega
    subst this
    exact put_same c.data 0 v
  · rw [if_neg hn]
    have hl' : ∀ i, i < (v :: vs).length → (v :: vs).getD i 0 ≠ -2 ∧ (v :: vs).getD i 0 ≠ -3 := by
      intro i hi
      rw [List.getD_eq_getElem _ _ hi]
      exact hl _ (List.getElem_mem _)
    obtain ⟨d, hd, hj⟩ := fillDate_values env (v :: vs) _ hl' (v :: vs).length 0 0 0
      ⟨VALUE, (v :: vs).length, 0, put c.data 0 v⟩ (by omega)
    rw [hd]
    refine ⟨rfl, rfl, ?_⟩
    intro i hi
    change d i = _
    rw [hj i, if_pos ⟨by omega, hi⟩]

theorem fmod_le_iff (x δ ε : ℚ) (hδ : 0 < δ) :
    fmod x δ ≤ ε ↔ ∃ k : Int, 0 ≤ x - k * δ ∧ x - k * δ ≤ ε := by
  unfold fmod
  have h1 : (⌊x / δ⌋ : ℚ) ≤ x / δ := Int.floor_le _
  have h2 : (⌊x / δ⌋ : ℚ) * δ ≤ x := by rwa [le_div_iff₀ hδ] at h1
  constructor
  · intro h
    exact ⟨⌊x / δ⌋, by linarith, by linarith⟩
  · rintro ⟨k, h0, hk⟩
    have : k ≤ ⌊x / δ⌋ := by
      rw [Int.le_floor, le_div_iff₀ hδ]
      linarith
    have h3 : (k : ℚ) ≤ ⌊x / δ⌋ := by exact_mod_cast this
    have := mul_le_mul_of_nonneg_right h3 (le_of_lt hδ)
    linarith

theorem fillDates_rep (env : Env) (c : IntC) (a : DateAsk) (ha : a.Wf env) :
    DateRep env (fillDates env c a.list).1 (some a) := by
  cases a with
  | any =>
    have h : (fillDates env c (DateAsk.any).list).1 = ⟨VALUE, 1, 0, put c.data 0 (-1)⟩ := rfl
    rw [h]
    refine ⟨Nat.one_ne_zero, fun d _ => ?_⟩
    simp [matchDate, DateAsk.holds, put]
  | values v vs =>
    obtain ⟨hv1, hvs⟩ := ha
    obtain ⟨e1, e2, e3⟩ := fillDates_values env c v vs hv1 hvs
    have hl : (DateAsk.values v vs).list = v :: vs := rfl
    rw [hl]
    refine ⟨by rw [e1]; decide, fun d _ => ?_⟩
    have h0 : (fillDates env c (v :: vs)).1.data 0 = v := e3 0 (by simp)
    unfold matchDate
    rw [e1, if_neg (by decide), if_pos rfl, h0, show (v == -1) = false by simpa using hv1, Bool.false_or]
    rw [any_range (v :: vs) _ _ e2 (by rw [e2]; exact e3) (fun w => w == d)]
    simp only [DateAsk.holds, List.any_eq_true, beq_iff_eq]
    constructor
    · rintro ⟨w, hw, rfl⟩; exact hw
    · intro h; exact ⟨d, h, rfl⟩
  | upTo b =>
    have hb : 0 < b := ha
    obtain ⟨h1, h2, h3⟩ : (fillDates env c (DateAsk.upTo b).list).1.inUse = RANGE ∧
        (fillDates env c (DateAsk.upTo b).list).1.data 0 = -2 ∧ (fillDates env c (DateAsk.upTo b).list).1.data 1 = b := by
      simp [fillDates, DateAsk.list, fillDate, put, show b ≠ -2 by omega, show b ≠ -3 by omega]
    refine ⟨by rw [h1]; decide, fun d hd => ?_⟩
    simp [matchDate, h1, h2, h3, DateAsk.holds, hd, show ¬ b ≤ 0 by omega]
  | «from» b =>
    have hb : 0 < b := ha
    obtain ⟨h1, h2, h3⟩ : (fillDates env c (DateAsk.from b).list).1.inUse = RANGE ∧
        (fillDates env c (DateAsk.from b).list).1.data 0 = b ∧ (fillDates env c (DateAsk.from b).list).1.data 1 = -2 := by
      simp [fillDates, DateAsk.list, fillDate, put, show b ≠ -2 by omega, show b ≠ -3 by omega, show b ≠ -1 by omega]
    refine ⟨by rw [h1]; decide, fun d hd => ?_⟩
    simp [matchDate, h1, h2, h3, DateAsk.holds, hd, show ¬ b ≤ 0 by omega]
  | between a b =>
    obtain ⟨ha0, hb⟩ : 0 < a ∧ 0 < b := ha
    obtain ⟨h1, h2, h3⟩ : (fillDates env c (DateAsk.between a b).list).1.inUse = RANGE ∧
        (fillDates env c (DateAsk.between a b).list).1.data 0 = a ∧ (fillDates env c (DateAsk.between a b).list).1.data 1 = b := by
      simp [fillDates, DateAsk.list, fillDate, put, show b ≠ -2 by omega, show b ≠ -3 by omega, show a ≠ -1 by omega,
        show a ≠ -2 by omega, show a ≠ -3 by omega]
    refine ⟨by rw [h1]; decide, fun d hd => ?_⟩
    simp [matchDate, h1, h2, h3, DateAsk.holds, show ¬ b ≤ 0 by omega, show ¬ a ≤ 0 by omega]
  | every a b h =>
    obtain ⟨ha0, hb, hh2, hh3, hs⟩ : 0 < a ∧ 0 < b ∧ h ≠ -2 ∧ h ≠ -3 ∧ 0 < seconds env h := ha
    obtain ⟨h1, h2, h3, h4⟩ : (fillDates env c (DateAsk.every a b h).list).1.inUse = DELTA ∧
        (fillDates env c (DateAsk.every a b h).list).1.data 0 = a ∧ (fillDates env c (DateAsk.every a b h).list).1.data 1 = b ∧
        (fillDates env c (DateAsk.every a b h).list).1.delta = seconds env h := by
      simp [fillDates, DateAsk.list, fillDate, put, show b ≠ -2 by omega, show b ≠ -3 by omega, show a ≠ -1 by omega,
        show a ≠ -2 by omega, show a ≠ -3 by omega, hh2, hh3, seconds]
    refine ⟨by rw [h1]; decide, fun d hd => ?_⟩
    have hpos : (0 : ℚ) < (seconds env h : ℚ) / 3600 := by
      have : (0 : ℚ) < seconds env h := by exact_mod_cast hs
      positivity
    unfold matchDate
    rw [h1, if_neg (by decide), if_neg (by decide)]
    simp only [h2, h3, h4, if_neg (show ¬ b ≤ 0 by omega), if_neg (show ¬ a ≤ 0 by omega), DateAsk.holds, abs_of_pos hpos]
    rw [if_neg (by decide)]
    simp only [Bool.and_eq_true, decide_eq_true_eq, fmod_le_iff _ _ _ hpos]
    constructor
    · rintro ⟨⟨⟨p, q⟩, -⟩, r⟩; exact ⟨p, q, r⟩
    · rintro ⟨p, q, r⟩; exact ⟨⟨⟨p, q⟩, ne_of_gt hpos⟩, r⟩

theorem fillStr_rep (w : Nat) (c : StrC) (l : List (List Char)) (hl : l ≠ []) :
    StrRep w (fillStr (w + 1) c l) (some l) := by
  refine ⟨Nat.one_ne_zero, fun x => ?_⟩
  unfold matchStr
  rw [if_pos (show (fillStr (w + 1) c l).inUse ≠ 0 from Nat.one_ne_zero)]
  unfold fillStr strHolds
  simp only
  obtain ⟨e, t, rfl⟩ := List.exists_cons_of_ne_nil hl
  rw [if_pos (by simp)]
  rw [Bool.or_eq_true]
  apply or_congr
  · cases e with
    | nil => simp
    | cons a b => simp
  · rw [List.any_eq_true]
    constructor
    · rintro ⟨i, hi, hp⟩
      rw [List.mem_range] at hi
      simp only [if_pos hi, List.getD_eq_getElem _ _ hi, List.take_take] at hp
      refine ⟨(e :: t)[i], List.getElem_mem _, ?_⟩
      rw [List.isPrefixOf_iff_prefix, Nat.min_eq_left (by omega)] at hp
      exact hp
    · rintro ⟨y, hy, hp⟩
      obtain ⟨i, hi, rfl⟩ := List.getElem_of_mem hy
      refine ⟨i, List.mem_range.2 hi, ?_⟩
      simp only [if_pos hi, List.getD_eq_getElem _ _ hi, List.take_take]
      rw [List.isPrefixOf_iff_prefix, Nat.min_eq_left (by omega)]
      exact hp

/-! ### The table -/

def SupplRep (r : Req) : Option Suppl → Prop
  | none => r.inUseSupp = 0
  | some s => r.inUseSupp ≠ 0 ∧ r.supp = s

structure Crit (env : Env) (r : Req) (a : Ask) : Prop where
  etiket : StrRep 12 r.etiquettes a.etiket
  nomvar : StrRep 4 r.nomvars a.nomvar
  typvar : StrRep 2 r.typvars a.typvar
  date : DateRep env r.dates a.date
  ip1 : IpRep env r.ip1s a.ip1
  ip2 : IpRep env r.ip2s a.ip2
  ip3 : IpRep env r.ip3s a.ip3
  suppl : SupplRep r a.suppl

def ReqRep (env : Env) (r : Req) : Option Ask → Prop
  | none => r.inUse = 0 ∧ Crit env r { desire := true }
  | some a => r.inUse ≠ 0 ∧ r.exdes = (if a.desire then 1 else -1) ∧ Crit env r a

structure Rep (env : Env) (s : State) (t : Table) : Prop where
  first : s.first = t.first
  last : s.last = t.last
  order : t.first ≤ t.last
  bound : t.last < 50
  req : ∀ n, ReqRep env (s.reqs n) (t.ask n)

theorem blank_rep (env : Env) : ReqRep env blankReq none :=
  ⟨rfl, ⟨rfl, rfl, rfl, rfl, rfl, rfl, rfl, rfl⟩⟩

theorem init_rep (env : Env) : Rep env init empty :=
  ⟨rfl, rfl, by decide, by decide, fun _ => blank_rep env⟩

theorem desire_des (b : Bool) : desire (des b) = if b then 1 else -1 := by cases b <;> rfl

theorem valid_iff (env : Env) (r : Req) (t : Table) (n : Nat) (b : Bool) (i : Item) (h : ReqRep env r (t.ask n)) :
    valid r (des b) i.length = true ↔ ¬ refused t n b i := by
  unfold valid refused maxList
  rw [desire_des]
  by_cases h50 : i.length > 50
  · rw [if_pos h50]
    simp [h50]
  rw [if_neg h50]
  by_cases h0 : i.length = 0
  · rw [if_pos h0]
    simp [h0]
  rw [if_neg h0]
  have e0 : ¬ (50 < i.length) := h50
  simp only [h0, e0, or_false]
  cases ht : t.ask n with
  | none =>
    rw [ht] at h
    simp [h.1]
  | some a =>
    rw [ht] at h
    obtain ⟨h1, h2, -⟩ := h
    rw [h2]
    cases hd : a.desire <;> cases b <;> simp [h1, hd]

/-- Selecting something in a set, as the table sees it. -/
theorem select_rep (env : Env) (s : State) (t : Table) (n : Nat) (b : Bool) (i : Item) (f : Req → Req × Int)
    (h : Rep env s t) (hn : n < 50)
    (hok : refused t n b i → ∀ a, t.ask n = some a → a.date = none)
    (hf : ∀ r a, ¬ refused t n b i → Crit env r a → Crit env (f r).1 (a.add i) ∧ (f r).1.inUse = r.inUse ∧
      (f r).1.exdes = r.exdes) :
    ∃ s' v, select s n (des b) i.length f = some (s', v) ∧ Rep env s' (t.step (.select n b i)) := by
  have hr := h.req n
  unfold select maxSets
  rw [if_neg (by omega)]
  simp only [Int.toNat_natCast]
  by_cases hv : refused t n b i
  · rw [if_neg (fun e => (valid_iff env _ t n b i hr).1 e hv)]
    refine ⟨_, _, rfl, ?_⟩
    have e : t.step (.select n b i) = t := by simp [Table.step, hv]
    rw [e]
    refine ⟨h.first, h.last, h.order, h.bound, fun m => ?_⟩
    by_cases hm : m = n
    · subst hm
      simp only [put_same]
      cases ht : t.ask m with
      | none =>
        rw [ht] at hr
        exact ⟨hr.1, ⟨hr.2.1, hr.2.2, hr.2.3, rfl, hr.2.5, hr.2.6, hr.2.7, hr.2.8⟩⟩
      | some a =>
        rw [ht] at hr
        obtain ⟨r1, r2, r3⟩ := hr
        refine ⟨r1, r2, ⟨r3.1, r3.2, r3.3, ?_, r3.5, r3.6, r3.7, r3.8⟩⟩
        rw [hok hv a ht]
        rfl
    · simp only [put_ne _ _ _ _ hm]
      exact h.req m
  · rw [if_pos ((valid_iff env _ t n b i hr).2 hv)]
    refine ⟨_, _, rfl, ?_⟩
    have e : t.step (.select n b i) =
        { t with ask := fun m => if m = n then some (((t.ask n).getD { desire := b }).add i) else t.ask m } := by
      simp [Table.step, hv]
    rw [e]
    refine ⟨h.first, h.last, h.order, h.bound, fun m => ?_⟩
    by_cases hm : m = n
    swap
    · simp only [put_ne _ _ _ _ hm, if_neg hm]
      exact h.req m
    subst hm
    simp only [put_same, if_true]
    have key : ∀ a : Ask, a.desire = b → Crit env (s.reqs m) a →
        ReqRep env (f { s.reqs m with inUse := 255, exdes := desire (des b) }).1 (some (a.add i)) := by
      intro a hd hc
      have hc' : Crit env { s.reqs m with inUse := 255, exdes := desire (des b) } a :=
        ⟨hc.1, hc.2, hc.3, hc.4, hc.5, hc.6, hc.7, by
          have := hc.8
          cases hs : a.suppl with
          | none => rw [hs] at this; exact this
          | some z => rw [hs] at this; exact this⟩
      obtain ⟨q1, q2, q3⟩ := hf _ a hv hc'
      refine ⟨by rw [q2]; exact (by decide : (255 : Nat) ≠ 0), ?_, q1⟩
      rw [q3]
      have : (a.add i).desire = b := by cases i <;> exact hd
      rw [this]
      exact desire_des b
    cases ht : t.ask m with
    | none =>
      rw [ht] at hr
      refine key { desire := b } rfl ?_
      exact ⟨hr.2.1, hr.2.2, hr.2.3, hr.2.4, hr.2.5, hr.2.6, hr.2.7, hr.2.8⟩
    | some a =>
      rw [ht] at hr
      refine key a ?_ hr.2.2
      by_cases hd : a.desire = b
      · exact hd
      · exact absurd (Or.inl ⟨a, ht, hd⟩) hv

theorem step_rep (env : Env) (s : State) (t : Table) (w : Wish) (h : Rep env s t) (ha : Allowed env t w) :
    ∃ s' v, step env s w.call = some (s', v) ∧ Rep env s' (t.step w) := by
  cases w with
  | select n b i =>
    obtain ⟨hn, hw, hok⟩ := ha
    cases i with
    | ip1 a =>
      exact select_rep env s t n b (.ip1 a) (fun r => ({ r with ip1s := fillIp r.ip1s a.list }, 0)) h hn hok fun r c _ hc =>
        ⟨⟨hc.1, hc.2, hc.3, hc.4, fillIp_rep env _ a hw, hc.6, hc.7, hc.8⟩, rfl, rfl⟩
    | ip2 a =>
      exact select_rep env s t n b (.ip2 a) (fun r => ({ r with ip2s := fillIp r.ip2s a.list }, 0)) h hn hok fun r c _ hc =>
        ⟨⟨hc.1, hc.2, hc.3, hc.4, hc.5, fillIp_rep env _ a hw, hc.7, hc.8⟩, rfl, rfl⟩
    | ip3 a =>
      exact select_rep env s t n b (.ip3 a) (fun r => ({ r with ip3s := fillIp r.ip3s a.list }, 0)) h hn hok fun r c _ hc =>
        ⟨⟨hc.1, hc.2, hc.3, hc.4, hc.5, hc.6, fillIp_rep env _ a hw, hc.8⟩, rfl, rfl⟩
    | date a =>
      exact select_rep env s t n b (.date a) (fun r =>
        ({ r with dates := (fillDates env r.dates a.list).1 }, (fillDates env r.dates a.list).2)) h hn hok fun r c _ hc =>
        ⟨⟨hc.1, hc.2, hc.3, fillDates_rep env _ a hw, hc.5, hc.6, hc.7, hc.8⟩, rfl, rfl⟩
    | etiket l =>
      refine select_rep env s t n b (.etiket l) (fun r => ({ r with etiquettes := fillStr 13 r.etiquettes l }, 0)) h hn hok fun r c hv hc =>
        ⟨⟨fillStr_rep 12 _ l ?_, hc.2, hc.3, hc.4, hc.5, hc.6, hc.7, hc.8⟩, rfl, rfl⟩
      rintro rfl
      exact hv (Or.inr (Or.inl rfl))
    | nomvar l =>
      refine select_rep env s t n b (.nomvar l) (fun r => ({ r with nomvars := fillStr 5 r.nomvars l }, 0)) h hn hok fun r c hv hc =>
        ⟨⟨hc.1, fillStr_rep 4 _ l ?_, hc.3, hc.4, hc.5, hc.6, hc.7, hc.8⟩, rfl, rfl⟩
      rintro rfl
      exact hv (Or.inr (Or.inl rfl))
    | typvar l =>
      refine select_rep env s t n b (.typvar l) (fun r => ({ r with typvars := fillStr 3 r.typvars l }, 0)) h hn hok fun r c hv hc =>
        ⟨⟨hc.1, hc.2, fillStr_rep 2 _ l ?_, hc.4, hc.5, hc.6, hc.7, hc.8⟩, rfl, rfl⟩
      rintro rfl
      exact hv (Or.inr (Or.inl rfl))
    | suppl z =>
      exact select_rep env s t n b (.suppl z) (fun r => ({ r with supp := z, inUseSupp := 1 }, 0)) h hn hok fun r c _ hc =>
        ⟨⟨hc.1, hc.2, hc.3, hc.4, hc.5, hc.6, hc.7, ⟨Nat.one_ne_zero, rfl⟩⟩, rfl, rfl⟩
  | reset n =>
    simp only [Wish.call, step, Table.step]
    have hM : maxSets - 1 = 49 := rfl
    by_cases hn : n < 50
    · rw [if_neg (show ¬ ((n : Int) > maxSets - 1) by omega), if_neg (show ¬ ((n : Int) < 0) by omega), if_pos hn]
      refine ⟨_, _, rfl, h.first, h.last, h.order, h.bound, fun m => ?_⟩
      simp only [Int.toNat_natCast]
      by_cases hm : m = n
      · subst hm
        simp only [put_same, if_true]
        exact blank_rep env
      · simp only [put_ne _ _ _ _ hm, if_neg hm]
        exact h.req m
    · rw [if_pos (show ((n : Int) > maxSets - 1) by omega), if_neg hn]
      exact ⟨_, _, rfl, h⟩
  | group f l =>
    simp only [Wish.call, step, Table.step]
    have hM : maxSets - 1 = 49 := rfl
    by_cases hg : l < 50 ∧ f ≤ l
    · rw [if_neg (show ¬ ((f : Int) > maxSets - 1 ∨ (l : Int) > maxSets - 1 ∨ (f : Int) > l) by omega), if_pos hg]
      exact ⟨_, _, rfl, rfl, rfl, hg.2, hg.1, h.req⟩
    · rw [if_pos (show ((f : Int) > maxSets - 1 ∨ (l : Int) > maxSets - 1 ∨ (f : Int) > l) by omega), if_neg hg]
      exact ⟨_, _, rfl, h⟩

theorem run_append (env : Env) (cs : List Call) (c : Call) : ∀ s : State,
    run env s (cs ++ [c]) = (run env s cs).bind fun s' => (step env s' c).map Prod.fst := by
  induction cs with
  | nil =>
    intro s
    simp only [List.nil_append, run, Option.bind_some]
    cases step env s c with
    | none => rfl
    | some p => rfl
  | cons d ds ih =>
    intro s
    simp only [List.cons_append, run]
    cases step env s d with
    | none => rfl
    | some p => exact ih p.1

theorem history_rep (env : Env) {ws t} (h : History env ws t) :
    ∃ s, run env init (ws.map Wish.call) = some s ∧ Rep env s t := by
  induction h with
  | nil => exact ⟨init, rfl, init_rep env⟩
  | snoc _ ha ih =>
    obtain ⟨s, hs, hr⟩ := ih
    obtain ⟨s', v, h1, h2⟩ := step_rep env s _ _ hr ha
    refine ⟨s', ?_, h2⟩
    rw [List.map_append, List.map_cons, List.map_nil, run_append, hs]
    simp [h1]

/-! ### The decision -/

theorem str_iff (w : Nat) (c : StrC) (o : Option (List (List Char))) (x : List Char) (h : StrRep w c o) :
    matchStr c w x = true ↔ ∀ l ∈ o, strHolds w l x := by
  cases o with
  | none => simp [matchStr, show c.inUse = 0 from h]
  | some l => simp [h.2 x]

theorem date_iff (env : Env) (c : IntC) (o : Option DateAsk) (d : Int) (hd : env.hours d d = 0) (h : DateRep env c o) :
    matchDate env c d = true ↔ ∀ a ∈ o, a.holds env d := by
  cases o with
  | none => simp [matchDate, show c.inUse = 0 from h]
  | some l => simp [h.2 d hd]

theorem ip_iff (env : Env) (c : IntC) (o : Option IpAsk) (ip : Int) (tr : Bool) (h : IpRep env c o) :
    matchIpC env c ip tr = true ↔ ∀ a ∈ o, a.holds env ip tr := by
  cases o with
  | none => simp [matchIpC, show c.inUse = 0 from h]
  | some a =>
    unfold matchIpC
    rw [if_pos h.1, h.2 ip tr]
    simp

theorem suppl_iff (r : Req) (o : Option Suppl) (x : Rec) (h : SupplRep r o)
    (h4 : ∀ p ∈ o, p.ig4 = -1 ∨ x.ig4 = x.ig2) : matchSuppl r x = true ↔ ∀ p ∈ o, supplHolds p x := by
  cases o with
  | none => simp [matchSuppl, show r.inUseSupp = 0 from h]
  | some p =>
    obtain ⟨h1, rfl⟩ : r.inUseSupp ≠ 0 ∧ r.supp = p := h
    have h4' := h4 _ rfl
    have e4 : (r.supp.ig4 = -1 ∨ r.supp.ig4 = x.ig2) ↔ (r.supp.ig4 = -1 ∨ r.supp.ig4 = x.ig4) := by
      rcases h4' with h | h
      · simp [h]
      · rw [h]
    unfold matchSuppl
    rw [if_pos h1]
    simp only [Option.mem_def, Option.some.injEq, forall_eq', supplHolds, ← e4]
    simp only [Bool.not_eq_true', Bool.or_eq_false_iff, Bool.and_eq_false_iff,
      bne_eq_false_iff_eq]
    constructor
    · rintro ⟨⟨⟨⟨⟨⟨⟨a, b⟩, c⟩, d⟩, e⟩, f⟩, g⟩, i⟩
      exact ⟨e.symm, f.symm, g.symm, a.symm, b.symm, c.symm, d.symm, i.symm⟩
    · rintro ⟨e, f, g, a, b, c, d, i⟩
      exact ⟨⟨⟨⟨⟨⟨⟨a.symm, b.symm⟩, c.symm⟩, d.symm⟩, e.symm⟩, f.symm⟩, g.symm⟩, i.symm⟩

theorem satisfied_iff (env : Env) (r : Req) (a : Ask) (x : Rec) (h : Crit env r a)
    (hd : env.hours x.date x.date = 0) (h4 : ∀ p ∈ a.suppl, p.ig4 = -1 ∨ x.ig4 = x.ig2) :
    satisfied env r x = true ↔ a.holds env x := by
  simp only [satisfied, Bool.and_eq_true, Ask.holds, str_iff _ _ _ _ h.etiket, str_iff _ _ _ _ h.nomvar,
    str_iff _ _ _ _ h.typvar, date_iff env _ _ _ hd h.date, ip_iff env _ _ _ _ h.ip1, ip_iff env _ _ _ _ h.ip2,
    ip_iff env _ _ _ _ h.ip3, suppl_iff _ _ _ h.suppl h4]
  tauto

theorem scan_spec (env : Env) (s : State) (x : Rec) : ∀ ns nb,
    (∃ pre n post, ns = pre ++ n :: post ∧ (s.reqs n).inUse ≠ 0 ∧ satisfied env (s.reqs n) x = true ∧
      (∀ m ∈ pre, (s.reqs m).inUse ≠ 0 → satisfied env (s.reqs m) x = false) ∧
      scan env s x ns nb = .inl (if (s.reqs n).exdes = 1 then (n : Int) + 1 else 0)) ∨
    (∃ k, scan env s x ns nb = .inr (nb + k) ∧
      (∀ m ∈ ns, (s.reqs m).inUse ≠ 0 → satisfied env (s.reqs m) x = false) ∧
      (k = 0 ↔ ∀ m ∈ ns, (s.reqs m).inUse ≠ 0 → (s.reqs m).exdes ≠ 1)) := by
  intro ns
  induction ns with
  | nil => intro nb; exact Or.inr ⟨0, rfl, by simp, by simp⟩
  | cons n ns ih =>
    intro nb
    simp only [scan]
    by_cases hu : (s.reqs n).inUse = 0
    · rw [if_pos hu]
      rcases ih nb with ⟨pre, m, post, e, h1, h2, h3, h4⟩ | ⟨k, h1, h2, h3⟩
      · left
        refine ⟨n :: pre, m, post, by rw [e]; rfl, h1, h2, ?_, h4⟩
        intro p hp
        rcases List.mem_cons.1 hp with rfl | hp
        · intro h; exact absurd hu h
        · exact h3 p hp
      · right
        refine ⟨k, h1, ?_, ?_⟩
        · intro p hp
          rcases List.mem_cons.1 hp with rfl | hp
          · intro h; exact absurd hu h
          · exact h2 p hp
        · rw [h3]
          simp [hu]
    rw [if_neg hu]
    cases hs : satisfied env (s.reqs n) x with
    | true =>
      left
      exact ⟨[], n, ns, rfl, hu, hs, by simp, rfl⟩
    | false =>
      simp only [Bool.false_eq_true, if_false]
      rcases ih (if (s.reqs n).exdes = 1 then nb + 1 else nb) with ⟨pre, m, post, e, h1, h2, h3, h4⟩ | ⟨k, h1, h2, h3⟩
      · left
        refine ⟨n :: pre, m, post, by rw [e]; rfl, h1, h2, ?_, h4⟩
        intro p hp
        rcases List.mem_cons.1 hp with rfl | hp
        · intro _; exact hs
        · exact h3 p hp
      · right
        have h2' : ∀ p ∈ n :: ns, (s.reqs p).inUse ≠ 0 → satisfied env (s.reqs p) x = false := by
          intro p hp
          rcases List.mem_cons.1 hp with rfl | hp
          · intro _; exact hs
          · exact h2 p hp
        by_cases he : (s.reqs n).exdes = 1
        · rw [if_pos he] at h1 ⊢
          refine ⟨k + 1, by rw [h1]; congr 1; omega, h2', ?_⟩
          constructor
          · intro h; omega
          · intro h; exact absurd he (h n (List.mem_cons_self ..) hu)
        · rw [if_neg he] at h1 ⊢
          refine ⟨k, h1, h2', ?_⟩
          rw [h3]
          constructor
          · intro h p hp
            rcases List.mem_cons.1 hp with rfl | hp
            · intro _; exact he
            · exact h p hp
          · intro h p hp; exact h p (List.mem_cons_of_mem _ hp)

theorem lastInUse_mem (s : State) (first : Nat) : ∀ last, first ≤ last →
    first ≤ lastInUse s first last ∧ lastInUse s first last ≤ last := by
  intro last
  induction last with
  | zero => intro h; simp [lastInUse]; omega
  | succ n ih =>
    intro h
    unfold lastInUse
    split
    · rename_i hc
      obtain ⟨a, b⟩ := ih (by omega)
      exact ⟨a, by omega⟩
    · exact ⟨h, le_refl _⟩

theorem pre_mem (a b : Nat) (pre : List Nat) (n : Nat) (post : List Nat) (h : List.range' a b = pre ++ n :: post) (m : Nat) :
    m ∈ pre ↔ a ≤ m ∧ m < n := by
  have hl : pre.length < b := by
    have := congrArg List.length h
    simp at this
    omega
  have hpre : pre = List.range' a pre.length := by
    apply List.ext_getElem (by simp)
    intro i h1 h2
    have h3 : (List.range' a b)[i]? = some pre[i] := by
      rw [h, List.getElem?_append_left h1, List.getElem?_eq_getElem h1]
    rw [List.getElem?_range' (by omega)] at h3
    simpa using h3.symm
  have hn : n = a + pre.length := by
    have h1 : (List.range' a b)[pre.length]? = some n := by rw [h]; simp
    rw [List.getElem?_range' (by omega)] at h1
    simpa using h1.symm
  rw [hpre, List.mem_range'_1, hn]

theorem decide_rep (env : Env) (s : State) (t : Table) (x : Rec) (h : Rep env s t)
    (hd : env.hours x.date x.date = 0)
    (h4 : ∀ n a p, t.ask n = some a → a.suppl = some p → p.ig4 = -1 ∨ x.ig4 = x.ig2) :
    ∃ v, matchParm env s x = some v ∧ (v ≠ 0 ↔ Accepted env t x) := by
  have hsat : ∀ n a, t.ask n = some a → (satisfied env (s.reqs n) x = true ↔ a.holds env x) := by
    intro n a ht
    have := h.req n
    rw [ht] at this
    exact satisfied_iff env _ a x this.2.2 hd (fun p hp => h4 n a p ht hp)
  have huse : ∀ n, (s.reqs n).inUse ≠ 0 ↔ ∃ a, t.ask n = some a := by
    intro n
    have := h.req n
    cases ht : t.ask n with
    | none => rw [ht] at this; simp [this.1]
    | some a => rw [ht] at this; simp [this.1]
  have hdes : ∀ n a, t.ask n = some a → ((s.reqs n).exdes = 1 ↔ a.desire = true) := by
    intro n a ht
    have := h.req n
    rw [ht] at this
    rw [this.2.1]
    cases a.desire <;> simp
  have hmem : ∀ m, m ∈ List.range' t.first (t.last + 1 - t.first) ↔ t.first ≤ m ∧ m ≤ t.last := by
    intro m
    have := h.order
    rw [List.mem_range'_1]
    omega
  unfold matchParm
  rw [if_neg (by rw [h.first, h.last]; omega)]
  simp only [h.first, h.last, Int.toNat_natCast]
  rcases scan_spec env s x (List.range' t.first (t.last + 1 - t.first)) 0 with ⟨pre, n, post, e, h1, h2, h3, h5⟩ | ⟨k, h1, h2, h3⟩
  · rw [h5]
    refine ⟨_, rfl, ?_⟩
    have hn : t.first ≤ n ∧ n ≤ t.last := (hmem n).1 (by rw [e]; simp)
    obtain ⟨a, ha⟩ := (huse n).1 h1
    have hp : ∀ m b, t.first ≤ m → m < n → t.ask m = some b → ¬ b.holds env x := by
      intro m b g1 g2 hb hh
      have := h3 m ((pre_mem _ _ _ _ _ e m).2 ⟨g1, g2⟩) ((huse m).2 ⟨b, hb⟩)
      rw [(hsat m b hb).2 hh] at this
      cases this
    by_cases hx : (s.reqs n).exdes = 1
    · rw [if_pos hx]
      constructor
      · intro _
        exact Or.inl ⟨n, a, hn.1, hn.2, ha, (hdes n a ha).1 hx, (hsat n a ha).1 h2, hp⟩
      · intro _; omega
    · rw [if_neg hx]
      constructor
      · intro h; exact absurd rfl h
      · rintro (⟨m, b, g1, g2, hb, db, sb, pb⟩ | hall)
        · exfalso
          rcases lt_trichotomy m n with g | g | g
          · exact hp m b g1 g hb sb
          · subst g
            exact hx ((hdes m b hb).2 db)
          · exact pb n a hn.1 g ha ((hsat n a ha).1 h2)
        · exact absurd ((hsat n a ha).1 h2) (hall n a hn.1 hn.2 ha).2
  · rw [h1]
    simp only [Nat.zero_add]
    have hk : k = 0 ↔ Accepted env t x := by
      rw [h3]
      constructor
      · intro hh
        right
        intro n a g1 g2 ha
        have hu := (huse n).2 ⟨a, ha⟩
        have hm := (hmem n).2 ⟨g1, g2⟩
        constructor
        · have := hh n hm hu
          rw [ne_eq, hdes n a ha] at this
          simpa using this
        · intro hs
          have := h2 n hm hu
          rw [(hsat n a ha).2 hs] at this
          cases this
      · rintro (⟨m, b, g1, g2, hb, db, sb, pb⟩ | hall)
        · exfalso
          have := h2 m ((hmem m).2 ⟨g1, g2⟩) ((huse m).2 ⟨b, hb⟩)
          rw [(hsat m b hb).2 sb] at this
          cases this
        · intro m hm hu
          obtain ⟨a, ha⟩ := (huse m).1 hu
          have g := (hmem m).1 hm
          rw [ne_eq, hdes m a ha, (hall m a g.1 g.2 ha).1]
          simp
    obtain ⟨l1, l2⟩ := lastInUse_mem s t.first t.last h.order
    by_cases hl : (s.reqs (lastInUse s t.first t.last)).exdes = 1 ∧ (s.reqs (lastInUse s t.first t.last)).inUse ≠ 0
    · rw [if_pos hl]
      refine ⟨0, rfl, ?_⟩
      rw [← hk, h3]
      constructor
      · intro h; exact absurd rfl h
      · intro hh; exact absurd hl.1 (hh _ ((hmem _).2 ⟨l1, l2⟩) hl.2)
    · rw [if_neg hl]
      refine ⟨_, rfl, ?_⟩
      rw [← hk]
      by_cases k0 : k = 0
      · simp [k0]
      · simp [k0]

/-- C43.  After any history of wishes, a record is accepted exactly when the first active request it
satisfies is a desire request, or it satisfies none and there is no active desire request.

Missing, because the code does otherwise there: dates with negative stamps as ends of a range
(`C43_negative_date_witness`); open ranges of ip1, ip2, ip3 (`C43_open_range`); refused calls
on a set with a wish about dates (`C43_refused_witness`) or refused date lists (`C43_bad_date_witness`); ig4
(`C43_ig4_witness`); set numbers outside of the table (`C43_set_witness`). -/
theorem C43_partial (env : Env) {ws : List Wish} {t : Table} (h : History env ws t) :
    ∃ s, run env init (ws.map Wish.call) = some s ∧
      ∀ x, env.hours x.date x.date = 0 →
        (∀ n a p, t.ask n = some a → a.suppl = some p → p.ig4 = -1 ∨ x.ig4 = x.ig2) →
        ∃ v, matchParm env s x = some v ∧ (v ≠ 0 ↔ Accepted env t x) := by
  obtain ⟨s, hs, hr⟩ := history_rep env h
  exact ⟨s, hs, fun x hd h4 => decide_rep env s t x hr hd h4⟩

/-! ### Cases -/

/-- A simple environment: the level is the number, the kind is 0, dates are hours. -/
def env0 : Env := ⟨fun i => (i, 0), fun i => i, fun i => i, fun a b => a - b, fun _ => true⟩

def rec0 : Rec :=
  { date := 1000, ni := 10, nj := 10, nk := 1, ip1 := 500, ip2 := 12, ip3 := 0, typvar := ['P', ' ']
    nomvar := ['T', 'T', ' ', ' '], etiket := ['R', 'U', 'N', '1', ' ', ' ', ' ', ' ', ' ', ' ', ' ', ' '], grtyp := 'G', ig1 := 1, ig2 := 2, ig3 := 3, ig4 := 4 }

/-- Set 3 desires TT between 100 and 1000, set 1 excludes ip2 = 12 or 24, set 7 desires dates every 6 hours. -/
def wishes0 : List Wish :=
  [.select 3 true (.nomvar [['T', 'T'], ['U', 'U']]), .select 3 true (.ip1 (.between 100 1000)),
   .select 1 false (.ip2 (.values 12 [24])), .select 7 true (.date (.every 900 2000 6)),
   .select 7 false (.ip3 (.values 4 []))]

def decision (ws : List Wish) (x : Rec) : Option Int := (run env0 init (ws.map Wish.call)).bind fun s => matchParm env0 s x

-- excluded by set 1; with ip2 = 6 desired by set 3 (ip1 in range) or set 7 (98 hours are not a multiple of 6)
example : decision (wishes0.take 4) rec0 = some 0 ∧ decision (wishes0.take 4) { rec0 with ip2 := 6 } = some 4 ∧
    decision (wishes0.take 4) { rec0 with ip2 := 6, ip1 := 1001 } = some 0 ∧
    decision (wishes0.take 4) { rec0 with ip2 := 6, ip1 := 1001, date := 996 } = some 8 ∧
    decision (wishes0 ++ [.group 4 6]) { rec0 with ip2 := 6, ip1 := 1001 } = some 1 := by decide +kernel

/-- The history meets the conditions of the theorem, except the last call, refused and on a set with dates. -/
example : ∃ t, History env0 (wishes0.take 4) t := by
  have hs : ∀ (t : Table) n m b i, m ≠ n → (t.step (.select n b i)).ask m = t.ask m := by
    intro t n m b i h
    simp only [Table.step]
    split
    · rfl
    · simp [h]
  have hd : ∀ (t : Table) n b i a, (∀ a, t.ask n = some a → a.date = none) → (∀ d, i ≠ .date d) →
      (t.step (.select n b i)).ask n = some a → a.date = none := by
    intro t n b i a h hi ha
    simp only [Table.step] at ha
    split at ha
    · exact h a ha
    · simp only [if_true, Option.some.injEq] at ha
      subst ha
      cases ht : t.ask n with
      | none => cases i <;> first | rfl | exact absurd rfl (hi _)
      | some c => cases i <;> first | exact h c ht | exact absurd rfl (hi _)
  refine ⟨_, (((History.nil.snoc (w := .select 3 true (.nomvar [['T', 'T'], ['U', 'U']])) ?_).snoc
    (w := .select 3 true (.ip1 (.between 100 1000))) ?_).snoc (w := .select 1 false (.ip2 (.values 12 [24]))) ?_).snoc
    (w := .select 7 true (.date (.every 900 2000 6))) ?_⟩
  · exact ⟨by decide, trivial, fun _ a h => by cases h⟩
  · exact ⟨by decide, ⟨by decide, by decide⟩, fun _ a h => hd empty 3 true _ a (fun _ h => by cases h) (by simp) h⟩
  · refine ⟨by decide, ⟨by decide, by decide, by decide, by decide⟩, fun _ a h => ?_⟩
    rw [hs _ _ _ _ _ (by decide), hs _ _ _ _ _ (by decide)] at h
    cases h
  · refine ⟨by decide, ⟨by decide, by decide, by decide, by decide, by decide⟩, fun _ a h => ?_⟩
    rw [hs _ _ _ _ _ (by decide), hs _ _ _ _ _ (by decide), hs _ _ _ _ _ (by decide)] at h
    cases h

/-- The last call of `wishes0` is refused, but it takes the dates from set 7, which from then on is satisfied
by every record. -/
theorem C43_refused_witness :
    decision (wishes0.take 4) { rec0 with ip2 := 6, ip1 := 1001 } = some 0 ∧
    decision wishes0 { rec0 with ip2 := 6, ip1 := 1001 } = some 8 ∧
    ((run env0 init ((wishes0.take 4).map Wish.call)).bind fun s =>
      (step env0 s (Wish.select 7 false (.ip3 (.values 4 []))).call).map Prod.snd) = some (-1) := by decide +kernel

/-- A list of dates that is refused (a period before a range) leaves a set without criteria, which excludes
every record. -/
theorem C43_bad_date_witness :
    ((run env0 init [.date 0 0 [100, -3, 6]]).bind fun s => matchParm env0 s rec0) = some 0 ∧
    (step env0 init (.date 0 0 [100, -3, 6])).map Prod.snd = some (-1) ∧
    matchParm env0 init rec0 = some 1 := by decide +kernel

/-- ig4 is compared with the ig2 of the record: a request for ig4 = 4 refuses the record that has it. -/
theorem C43_ig4_witness :
    decision [.select 0 true (.suppl ⟨-1, -1, -1, -1, -1, -1, 4, ' '⟩)] rec0 = some 0 ∧
    decision [.select 0 true (.suppl ⟨-1, -1, -1, -1, -1, -1, 2, ' '⟩)] rec0 = some 1 ∧
    supplHolds ⟨-1, -1, -1, -1, -1, -1, 4, ' '⟩ rec0 ∧ ¬ supplHolds ⟨-1, -1, -1, -1, -1, -1, 2, ' '⟩ rec0 := by
  refine ⟨by decide +kernel, by decide +kernel, ?_, ?_⟩ <;> simp [supplHolds, rec0]

/-- An open range: levels up to 300 are desired, level 500 is accepted. -/
theorem C43_open_range_witness :
    decision [.select 0 true (.ip1 (.upTo 300))] rec0 = some 1 ∧ ¬ (IpAsk.upTo 300).holds env0 rec0.ip1 true ∧
    decision [.select 0 true (.ip1 (.from 700))] rec0 = some 1 ∧ ¬ (IpAsk.from 700).holds env0 rec0.ip1 true := by
  refine ⟨by decide +kernel, ?_, by decide +kernel, ?_⟩ <;> simp [IpAsk.holds, env0, rec0] <;> norm_num

/-- Level zero under another code: the code means to accept it, but divides zero by zero. -/
theorem C43_zero_witness :
    let env : Env := { env0 with conv := fun i => if i = 0 ∨ i = 7 then (0, 1) else (i, 1) }
    ((run env init [.ip1 0 1 [7]]).bind fun s => matchParm env s { rec0 with ip1 := 0 }) = some 0 ∧
    ((run env init [.ip1 0 1 [7]]).bind fun s => matchParm env s { rec0 with ip1 := 7 }) = some 1 ∧
    env.conv 0 = env.conv 7 := by decide +kernel

/-- Stamps of dates after 2235 or before 1900 are negative and taken for an open end: the record of date -900 is
not after -800, but accepted. -/
theorem C43_negative_date_witness :
    decision [.select 0 true (.date (.between (-800) 1000))] { rec0 with date := -900 } = some 1 ∧
    ¬ (DateAsk.between (-800) 1000).holds env0 (-900) := by
  refine ⟨by decide +kernel, ?_⟩
  norm_num [DateAsk.holds, env0]

/-- A set number of 50 is outside of the table. -/
theorem C43_set_witness : step env0 init (Wish.select 50 true (.nomvar [['T', 'T']])).call = none := by rfl

end Props.Excdes
