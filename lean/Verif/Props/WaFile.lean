import Verif.WaFileOps
import Verif.Props.SwapBuffer

/-!
C39, C40: word-addressable files.  The file is compared with an array of words addressed from 1
where a word never written is zero.
-/
namespace Props.WaFile
open Verif.WaFile
open Verif.SwapBuffer (swapWord)

/-- A file as its users see it. -/
structure Mem where
  val : Nat → Word
  size : Nat

/-- What happens to an open file: its users write and read, and other files may take its pages. -/
inductive Op
  | write (ω : Nat → World) (stack : Nat → Word) (off : Nat) (ws : List Word)
  | read (ω : Nat → World) (off n : Nat)
  | evict (k : Nat)

/-- Words are written at their addresses and the file grows as needed. -/
def Mem.write (m : Mem) (off : Nat) (ws : List Word) : Mem :=
  ⟨fun a => if off ≤ a ∧ a < off + ws.length then ws.getD (a - off) 0#32 else m.val a,
    max m.size (off + ws.length - 1)⟩

/-- Reads stop at the end of the file and fail after it. -/
def Mem.read (m : Mem) (off n : Nat) : Int × List Word :=
  if off > m.size + 1 then (-2, [])
  else ((min n (m.size + 1 - off) : Nat), (List.range (min n (m.size + 1 - off))).map fun i => m.val (off + i))

def spec : Mem → List Op → Mem × List (Int × List Word)
  | m, [] => (m, [])
  | m, .write _ _ off ws :: t => spec (m.write off ws) t
  | m, .read _ off n :: t => ((spec m t).1, m.read off n :: (spec m t).2)
  | m, .evict _ :: t => spec m t

/-- The library: pages of `ps` words (none if 0), at most `nb` for a file.  Gives the file and what
the reads returned. -/
def run (ps nb : Nat) : File → List Op → Except Fail (File × List (Int × List Word))
  | f, [] => .ok (f, [])
  | f, .write ω stack off ws :: t =>
    match wawrit ps nb ω stack f off ws with
    | .error e => .error e
    | .ok f => run ps nb f t
  | f, .read ω off n :: t =>
    match waread ps nb ω f off n with
    | .error e => .error e
    | .ok (f, r) =>
      match run ps nb f t with
      | .error e => .error e
      | .ok (g, out) => .ok (g, r :: out)
  | f, .evict k :: t => run ps nb (scrap f k) t

/-- `qqcopen`, lines 1850-1985: the size is the size of the file on disk and no page is in use. -/
def openFile (d : List Word) : File := ⟨d, d.length, []⟩

/-- What a file on disk holds (words are big-endian on disk). -/
def memOf (d : List Word) : Mem := ⟨fun a => if a = 0 then 0#32 else swapWord (d.getD (a - 1) 0#32), d.length⟩

/-- A file on disk. -/
def Mem.disk (m : Mem) : List Word := (List.range m.size).map fun a => swapWord (m.val (a + 1))

/-- The operations for which the library works: writes leave holes of at most 512 words and reads do
not start two words after the end.  With pages of `ps` words, no request starts at the last word of
a page (nor does a hole), and no write ends just before the last word of the file, in a page it
starts or that starts after it. -/
def Fair (ps : Nat) : Mem → List Op → Prop
  | _, [] => True
  | m, .write _ _ off ws :: t =>
    ws ≠ [] ∧ 1 ≤ off ∧ off ≤ m.size + 513 ∧
    (ps ≠ 0 → off % ps ≠ 0 ∧ (off > m.size + 1 → (m.size + 1) % ps ≠ 0) ∧ Lucky ps m.size off ws.length) ∧
    Fair ps (m.write off ws) t
  | m, .read _ off _ :: t => 1 ≤ off ∧ off ≠ m.size + 2 ∧ (ps ≠ 0 → off % ps ≠ 0) ∧ Fair ps m t
  | m, .evict _ :: t => Fair ps m t

/-! ### Proof -/

/-- The file shows the contents `plain`. -/
def Shows (ps nb : Nat) (f : File) (plain : List Word) : Prop :=
  if ps = 0 then f.disk = plain ∧ f.size = plain.length ∧ f.pages = [] else Inv ps nb f plain

structure Rel (m : Mem) (plain : List Word) : Prop where
  size : m.size = plain.length
  val : ∀ a, a < plain.length → plain[a]? = some (swapWord (m.val (a + 1)))
  out : ∀ a, m.size < a → m.val a = 0#32

theorem Shows.size {ps nb : Nat} {f : File} {plain : List Word} (h : Shows ps nb f plain) :
    f.size = plain.length := by
  unfold Shows at h
  split at h
  · exact h.2.1
  · exact h.size

theorem rawWrite_spec {ps nb : Nat} (hps : ps ≠ 1) (hnb : 0 < nb) (ω : Nat → World) {f : File}
    {plain : List Word} (h : Shows ps nb f plain) {adr : Nat} {ws : List Word} (hws : ws ≠ [])
    (h1 : 1 ≤ adr) (h2 : adr ≤ plain.length + 1)
    (h3 : ps ≠ 0 → adr % ps ≠ 0 ∧ Lucky ps plain.length adr ws.length) :
    ∃ f', rawWrite ps nb ω f adr ws = .ok f' ∧ Shows ps nb f' (diskWrite plain (adr - 1) ws) := by
  unfold rawWrite Shows at *
  by_cases h0 : ps = 0
  · simp only [h0, if_true] at h ⊢
    refine ⟨_, rfl, by rw [h.1], ?_, h.2.2⟩
    have := List.length_pos_of_ne_nil hws
    rw [diskWrite_length _ _ _ hws, h.2.1]; show max _ _ = _; omega
  · simp only [if_neg h0] at h ⊢
    exact writePages_spec (by omega) hnb _ ω f plain adr ws h (Nat.le_refl _) h1 h2 (h3 h0).1 (h3 h0).2

theorem rawRead_spec {ps nb : Nat} (hps : ps ≠ 1) (hnb : 0 < nb) (ω : Nat → World) {f : File}
    {plain : List Word} (h : Shows ps nb f plain) {adr n : Nat}
    (h1 : 1 ≤ adr) (h2 : adr - 1 + n ≤ plain.length) (h3 : ps ≠ 0 → adr % ps ≠ 0) :
    (∃ f', rawRead ps nb ω f adr n = .ok (f', (plain.drop (adr - 1)).take n) ∧ Shows ps nb f' plain) ∨
    (ps ≠ 0 ∧ 2 ≤ nb ∧ rawRead ps nb ω f adr n = .error .exit) := by
  unfold rawRead Shows at *
  by_cases h0 : ps = 0
  · simp only [h0, if_true] at h ⊢
    left
    refine ⟨f, ?_, h⟩
    rw [h.1, if_neg (by rw [List.length_take, List.length_drop]; omega)]
  · simp only [if_neg h0] at h ⊢
    rcases readPages_spec (by omega) hnb n ω f plain adr n h (Nat.le_refl _) h1 h2 (h3 h0) with hx | hx
    · exact Or.inl hx
    · exact Or.inr ⟨h0, hx⟩

theorem Rel.write {m : Mem} {plain : List Word} (h : Rel m plain) {off : Nat} {ws : List Word}
    (hws : ws ≠ []) (h1 : 1 ≤ off) (h2 : off ≤ plain.length + 1) :
    Rel (m.write off ws) (diskWrite plain (off - 1) (swapAll ws)) := by
  have hs : swapAll ws ≠ [] := by intro hc; exact hws (List.map_eq_nil_iff.1 hc)
  have hl : (swapAll ws).length = ws.length := by simp [swapAll]
  have hp := List.length_pos_of_ne_nil hws
  have hL := diskWrite_length plain (off - 1) _ hs
  rw [hl] at hL
  refine ⟨?_, ?_, ?_⟩
  · rw [hL, ← h.size]; show max m.size (off + ws.length - 1) = _; omega
  · intro a ha
    rw [hL] at ha
    rw [diskWrite_get _ _ _ hs, hl]
    show _ = some (swapWord (if off ≤ a + 1 ∧ a + 1 < off + ws.length then ws.getD (a + 1 - off) 0#32 else m.val (a + 1)))
    by_cases c1 : a < off - 1
    · rw [if_pos c1, if_pos (by omega), if_neg (by omega), h.val a (by omega)]
    · rw [if_neg c1]
      by_cases c2 : a < off - 1 + ws.length
      · rw [if_pos c2, if_pos (by omega)]
        have : a + 1 - off < ws.length := by omega
        rw [show a - (off - 1) = a + 1 - off by omega, swapAll, List.getElem?_map,
          List.getElem?_eq_getElem this, List.getD_eq_getElem?_getD, List.getElem?_eq_getElem this]
        rfl
      · rw [if_neg c2, if_neg (by omega), h.val a (by omega)]
  · intro a ha
    have ha' : max m.size (off + ws.length - 1) < a := ha
    show (if off ≤ a ∧ a < off + ws.length then _ else m.val a) = _
    rw [if_neg (by omega)]
    exact h.out a (by omega)

/-- Filling a hole with zeros and writing after it is writing. -/
theorem Rel.hole {m : Mem} {plain : List Word} (h : Rel m plain) {off : Nat} {ws : List Word}
    (stack : Nat → Word) (hws : ws ≠ []) (h2 : plain.length + 1 < off) (h3 : off ≤ plain.length + 513) :
    Rel (m.write off ws)
      (diskWrite (diskWrite plain plain.length (scrapWords stack (off - plain.length))) (off - 1) (swapAll ws)) := by
  have hs : swapAll ws ≠ [] := by intro hc; exact hws (List.map_eq_nil_iff.1 hc)
  have hl : (swapAll ws).length = ws.length := by simp [swapAll]
  have hp := List.length_pos_of_ne_nil hws
  have hz : (scrapWords stack (off - plain.length)).length = off - plain.length := by simp [scrapWords]
  have hzn : scrapWords stack (off - plain.length) ≠ [] := by
    intro hc; rw [hc] at hz; simp at hz; omega
  have hL0 := diskWrite_length plain plain.length _ hzn
  rw [hz] at hL0
  have hL := diskWrite_length (diskWrite plain plain.length (scrapWords stack (off - plain.length))) (off - 1) _ hs
  rw [hl, hL0] at hL
  have hsz := h.size
  refine ⟨?_, ?_, ?_⟩
  · rw [hL]; show max m.size (off + ws.length - 1) = _; omega
  · intro a ha
    rw [hL] at ha
    rw [diskWrite_get _ _ _ hs, hl, hL0]
    show _ = some (swapWord (if off ≤ a + 1 ∧ a + 1 < off + ws.length then ws.getD (a + 1 - off) 0#32 else m.val (a + 1)))
    by_cases c1 : a < off - 1
    · rw [if_pos c1, if_pos (by omega), if_neg (by omega), diskWrite_get _ _ _ hzn, hz]
      by_cases c3 : a < plain.length
      · rw [if_pos c3, if_pos c3, h.val a c3]
      · rw [if_neg c3, if_pos (by omega), h.out _ (by omega)]
        have : a - plain.length < off - plain.length := by omega
        simp only [scrapWords, List.getElem?_map, List.getElem?_range this, Option.map_some]
        rw [if_pos (by omega)]
        rfl
    · have c2 : a < off - 1 + ws.length := by omega
      rw [if_neg c1, if_pos c2, if_pos (by omega)]
      have : a + 1 - off < ws.length := by omega
      rw [show a - (off - 1) = a + 1 - off by omega, swapAll, List.getElem?_map,
        List.getElem?_eq_getElem this, List.getD_eq_getElem?_getD, List.getElem?_eq_getElem this]
      rfl
  · intro a ha
    have ha' : max m.size (off + ws.length - 1) < a := ha
    show (if off ≤ a ∧ a < off + ws.length then _ else m.val a) = _
    rw [if_neg (by omega)]
    exact h.out a (by omega)

theorem Rel.read {m : Mem} {plain : List Word} (h : Rel m plain) {off n : Nat} (h1 : 1 ≤ off)
    (h2 : off - 1 + n ≤ plain.length) :
    swapAll ((plain.drop (off - 1)).take n) = (List.range n).map fun i => m.val (off + i) := by
  apply List.ext_getElem?
  intro i
  rw [swapAll, List.getElem?_map, List.getElem?_take, List.getElem?_map]
  by_cases hi : i < n
  · rw [if_pos hi, List.getElem?_drop, h.val _ (by omega), List.getElem?_range hi]
    simp only [Option.map_some, Option.some.injEq]
    rw [Verif.SwapBuffer.swapWord_twice]; congr 1; omega
  · rw [if_neg hi, List.getElem?_eq_none (by simpa using hi)]; rfl

theorem wawrit_spec {ps nb : Nat} (hps : ps ≠ 1) (hnb : 0 < nb) (ω : Nat → World) (stack : Nat → Word)
    {f : File} {m : Mem} {plain : List Word} (h : Shows ps nb f plain) (hr : Rel m plain) {off : Nat}
    {ws : List Word} (hws : ws ≠ []) (h1 : 1 ≤ off) (h2 : off ≤ m.size + 513)
    (h3 : ps ≠ 0 → off % ps ≠ 0 ∧ (off > m.size + 1 → (m.size + 1) % ps ≠ 0) ∧ Lucky ps m.size off ws.length) :
    ∃ f' plain', wawrit ps nb ω stack f off ws = .ok f' ∧ Shows ps nb f' plain' ∧ Rel (m.write off ws) plain' := by
  have hs : swapAll ws ≠ [] := by intro hc; exact hws (List.map_eq_nil_iff.1 hc)
  have hl : (swapAll ws).length = ws.length := by simp [swapAll]
  have hp := List.length_pos_of_ne_nil hws
  have hsz := h.size
  have hms := hr.size
  rw [hms] at h2 h3
  unfold wawrit
  rw [if_neg (by omega), if_neg (by omega)]
  unfold fillHole
  by_cases hh : off > f.size + 1
  · rw [if_pos hh, hsz]
    have hz : (scrapWords stack (off - plain.length)).length = off - plain.length := by simp [scrapWords]
    have hzn : scrapWords stack (off - plain.length) ≠ [] := by
      intro hc; rw [hc] at hz; simp at hz; omega
    obtain ⟨g, hg, hsg⟩ := rawWrite_spec hps hnb ω h hzn (adr := plain.length + 1) (by omega) (by omega)
      (fun h0 => ⟨(h3 h0).2.1 (by omega), by intro hc; rw [hz] at hc; omega⟩)
    rw [hg]
    simp only [Nat.add_sub_cancel] at hsg
    have hL0 := diskWrite_length plain plain.length _ hzn
    rw [hz] at hL0
    obtain ⟨g', hg', hsg'⟩ := rawWrite_spec hps hnb (fun i => ω (i + 2048)) hsg hs h1 (by omega)
      (fun h0 => ⟨(h3 h0).1, by intro hc; rw [hl] at hc; omega⟩)
    exact ⟨g', _, hg', hsg', hr.hole stack hws (by omega) h2⟩
  · rw [if_neg hh]
    obtain ⟨g', hg', hsg'⟩ := rawWrite_spec hps hnb (fun i => ω (i + 2048)) h hs h1 (by omega)
      (fun h0 => ⟨(h3 h0).1, by rw [hl]; exact (h3 h0).2.2⟩)
    exact ⟨g', _, hg', hsg', hr.write hws h1 (by omega)⟩

theorem waread_spec {ps nb : Nat} (hps : ps ≠ 1) (hnb : 0 < nb) (ω : Nat → World)
    {f : File} {m : Mem} {plain : List Word} (h : Shows ps nb f plain) (hr : Rel m plain) {off n : Nat}
    (h1 : 1 ≤ off) (h2 : off ≠ m.size + 2) (h3 : ps ≠ 0 → off % ps ≠ 0) :
    (∃ f', waread ps nb ω f off n = .ok (f', m.read off n) ∧ Shows ps nb f' plain) ∨
    (ps ≠ 0 ∧ 2 ≤ nb ∧ waread ps nb ω f off n = .error .exit) := by
  have hsz := h.size
  have hms := hr.size
  unfold waread
  rw [if_neg (by omega)]
  unfold Mem.read
  by_cases ha : off > f.size + 2
  · rw [if_pos ha]
    left
    exact ⟨f, by rw [if_pos (by omega)], h⟩
  · rw [if_neg ha]
    rw [if_neg (by omega : ¬ off > m.size + 1)]
    by_cases hb : f.size = 0
    · rw [if_pos hb]
      left
      refine ⟨f, ?_, h⟩
      have : min n (m.size + 1 - off) = 0 := by omega
      rw [this]; rfl
    · rw [if_neg hb]
      have hln : (if off + n - 1 > f.size then (f.size : Int) + 1 - off else n) =
          ((min n (m.size + 1 - off) : Nat) : Int) := by
        split <;> omega
      simp only [hln]
      generalize hc : min n (m.size + 1 - off) = c
      by_cases hc0 : c = 0
      · left
        subst hc0
        exact ⟨f, rfl, h⟩
      · rw [if_neg (by omega), if_neg (by omega), Int.toNat_natCast]
        rcases rawRead_spec hps hnb ω h (adr := off) (n := c) h1 (by omega) h3 with ⟨f', hf', hs'⟩ | hx
        · left
          rw [hf']
          refine ⟨f', ?_, hs'⟩
          dsimp only
          rw [hr.read h1 (by omega)]
        · right
          rw [hx.2.2]; exact ⟨hx.1, hx.2.1, rfl⟩

theorem Shows.evict {ps nb : Nat} {f : File} {plain : List Word} (h : Shows ps nb f plain) (k : Nat) :
    Shows ps nb (scrap f k) plain := by
  unfold Shows at *
  split at h
  · rename_i h0
    simp only [h0, if_true]
    have : scrap f k = f := by unfold scrap; rw [h.2.2]; simp
    rw [this]; exact h
  · rename_i h0
    simp only [if_neg h0]
    exact scrap_inv h k

/-- Is there a read? -/
def HasRead (ops : List Op) : Prop := ∃ ω off n, Op.read ω off n ∈ ops

theorem run_spec {ps nb : Nat} (hps : ps ≠ 1) (hnb : 0 < nb) (ops : List Op) :
    ∀ (f : File) (m : Mem) (plain : List Word), Shows ps nb f plain → Rel m plain → Fair ps m ops →
    (∃ f' plain', run ps nb f ops = .ok (f', (spec m ops).2) ∧ Shows ps nb f' plain' ∧
      Rel (spec m ops).1 plain') ∨
    (ps ≠ 0 ∧ 2 ≤ nb ∧ HasRead ops ∧ run ps nb f ops = .error .exit) := by
  induction ops with
  | nil => exact fun f m plain hs hr _ => Or.inl ⟨f, plain, rfl, hs, hr⟩
  | cons op t ih =>
    intro f m plain hs hr hf
    cases op with
    | write ω stack off ws =>
      obtain ⟨a, b, c, d, e⟩ := hf
      obtain ⟨f', plain', hw, hs', hr'⟩ := wawrit_spec hps hnb ω stack hs hr a b c d
      unfold run spec
      rw [hw]
      rcases ih f' _ plain' hs' hr' e with hx | ⟨hx0, hx1, ⟨ω', o', n', hx2⟩, hx3⟩
      · exact Or.inl hx
      · exact Or.inr ⟨hx0, hx1, ⟨ω', o', n', List.mem_cons_of_mem _ hx2⟩, hx3⟩
    | read ω off n =>
      obtain ⟨a, b, c, d⟩ := hf
      unfold run spec
      rcases waread_spec hps hnb ω hs hr (n := n) a b c with ⟨f', hw, hs'⟩ | hx
      · rw [hw]
        rcases ih f' _ plain hs' hr d with ⟨g, pl, hx1, hx2, hx3⟩ | ⟨hx0, hx1, _, hx3⟩
        · left
          refine ⟨g, pl, ?_, hx2, hx3⟩
          dsimp only
          rw [hx1]
        · right
          refine ⟨hx0, hx1, ⟨ω, off, n, List.mem_cons_self ..⟩, ?_⟩
          dsimp only
          rw [hx3]
      · right
        rw [hx.2.2]
        exact ⟨hx.1, hx.2.1, ⟨ω, off, n, List.mem_cons_self ..⟩, rfl⟩
    | evict k =>
      unfold run spec
      rcases ih _ m plain (hs.evict k) hr hf with hx | ⟨hx0, hx1, ⟨ω', o', n', hx2⟩, hx3⟩
      · exact Or.inl hx
      · exact Or.inr ⟨hx0, hx1, ⟨ω', o', n', List.mem_cons_of_mem _ hx2⟩, hx3⟩

theorem rel_open (d : List Word) : Rel (memOf d) d := by
  refine ⟨rfl, ?_, ?_⟩
  · intro a ha
    show _ = some (swapWord (if a + 1 = 0 then 0#32 else swapWord (d.getD (a + 1 - 1) 0#32)))
    rw [if_neg (by omega), Verif.SwapBuffer.swapWord_twice, Nat.add_sub_cancel,
      List.getD_eq_getElem?_getD, List.getElem?_eq_getElem ha]; rfl
  · intro a ha
    have : d.length < a := ha
    show (if a = 0 then 0#32 else swapWord (d.getD (a - 1) 0#32)) = _
    rw [if_neg (by omega), List.getD_eq_getElem?_getD, List.getElem?_eq_none (by omega)]; rfl

theorem shows_open (ps nb : Nat) (d : List Word) : Shows ps nb (openFile d) d := by
  unfold Shows
  split
  · exact ⟨rfl, rfl, rfl⟩
  · exact ⟨rfl, Nat.le_refl _, by simp [openFile], by simp [openFile], fun _ _ _ => rfl, Nat.zero_le _⟩

theorem Rel.disk {m : Mem} {plain : List Word} (h : Rel m plain) : m.disk = plain := by
  apply List.ext_getElem?
  intro i
  rw [Mem.disk, List.getElem?_map, h.size]
  by_cases hi : i < plain.length
  · rw [List.getElem?_range hi, h.val i hi]; rfl
  · rw [List.getElem?_eq_none (by simpa using hi), List.getElem?_eq_none (by omega)]; rfl

theorem scraps_empty (ks : List Nat) : ∀ f : File, f.pages.length ≤ ks.length → (ks.foldl scrap f).pages = [] := by
  induction ks with
  | nil => intro f h; exact List.eq_nil_of_length_eq_zero (by simpa using h)
  | cons k t ih =>
    intro f h
    apply ih
    rcases Nat.eq_zero_or_pos f.pages.length with h0 | h0
    · have : (scrap f k).pages.length ≤ f.pages.length := (scrap_sub f k).length_le
      simp at h; omega
    · rw [scrap_length f k h0]; simp at h; omega

theorem flush_spec {ps nb : Nat} {f : File} {plain : List Word} (h : Shows ps nb f plain) (order : List Nat) :
    (flush order f).disk = plain ∧ (flush order f).pages = [] := by
  have he : (flush order f).pages = [] := scraps_empty _ f (by simp)
  refine ⟨?_, he⟩
  unfold Shows at h
  split at h
  · have : ∀ (ks : List Nat) (g : File), g.pages = [] → ks.foldl scrap g = g := by
      intro ks
      induction ks with
      | nil => exact fun _ _ => rfl
      | cons k t ih =>
        intro g hg
        have : scrap g k = g := by unfold scrap; rw [hg]; simp
        rw [List.foldl_cons, this]; exact ih g hg
    unfold flush
    rw [this _ _ h.2.2]; exact h.1
  · have hi : Inv ps nb (flush order f) plain := scraps_inv _ h
    apply List.ext_getElem?
    intro i
    by_cases hl : i < plain.length
    · exact hi.cover i hl (by rw [he]; simp)
    · have := hi.dlen
      rw [List.getElem?_eq_none (by omega), List.getElem?_eq_none (by omega)]

/-! ### Without pages -/

/-- C40.  Whatever was in the file and whatever is written and read, every word read is the last one
written there, or the one on the file when it was opened, or zero if there is none; reads are cut at
the end of the file.  Partial: holes are at most 512 words (see `C40_hole_witness`), and reads do not
start two words after the end (see `C40_end_witness`). -/
theorem C40_partial (nb : Nat) (d : List Word) (ops : List Op) (h : Fair 0 (memOf d) ops) :
    ∃ f, run 0 nb (openFile d) ops = .ok (f, (spec (memOf d) ops).2) ∧
      f.disk = (spec (memOf d) ops).1.disk := by
  have hn : run 0 nb (openFile d) ops = run 0 1 (openFile d) ops := by
    have hr : ∀ (ops : List Op) (f : File), run 0 nb f ops = run 0 1 f ops := by
      intro ops
      induction ops with
      | nil => exact fun _ => rfl
      | cons op t ih =>
        intro f
        cases op with
        | write ω st off ws =>
          have : wawrit 0 nb ω st f off ws = wawrit 0 1 ω st f off ws := rfl
          unfold run; rw [this]
          split
          · rfl
          · exact ih _
        | read ω off n =>
          have : waread 0 nb ω f off n = waread 0 1 ω f off n := rfl
          unfold run; rw [this]
          split
          · rfl
          · rw [ih]
        | evict k => exact ih _
    exact hr ops _
  rw [hn]
  rcases run_spec (ps := 0) (nb := 1) (by omega) (by omega) ops _ _ _ (shows_open 0 1 d) (rel_open d) h with
    ⟨f, pl, h1, h2, h3⟩ | hx
  · refine ⟨f, h1, ?_⟩
    rw [h3.disk]
    unfold Shows at h2
    simp only [if_true] at h2
    exact h2.1
  · exact absurd rfl hx.1

/-! ### With pages -/

/-- C39.  With pages of any size, any number of pages, whichever pages are given up and whenever,
and whatever recycled memory contains: either the program is stopped at a read, or every read returns
what a file without pages would have returned and closing the file leaves exactly that on disk.
Partial: requests as in `Fair` (see the witnesses), and with two pages or more in use reads stop the
program (see `C39_reads_stop`). -/
theorem C39_partial (ps nb : Nat) (hps : 1 < ps) (hnb : 0 < nb) (d : List Word) (ops : List Op)
    (h : Fair ps (memOf d) ops) :
    (∃ f, run ps nb (openFile d) ops = .ok (f, (spec (memOf d) ops).2) ∧
      ∀ order, (flush order f).disk = (spec (memOf d) ops).1.disk) ∨
    (2 ≤ nb ∧ HasRead ops ∧ run ps nb (openFile d) ops = .error .exit) := by
  rcases run_spec (ps := ps) (nb := nb) (by omega) hnb ops _ _ _ (shows_open ps nb d) (rel_open d) h with
    ⟨f, pl, h1, h2, h3⟩ | hx
  · left
    refine ⟨f, h1, fun order => ?_⟩
    rw [h3.disk]; exact (flush_spec h2 order).1
  · exact Or.inr hx.2

/-- C39 with one page for each file: nothing stops. -/
theorem C39_one_page_partial (ps : Nat) (hps : 1 < ps) (d : List Word) (ops : List Op)
    (h : Fair ps (memOf d) ops) :
    ∃ f, run ps 1 (openFile d) ops = .ok (f, (spec (memOf d) ops).2) ∧
      ∀ order, (flush order f).disk = (spec (memOf d) ops).1.disk := by
  rcases C39_partial ps 1 hps (by omega) d ops h with hx | hx
  · exact hx
  · omega

/-- C39 for a file that is only written. -/
theorem C39_written_partial (ps nb : Nat) (hps : 1 < ps) (hnb : 0 < nb) (d : List Word) (ops : List Op)
    (h : Fair ps (memOf d) ops) (hw : ¬ HasRead ops) :
    ∃ f, run ps nb (openFile d) ops = .ok (f, (spec (memOf d) ops).2) ∧
      ∀ order, (flush order f).disk = (spec (memOf d) ops).1.disk := by
  rcases C39_partial ps nb hps hnb d ops h with hx | hx
  · exact hx
  · exact absurd hx.2.1 hw

/-- The check of `wa_page_read` stops the program as soon as the file has two pages, although they do
not overlap: no read of any page succeeds then. -/
theorem C39_reads_stop (ps nb : Nat) (w : World) (f : File) (adr n : Nat) (hnb : 2 ≤ nb)
    (h2 : 2 ≤ f.pages.length) (h3 : f.pages.length ≤ nb) (hps : 0 < ps) (hw : w.others = []) :
    ∀ r, pageRead ps nb w f adr n ≠ .ok r := by
  have hfetch : ∀ (g : File) (k : Nat), 2 ≤ g.pages.length → ∀ r, fetch ps g k adr n ≠ .ok r := by
    intro g k hg r
    unfold fetch
    cases hk : g.pages[k]? with
    | none => simp
    | some p =>
      have hil : k < g.pages.length := (List.getElem?_eq_some_iff.1 hk).1
      dsimp only
      split
      · simp
      · rw [if_pos]
        · simp
        · rw [List.any_eq_true]
          refine ⟨k, List.mem_range.2 hil, ?_⟩
          rw [List.any_eq_true]
          refine ⟨if k = 0 then 1 else 0, List.mem_range.2 (by split <;> omega), ?_⟩
          rw [hk]
          simp only [Option.any_some, Bool.and_eq_true, decide_eq_true_eq]
          exact ⟨by split <;> omega, by omega, by omega⟩
  intro r
  unfold pageRead readSel
  cases hf : findPage ps f adr n with
  | some k => exact hfetch f k h2 r
  | none =>
    dsimp only
    cases hl : loadPage ps (makeRoom nb w f) (pageStart ps adr) ps with
    | error e => simp
    | ok p =>
      dsimp only
      refine hfetch _ _ ?_ r
      have : 1 ≤ (makeRoom nb w f).pages.length := by
        unfold makeRoom
        rw [hw]
        simp only [List.foldl_nil]
        split
        · rw [scrap_length _ _ (by omega)]; omega
        · omega
      simp; omega

/-! ### Examples and witnesses -/

def outcome (r : Except Fail (File × List (Int × List Word))) : Except Fail (List (Int × List Word)) :=
  match r with
  | .ok (_, o) => .ok o
  | .error e => .error e

/-- Recycled memory full of 0x77, no pressure from other files. -/
def world : Nat → World := fun _ => ⟨0, [], fun _ => 0x77#32⟩
def stack : Nat → Word := fun _ => 0x55#32

/-- A history with a hole, an overwritten word, requests over several pages and evictions. -/
def history : List Op :=
  [.write world stack 1 [1#32, 2#32, 3#32], .write world stack 1500 [4#32, 5#32], .evict 0,
    .write world stack 2 (List.replicate 1100 6#32), .read world 1 3, .read world 1400 10,
    .read world 1500 9, .read world 1700 1]

/-- `history` in a file of 1200 words is fair for pages of 1024 words. -/
theorem history_fair : Fair 1024 (memOf (List.replicate 1200 9#32)) history := by
  simp [-List.reduceReplicate, history, Fair, Lucky, memOf, Mem.write]

example : outcome (run 1024 1 (openFile (List.replicate 1200 9#32)) history) =
    .ok [(3, [1#32, 6#32, 6#32]), (10, List.replicate 10 0#32), (2, [4#32, 5#32]), (-2, [])] := by
  decide +kernel

example : ∃ f, run 1024 1 (openFile (List.replicate 1200 9#32)) history =
    .ok (f, (spec (memOf (List.replicate 1200 9#32)) history).2) :=
  (C39_one_page_partial 1024 (by omega) _ _ history_fair).imp fun _ h => h.1

/-- Without pages. -/
theorem history_fair_plain : Fair 0 (memOf (List.replicate 1200 9#32)) history := by
  simp [-List.reduceReplicate, history, Fair, memOf, Mem.write]

example : outcome (run 0 0 (openFile (List.replicate 1200 9#32)) history) =
    .ok [(3, [1#32, 6#32, 6#32]), (10, List.replicate 10 0#32), (2, [4#32, 5#32]), (-2, [])] := by
  decide +kernel

/-- A file that is only written, over several pages. -/
example : ∃ f, run 1024 2 (openFile []) [.write world stack 1 (List.replicate 5000 6#32)] =
    .ok (f, []) ∧ ∀ order, (flush order f).disk = (spec (memOf []) [.write world stack 1 (List.replicate 5000 6#32)]).1.disk :=
  C39_written_partial 1024 2 (by omega) (by omega) [] [.write world stack 1 (List.replicate 5000 6#32)]
    (by simp [-List.reduceReplicate, Fair, Lucky, memOf]) (by rintro ⟨ω, o, n, h⟩; simp [-List.reduceReplicate] at h)

/-- Writing 1025 words and reading the first one back stops the program (pages of 1024 words, ten
pages allowed). -/
theorem C39_two_pages_witness :
    Fair 1024 (memOf []) [.write world stack 1 (List.replicate 1025 1#32), .read world 1 1] ∧
    outcome (run 1024 10 (openFile []) [.write world stack 1 (List.replicate 1025 1#32), .read world 1 1]) =
      .error .exit :=
  ⟨by simp [-List.reduceReplicate, Fair, Lucky, memOf, Mem.write], by decide +kernel⟩

/-- The conditions on page ends in `Fair` are needed: reading the last word of a page reads before the
memory of a page. -/
theorem C39_page_end_witness :
    outcome (run 1024 1 (openFile (List.replicate 2000 1#32)) [.read world 1024 1]) = .error .corrupt ∧
    (spec (memOf (List.replicate 2000 1#32)) [.read world 1024 1]).2 = [(1, [0x01000000#32])] := by
  refine ⟨by decide +kernel, by decide +kernel⟩

/-- Writing the first two words of a file of three changes the third: the page is not read from the
file first, since `offset + nmots < file_size` is tested instead of `offset + nmots <= file_size`. -/
theorem C39_lost_word_witness :
    outcome (run 1024 1 (openFile [1#32, 2#32, 3#32]) [.write world stack 1 [4#32, 5#32], .read world 1 3]) =
      .ok [(3, [4#32, 5#32, 0x77000000#32])] ∧
    (spec (memOf [1#32, 2#32, 3#32]) [.write world stack 1 [4#32, 5#32], .read world 1 3]).2 =
      [(3, [4#32, 5#32, 0x03000000#32])] := by
  refine ⟨by decide +kernel, by decide +kernel⟩

/-- Only a quarter of the filling of a hole is zero. -/
theorem C40_hole_witness :
    outcome (run 0 0 (openFile []) [.write world stack 600 [4#32], .read world 512 2]) =
      .ok [(2, [0#32, 0x55000000#32])] ∧
    (spec (memOf []) [.write world stack 600 [4#32], .read world 512 2]).2 = [(2, [0#32, 0#32])] := by
  refine ⟨by decide +kernel, by decide +kernel⟩

/-- A read that starts two words after the end stops the program instead of returning -2. -/
theorem C40_end_witness :
    outcome (run 0 0 (openFile [1#32]) [.read world 3 1]) = .error .exit ∧
    (spec (memOf [1#32]) [.read world 3 1]).2 = [(-2, [])] := by
  refine ⟨by decide +kernel, by decide +kernel⟩

/-- A case of `C39_reads_stop`. -/
example : ∀ r, pageRead 1024 10 (world 0)
    ⟨[], 1025, [⟨1, 1024, true, List.replicate 1024 1#32⟩, ⟨1025, 1025, true, List.replicate 1024 1#32⟩]⟩ 1 1 ≠ .ok r :=
  C39_reads_stop 1024 10 (world 0) _ 1 1 (by omega) (by simp [-List.reduceReplicate]) (by simp [-List.reduceReplicate]) (by omega) rfl

end Props.WaFile
