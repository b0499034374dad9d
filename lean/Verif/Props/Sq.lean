import Verif.Sq

/-! C92: sequential streams. -/
namespace Verif.Sq

/-- A system that moves whole words and never fails (disks do). -/
def Whole (sys : Sys) : Prop := ∀ i, ∃ k, sys i = some (4 * k + 4)

theorem put_length {m bs : List Byte} {k : Nat} (h : k + bs.length ≤ m.length) : (put m k bs).length = m.length := by
  unfold put
  simp only [List.length_append, List.length_take, List.length_drop]
  omega

theorem put_put {m : List Byte} {k : Nat} (a b : List Byte) (h : k ≤ m.length) : put (put m k a) (k + a.length) b = put m k (a ++ b) := by
  unfold put
  have h1 : (m.take k).length = k := by rw [List.length_take]; omega
  have h2 : (m.take k ++ a).length = k + a.length := by rw [List.length_append, h1]
  rw [List.take_left' h2, Nat.add_assoc, List.length_append]
  rw [show k + (a.length + b.length) = (k + a.length) + b.length by omega, ← List.drop_drop, List.drop_left' h2, List.drop_drop]
  simp [Nat.add_assoc]

theorem take_split (l : List Byte) (p n q : Nat) (h : q ≤ n) : (l.drop p).take q ++ (l.drop (p + q)).take (n - q) = (l.drop p).take n := by
  rw [← List.drop_drop]
  have := List.take_append_drop q ((l.drop p).take n)
  rw [List.take_take, Nat.min_eq_left h, List.drop_take] at this
  exact this

theorem getLoop_whole {sys : Sys} (hs : Whole sys) : ∀ (fuel i : Nat) (f : File) (m : List Byte) (w l : Nat), 4 * l ≤ fuel →
    f.pos + 4 * l ≤ f.disk.length → 4 * w ≤ m.length →
    getLoop sys fuel i f m w (4 * l) = (⟨f.disk, f.pos + 4 * l⟩, if l = 0 then m else put m (4 * w) ((f.disk.drop f.pos).take (4 * l)), 0)
  | 0, i, f, m, w, l, hf, _, _ => by
    have : l = 0 := by omega
    subst this
    rfl
  | fuel + 1, i, f, m, w, l, hf, hd, hm => by
    unfold getLoop
    by_cases c : l = 0
    · subst c; rfl
    rw [if_neg (by omega), if_neg c]
    obtain ⟨k, hk⟩ := hs i
    rw [hk]
    dsimp only
    obtain ⟨q, hq, hql, hq0⟩ : ∃ q, Nat.min (Nat.max (4 * k + 4) 1) (4 * l) = 4 * q ∧ q ≤ l ∧ 0 < q := by
      rcases Nat.le_total (k + 1) l with h | h
      · exact ⟨k + 1, by simp only [Nat.min_def, Nat.max_def]; split <;> split <;> omega, h, by omega⟩
      · exact ⟨l, by simp only [Nat.min_def, Nat.max_def]; split <;> split <;> omega, by omega, by omega⟩
    have hr : f.read (4 * k + 4) (4 * l) = (⟨f.disk, f.pos + 4 * q⟩, (f.disk.drop f.pos).take (4 * q)) := by
      unfold File.read
      simp only [hq]
      rw [List.length_take, List.length_drop, Nat.min_eq_left (by omega)]
    have hlen : ((f.disk.drop f.pos).take (4 * q)).length = 4 * q := by
      rw [List.length_take, List.length_drop, Nat.min_eq_left (by omega)]
    rw [hr]
    dsimp only
    rw [hlen, if_neg (by omega), show 4 * l - 4 * q = 4 * (l - q) by omega, show w + 4 * q / 4 = w + q by omega]
    have hpl : 4 * (w + q) ≤ (put m (4 * w) ((f.disk.drop f.pos).take (4 * q))).length := by
      unfold put
      simp only [List.length_append, List.length_take, List.length_drop]
      omega
    rw [getLoop_whole hs fuel (i + 1) ⟨f.disk, f.pos + 4 * q⟩ _ (w + q) (l - q) (by omega) (by show f.pos + 4 * q + 4 * (l - q) ≤ f.disk.length; omega) hpl]
    simp only [Prod.mk.injEq, File.mk.injEq, true_and, and_true]
    refine ⟨by omega, ?_⟩
    by_cases c2 : l - q = 0
    · rw [if_pos c2, show q = l by omega]
    · rw [if_neg c2]
      have := put_put (m := m) (k := 4 * w) ((f.disk.drop f.pos).take (4 * q)) ((f.disk.drop (f.pos + 4 * q)).take (4 * (l - q))) hm
      rw [hlen] at this
      rw [show 4 * (w + q) = 4 * w + 4 * q by omega, this, show 4 * (l - q) = 4 * l - 4 * q by omega, take_split _ _ _ _ (by omega)]

theorem getLoop_short {sys : Sys} (hs : ∀ i, sys i ≠ none) : ∀ (fuel i : Nat) (f : File) (m : List Byte) (w left : Nat), left ≤ fuel →
    0 < left → f.disk.length < f.pos + left →
    ∃ m' r, getLoop sys fuel i f m w left = (⟨f.disk, Nat.max f.pos f.disk.length⟩, m', r + 1)
  | 0, i, f, m, w, l, hf, h0, hd => by omega
  | fuel + 1, i, f, m, w, l, hf, h0, hd => by
    unfold getLoop
    rw [if_neg (by omega)]
    obtain ⟨k, hk⟩ := Option.ne_none_iff_exists'.1 (hs i)
    rw [hk]
    dsimp only
    have hlen : (f.read k l).2.length = Nat.min (Nat.min (Nat.max k 1) l) (f.disk.length - f.pos) := by
      unfold File.read
      simp only [List.length_take, List.length_drop]
    have hpos : (f.read k l).1 = ⟨f.disk, f.pos + (f.read k l).2.length⟩ := rfl
    have hmin : (f.read k l).2.length ≤ f.disk.length - f.pos ∧ ((f.read k l).2.length = 0 → f.disk.length ≤ f.pos) := by
      rw [hlen]
      simp only [Nat.min_def, Nat.max_def]
      constructor <;> repeat' split
      all_goals omega
    generalize hn : (f.read k l).2.length = n at *
    by_cases c : n = 0
    · rw [if_pos c]
      refine ⟨m, l - 1, ?_⟩
      rw [show Nat.max f.pos f.disk.length = f.pos from Nat.max_eq_left (hmin.2 c), Nat.sub_add_cancel h0]
    · rw [if_neg c, hpos]
      obtain ⟨m', r, h⟩ := getLoop_short hs fuel (i + 1) ⟨f.disk, f.pos + n⟩ (put m (4 * w) (f.read k l).2) (w + n / 4) (l - n) (by omega) (by omega)
        (by show f.disk.length < f.pos + n + (l - n); omega)
      refine ⟨m', r, ?_⟩
      rw [h]
      have : Nat.max (f.pos + n) f.disk.length = Nat.max f.pos f.disk.length := by
        simp only [Nat.max_def]; split <;> split <;> omega
      simp only [this]

theorem write_write (f : File) (a b : List Byte) : (f.write a).write b = f.write (a ++ b) := by
  have h1 : f.pos ≤ (f.disk ++ List.replicate (f.pos - f.disk.length) 0).length := by simp; omega
  have h2 : f.pos + a.length - (put (f.disk ++ List.replicate (f.pos - f.disk.length) 0) f.pos a).length = 0 := by
    unfold put
    simp only [List.length_append, List.length_take, List.length_drop] at h1 ⊢
    omega
  unfold File.write
  simp only [h2, List.replicate_zero, List.append_nil, List.length_append]
  rw [put_put a b h1, Nat.add_assoc]

theorem putLoop_whole {sys : Sys} (hs : Whole sys) (buf : List Byte) : ∀ (fuel i : Nat) (f : File) (w l last : Nat), 4 * l ≤ fuel →
    4 * w + 4 * l ≤ buf.length →
    ∃ last', putLoop sys buf fuel i f w (4 * l) last = (if l = 0 then f else f.write ((buf.drop (4 * w)).take (4 * l)), 0, last') ∧
      (∀ k, 0 < l → sys i = some k → 4 * l ≤ k → last' = 4 * l) ∧ (l = 0 → last' = last)
  | 0, i, f, w, l, last, hf, _ => by
    have : l = 0 := by omega
    subst this
    exact ⟨last, rfl, fun _ h => by omega, fun _ => rfl⟩
  | fuel + 1, i, f, w, l, last, hf, hb => by
    unfold putLoop
    by_cases c : l = 0
    · subst c; exact ⟨last, rfl, fun _ h => by omega, fun _ => rfl⟩
    rw [if_neg (by omega), if_neg c]
    obtain ⟨k, hk⟩ := hs i
    rw [hk]
    dsimp only
    obtain ⟨q, hq, hql, hq0, hqk⟩ : ∃ q, Nat.min (4 * k + 4) (4 * l) = 4 * q ∧ q ≤ l ∧ 0 < q ∧ (4 * l ≤ 4 * k + 4 → q = l) := by
      rcases Nat.le_total (k + 1) l with h | h
      · exact ⟨k + 1, by simp only [Nat.min_def]; split <;> omega, h, by omega, by omega⟩
      · exact ⟨l, by simp only [Nat.min_def]; split <;> omega, by omega, by omega, fun _ => rfl⟩
    have hlen : ((buf.drop (4 * w)).take (4 * q)).length = 4 * q := by
      rw [List.length_take, List.length_drop, Nat.min_eq_left (by omega)]
    rw [hq, hlen, if_neg (by omega), show 4 * l - 4 * q = 4 * (l - q) by omega, show w + 4 * q / 4 = w + q by omega]
    obtain ⟨last', h, -, hl⟩ := putLoop_whole hs buf fuel (i + 1) (f.write ((buf.drop (4 * w)).take (4 * q))) (w + q) (l - q) (4 * q) (by omega) (by omega)
    refine ⟨last', ?_, fun k' _ hk' hle => ?_, fun h => absurd h c⟩
    · rw [h]
      by_cases c2 : l - q = 0
      · rw [if_pos c2, show q = l by omega]
      · rw [if_neg c2, write_write, show 4 * (w + q) = 4 * w + 4 * q by omega, show 4 * (l - q) = 4 * l - 4 * q by omega, take_split _ _ _ _ (by omega)]
    · injection hk' with hk'
      have : q = l := hqk (by omega)
      rw [hl (by omega), this]

/-- The calls of a program, with the memory given (its contents before, for a read) and the system. -/
inductive Op
  | rew
  | eoi
  | getw (sys : Sys) (m : List Byte)
  | putw (sys : Sys) (buf : List Byte)

/-- What the caller sees: the words read, the end of the file, or nothing. -/
inductive Out
  | words (bs : List Byte)
  | short
  | done
deriving DecidableEq, Repr

/-- One call, for buffers of whole words. -/
def step (f : File) : Op → File × Out
  | .rew => (rew f, .done)
  | .eoi => (eoi f, .done)
  | .getw sys m => let r := getw sys f m (m.length / 4); (r.1, if r.2.2 < 0 then .short else .words r.2.1)
  | .putw sys buf => let r := putw sys f buf (buf.length / 4); (r.1, if r.2 < 0 then .short else .done)

/-- A program. -/
def run : File → List Op → File × List Out
  | f, [] => (f, [])
  | f, op :: t => ((run (step f op).1 t).1, (step f op).2 :: (run (step f op).1 t).2)

/-- What is expected: the bytes from the position on, if there are enough of them; overwriting from the position on. -/
def spec (f : File) : Op → File × Out
  | .rew => (⟨f.disk, 0⟩, .done)
  | .eoi => (⟨f.disk, f.disk.length⟩, .done)
  | .getw _ m =>
    if f.pos + m.length ≤ f.disk.length ∨ m = [] then (⟨f.disk, f.pos + m.length⟩, .words ((f.disk.drop f.pos).take m.length))
    else (⟨f.disk, Nat.max f.pos f.disk.length⟩, .short)
  | .putw _ buf => (if buf = [] then f else f.write buf, .done)

@[inherit_doc spec]
def specRun : File → List Op → File × List Out
  | f, [] => (f, [])
  | f, op :: t => ((specRun (spec f op).1 t).1, (spec f op).2 :: (specRun (spec f op).1 t).2)

/-- Whole words, moved as such. -/
def Fair : Op → Prop
  | .getw sys m => Whole sys ∧ m.length % 4 = 0
  | .putw sys buf => Whole sys ∧ buf.length % 4 = 0
  | _ => True

theorem step_spec (f : File) (op : Op) (h : Fair op) : step f op = spec f op := by
  cases op with
  | rew => rfl
  | eoi => rfl
  | getw sys m =>
    obtain ⟨hs, hm⟩ := h
    have e4 : 4 * (m.length / 4) = m.length := by omega
    by_cases c0 : m = []
    · subst c0
      simp [step, spec, getw, getLoop]
    have hl : 0 < m.length := List.length_pos_iff.2 c0
    by_cases c : f.pos + m.length ≤ f.disk.length
    · have := getLoop_whole hs (4 * (m.length / 4)) 0 f m 0 (m.length / 4) (by omega) (by omega) (by omega)
      simp only [step, spec, getw, this, if_pos (Or.inl c), if_true]
      rw [if_neg (by omega), if_neg (by omega), e4]
      congr 2
      have hlen : ((f.disk.drop f.pos).take m.length).length = m.length := by
        rw [List.length_take, List.length_drop]; omega
      unfold put
      rw [hlen]
      simp
    · obtain ⟨m', r, h⟩ := getLoop_short (sys := sys) (fun i => by obtain ⟨k, hk⟩ := hs i; rw [hk]; nofun) (4 * (m.length / 4)) 0 f m 0
        (4 * (m.length / 4)) (by omega) (by omega) (by omega)
      simp only [step, spec, getw, h, c, c0, or_self, if_false, Nat.add_one_ne_zero]
      rw [if_pos (by decide)]
  | putw sys buf =>
    obtain ⟨hs, hm⟩ := h
    have e4 : 4 * (buf.length / 4) = buf.length := by omega
    obtain ⟨last, h, -⟩ := putLoop_whole hs buf (4 * (buf.length / 4)) 0 f 0 (buf.length / 4) 1 (by omega) (by omega)
    simp only [step, spec, putw, h, if_true]
    rw [if_neg (show ¬ ((last / 4 : Nat) : Int) < 0 by omega)]
    congr 1
    by_cases c0 : buf = []
    · subst c0; rfl
    · have hl : 0 < buf.length := List.length_pos_iff.2 c0
      rw [if_neg (by omega), if_neg c0, e4]
      simp

/-- C92.  Whatever is written, read and rewound, on a system that moves whole words, in pieces of any sizes: every read returns the next
words of the file and every write replaces them.
Missing: systems that move parts of words (see the witnesses). -/
theorem C92_partial (ops : List Op) (f : File) (h : ∀ op ∈ ops, Fair op) : run f ops = specRun f ops := by
  induction ops generalizing f with
  | nil => rfl
  | cons op t ih =>
    rw [run, specRun, step_spec f op (h op (.head _)), ih _ fun o ho => h o (.tail _ ho)]

theorem specRun_append (a b : List Op) : ∀ f, specRun f (a ++ b) = ((specRun (specRun f a).1 b).1, (specRun f a).2 ++ (specRun (specRun f a).1 b).2) := by
  induction a with
  | nil => intro f; rfl
  | cons op t ih => intro f; rw [List.cons_append, specRun, specRun, ih]; rfl

theorem write_end (d b : List Byte) : (⟨d, d.length⟩ : File).write b = ⟨d ++ b, (d ++ b).length⟩ := by
  unfold File.write put
  simp

/-- Writes at the end of a file. -/
theorem specRun_puts (sys : Sys) : ∀ (bufs : List (List Byte)) (d : List Byte),
    (specRun ⟨d, d.length⟩ (bufs.map (.putw sys))).1 = ⟨d ++ bufs.flatten, (d ++ bufs.flatten).length⟩
  | [], d => by simp [specRun]
  | b :: t, d => by
    rw [List.map_cons, specRun]
    have : (spec ⟨d, d.length⟩ (.putw sys b)).1 = ⟨d ++ b, (d ++ b).length⟩ := by
      unfold spec
      dsimp only
      split
      · next h => simp [h]
      · exact write_end d b
    rw [this]
    dsimp only
    rw [specRun_puts sys t]
    simp

/-- Reads of existing words. -/
theorem specRun_gets (sys : Sys) (d : List Byte) : ∀ (ms : List (List Byte)) (p : Nat), p + ms.flatten.length ≤ d.length →
    ∃ outs : List (List Byte), (specRun ⟨d, p⟩ (ms.map (.getw sys))).2 = outs.map .words ∧ outs.map List.length = ms.map List.length ∧
      outs.flatten = (d.drop p).take ms.flatten.length
  | [], p, _ => ⟨[], rfl, rfl, by simp⟩
  | m :: t, p, h => by
    rw [List.flatten_cons, List.length_append] at h
    obtain ⟨outs, h1, h2, h3⟩ := specRun_gets sys d t (p + m.length) (by omega)
    have hs : spec ⟨d, p⟩ (.getw sys m) = (⟨d, p + m.length⟩, .words ((d.drop p).take m.length)) := by
      unfold spec
      dsimp only
      rw [if_pos (.inl (by omega))]
    refine ⟨(d.drop p).take m.length :: outs, ?_, ?_, ?_⟩
    · rw [List.map_cons, specRun, hs, List.map_cons, h1]
    · rw [List.map_cons, List.map_cons, h2, List.length_take, List.length_drop, Nat.min_eq_left (by omega)]
    · rw [List.flatten_cons, h3, List.flatten_cons, List.length_append]
      have := take_split d p (m.length + t.flatten.length) m.length (by omega)
      rwa [Nat.add_sub_cancel_left] at this

/-- C92.  What is written to an empty file with any number of calls is read back, after a rewind, with calls of any other sizes. -/
theorem C92_roundtrip (sys : Sys) (hs : Whole sys) (bufs ms : List (List Byte)) (hb : ∀ b ∈ bufs, b.length % 4 = 0) (hm : ∀ m ∈ ms, m.length % 4 = 0)
    (he : ms.flatten.length = bufs.flatten.length) :
    ∃ outs : List (List Byte), (run ⟨[], 0⟩ (bufs.map (.putw sys) ++ .rew :: ms.map (.getw sys))).2 =
        bufs.map (fun _ => .done) ++ .done :: outs.map .words ∧
      outs.map List.length = ms.map List.length ∧ outs.flatten = bufs.flatten := by
  rw [C92_partial _ _ (fun op ho => ?_), specRun_append]
  · have h1 := specRun_puts sys bufs []
    rw [show (⟨[], [].length⟩ : File) = ⟨[], 0⟩ from rfl, List.nil_append] at h1
    rw [h1]
    obtain ⟨outs, h2, h3, h4⟩ := specRun_gets sys bufs.flatten ms 0 (by omega)
    refine ⟨outs, ?_, h3, ?_⟩
    · rw [specRun]
      show _ ++ Out.done :: (specRun ⟨bufs.flatten, 0⟩ (ms.map (.getw sys))).2 = _
      rw [h2]
      congr 1
      clear h1 h2 he hb h4
      generalize (⟨[], 0⟩ : File) = f
      induction bufs generalizing f with
      | nil => rfl
      | cons b t ih => rw [List.map_cons, specRun, List.map_cons, ih]; rfl
    · rw [h4, he, List.drop_zero, List.take_length]
  · rw [List.mem_append, List.mem_cons, List.mem_map, List.mem_map] at ho
    rcases ho with ⟨b, h, rfl⟩ | rfl | ⟨m, h, rfl⟩
    · exact ⟨hs, hb b h⟩
    · trivial
    · exact ⟨hs, hm m h⟩

/-- C92.  The number returned by `c_sqputw` is the number of words when the system moves all of them at once. -/
theorem C92_count_partial (sys : Sys) (f : File) (buf : List Byte) (n k : Nat) (hs : Whole sys) (hn : 4 * n ≤ buf.length) (h0 : sys 0 = some k)
    (hk : 4 * n ≤ k) : (putw sys f buf n).2 = n := by
  obtain ⟨last, h, h1, h2⟩ := putLoop_whole hs buf (4 * n) 0 f 0 n 1 (by omega) (by omega)
  simp only [putw, h, if_true]
  rcases Nat.eq_zero_or_pos n with c | c
  · rw [h2 c, c]
  · rw [h1 k c h0 hk, Nat.mul_div_cancel_left n (by omega)]

/-- C92 for bytes: `c_sqgets` returns the next bytes, as many as it says, at least one if there is one. -/
theorem C92_gets (sys : Sys) (f : File) (m : List Byte) (n k : Nat) (h0 : sys 0 = some k) (hn : 0 < n) :
    ∃ c, c ≤ n ∧ (c = 0 ↔ f.disk.length ≤ f.pos) ∧ (gets sys f m n).1 = ⟨f.disk, f.pos + c⟩ ∧
      (gets sys f m n).2.1 = (f.disk.drop f.pos).take c ++ m.drop c ∧
      (gets sys f m n).2.2 = if c = 0 then -1 else (c : Int) := by
  have hlen : (f.read k n).2.length = Nat.min (Nat.min (Nat.max k 1) n) (f.disk.length - f.pos) := by
    unfold File.read
    simp only [List.length_take, List.length_drop]
  have hle : (f.read k n).2.length ≤ n ∧ ((f.read k n).2.length = 0 ↔ f.disk.length ≤ f.pos) := by
    rw [hlen]
    simp only [Nat.min_def, Nat.max_def]
    constructor <;> repeat' split
    all_goals omega
  have hbs : (f.read k n).2 = (f.disk.drop f.pos).take (f.read k n).2.length := by
    exact List.prefix_iff_eq_take.1 (List.take_prefix _ _)
  refine ⟨(f.read k n).2.length, hle.1, hle.2, ?_, ?_, ?_⟩
  · simp only [gets, h0]; rfl
  · simp only [gets, h0, put]
    rw [← hbs]
    simp
  · simp only [gets, h0]
    by_cases c : (f.read k n).2.length = 0
    · rw [c]; rfl
    · rw [if_neg c, if_pos (by omega)]

/-- Two bytes at a time, then as many as asked. -/
def slow : Sys := fun i => if i = 0 then some 2 else some 1000
/-- One word at a time. -/
def words : Sys := fun _ => some 4

example : Whole words := fun _ => ⟨0, rfl⟩

/-- A case of `C92_roundtrip`: three words written as one and two, read as two and one. -/
example : ∃ outs : List (List Byte), (run ⟨[], 0⟩ ([[1, 2, 3, 4], [5, 6, 7, 8, 9, 10, 11, 12]].map (.putw words) ++ .rew ::
      [List.replicate 8 0, List.replicate 4 0].map (.getw words))).2 = [.done, .done, .done] ++ outs.map .words ∧
    outs.map List.length = [8, 4] ∧ outs.flatten = [1, 2, 3, 4, 5, 6, 7, 8, 9, 10, 11, 12] := by
  obtain ⟨o, h1, h2, h3⟩ := C92_roundtrip words (fun _ => ⟨0, rfl⟩) [[1, 2, 3, 4], [5, 6, 7, 8, 9, 10, 11, 12]] [List.replicate 8 0, List.replicate 4 0]
    (by decide) (by decide) (by decide)
  exact ⟨o, h1, h2, h3⟩

/-- C92 is false when the system moves a part of a word, as pipes may: the next bytes of the word overwrite its first ones, and the call
says that all is well. -/
theorem C92_read_witness : getw slow ⟨[1, 2, 3, 4, 5, 6, 7, 8], 0⟩ (List.replicate 8 0) 2 = (⟨[1, 2, 3, 4, 5, 6, 7, 8], 8⟩, [3, 4, 5, 6, 7, 8, 0, 0], 2) := by
  decide +kernel

/-- The same for writes: the first bytes of the word are written twice. -/
theorem C92_write_witness : putw slow ⟨[], 0⟩ [1, 2, 3, 4, 5, 6, 7, 8] 2 = (⟨[1, 2, 1, 2, 3, 4, 5, 6], 8⟩, 1) := by
  decide +kernel

/-- Two words written one at a time: the call returns 1. -/
theorem C92_count_witness : putw words ⟨[], 0⟩ [1, 2, 3, 4, 5, 6, 7, 8] 2 = (⟨[1, 2, 3, 4, 5, 6, 7, 8], 8⟩, 1) := by
  decide +kernel

end Verif.Sq
