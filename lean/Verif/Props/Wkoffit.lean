import Verif.Wkoffit
import Verif.XdfLen
import Verif.Props.Xdf
import Mathlib.Tactic.IntervalCases

/-! # Properties C99 and C100: size check of random files and detection of file types -/

namespace Verif.Wkoffit

open Verif.Xdf

/-! ## Words and bytes of a file -/

theorem bytesOf_length (d : List W) : (bytesOf d).length = 4 * d.length := by
  induction d with
  | nil => rfl
  | cons w d ih => simp only [bytesOf, List.flatMap_cons, List.length_append] at ih ⊢; simp [ih]; omega

theorem bytesOf_get (d : List W) (k i : Nat) (hi : i < 4) :
    (bytesOf d)[4 * k + i]? = (d[k]?).map fun w => w.extractLsb' (24 - 8 * i) 8 := by
  induction d generalizing k with
  | nil => simp [bytesOf]
  | cons w d ih =>
    cases k with
    | zero =>
      simp only [bytesOf, List.flatMap_cons]
      interval_cases i <;> rfl
    | succ k =>
      have : 4 * (k + 1) + i = 4 * k + i + 4 := by omega
      rw [this]
      simp only [bytesOf, List.flatMap_cons]
      exact ih k

theorem word_bytes (w : W) : w.extractLsb' 24 8 ++ w.extractLsb' 16 8 ++ w.extractLsb' 8 8 ++
    w.extractLsb' 0 8 = w := by
  apply BitVec.eq_of_getLsbD_eq
  intro i hi
  simp only [BitVec.getLsbD_append, BitVec.getLsbD_extractLsb']
  interval_cases i <;> simp

theorem wordAt_bytes {d : List W} {k : Nat} {w : W} (h : d[k]? = some w) (junk : Nat → Byte) :
    wordAt (bytesOf d) junk 0 k = w := by
  have g0 : (bytesOf d)[4 * k]? = _ := bytesOf_get d k 0 (by omega)
  unfold wordAt byteAt
  rw [Nat.zero_add, Nat.zero_add, Nat.zero_add, Nat.zero_add, g0, bytesOf_get d k 1 (by omega),
    bytesOf_get d k 2 (by omega), bytesOf_get d k 3 (by omega), h]
  exact word_bytes w

theorem wordAt_junk {f : List Byte} {p k : Nat} (h : p + 4 * k + 4 ≤ f.length) (j j' : Nat → Byte) :
    wordAt f j p k = wordAt f j' p k := by
  unfold wordAt byteAt
  rw [List.getElem?_eq_getElem (show p + 4 * k < f.length by omega),
    List.getElem?_eq_getElem (show p + (4 * k + 1) < f.length by omega),
    List.getElem?_eq_getElem (show p + (4 * k + 2) < f.length by omega),
    List.getElem?_eq_getElem (show p + (4 * k + 3) < f.length by omega)]
  rfl

theorem signAt_get {f : List Byte} {j : Nat → Byte} {a : Nat} {s : List Byte}
    (h : signAt f j a s = true) {i : Nat} (hi : i < s.length) :
    byteAt f j 0 (a + i) = s.getD i 0#8 := by
  simp only [signAt, List.all_eq_true, List.mem_range, beq_iff_eq] at h
  exact h i hi

theorem signAt_junk {f : List Byte} {a : Nat} {s : List Byte} (h : a + s.length ≤ f.length)
    (j j' : Nat → Byte) : signAt f j a s = signAt f j' a s := by
  simp only [signAt]
  apply Bool.eq_iff_iff.2
  simp only [List.all_eq_true, List.mem_range]
  have : ∀ i, i < s.length → byteAt f j 0 (a + i) = byteAt f j' 0 (a + i) := by
    intro i hi
    unfold byteAt
    rw [List.getElem?_eq_getElem (show 0 + (a + i) < f.length by omega)]
    rfl
  constructor
  · intro g i hi; rw [← this i hi]; exact g i hi
  · intro g i hi; rw [this i hi]; exact g i hi

/-! ## Random files -/

/-- `m` and `d` (memory and disk) are reached from the creation of a file with signature `sign` and
key descriptors `keys` by the operations `ops`. -/
structure Made (sign : W) (keys : List W) (lprm : Nat) (ops : List Op) (m : Mem) (d : Disk)
    (cs : List Code) : Prop where
  ex : ∃ nprm auxw res3 junk m0 ws0 c, ValidCreate lprm keys junk ∧
    create sign nprm lprm auxw keys res3 junk = some (m0, ws0, c) ∧
    ValidRun (2 * lprm) ⟨CREATE, []⟩ ops ∧ run m0 (apply [] ws0) ops = some (m, d, cs)

theorem Made.history {sign : W} {keys : List W} {lprm : Nat} {ops : List Op} {m : Mem} {d : Disk}
    {cs : List Code} (h : Made sign keys lprm ops m d cs) : History lprm ops m d cs := by
  obtain ⟨nprm, auxw, res3, junk, m0, ws0, c, h1, h2, h3, h4⟩ := h.ex
  exact ⟨sign, nprm, auxw, keys, res3, junk, m0, ws0, c, h1, h2, h3, h4⟩

theorem Made.len {sign : W} {keys : List W} {lprm : Nat} {ops : List Op} {m : Mem} {d : Disk}
    {cs : List Code} (h : Made sign keys lprm ops m d cs) :
    d.length = 2 * m.hdr.fsiz ∧
      m.hdr.core = (0, keys.length / 2 + 8, 0#32, 0x58444630#32, sign, keys) ∧
      (ops.length < 2 ^ 32 → m.hdr.nrwr.toNat ≤ ops.length) := by
  obtain ⟨nprm, auxw, res3, junk, m0, ws0, c, hv, hc, hvr, hr⟩ := h.ex
  obtain ⟨-, hrw, hw, own, hi⟩ := create_inv hv hc
  obtain ⟨l1, l2, l3⟩ := create_len hv hc
  obtain ⟨g1, g2, g3, g4⟩ := run_len (f := ⟨CREATE, []⟩) hi (by intro i; simp) hrw l1
    (by rw [hw]; exact hvr) hr
  refine ⟨g1, g3.trans l2, ?_⟩
  rw [l3] at g4
  intro ho
  have := g4 (by simpa using ho)
  simpa using this

/-- **C99.** At any time of any history the file on disk is exactly as long as the header in memory
says: `fsiz` units of 64 bits. -/
theorem C99_size {sign : W} {keys : List W} {lprm : Nat} {ops : List Op} {m : Mem} {d : Disk}
    {cs : List Code} (h : Made sign keys lprm ops m d cs) :
    (bytesOf d).length = 8 * m.hdr.fsiz := by
  rw [bytesOf_length, h.len.1]; omega

/-- What the first words of a random file say. -/
structure Head (f : List Byte) (j : Nat → Byte) (fsiz : Nat) (sign k13 : W) (nops : Nat) : Prop where
  w0 : (wordAt f j 0 0).extractLsb' 24 8 = 0#8
  w2 : wordAt f j 0 2 = 0x58444630#32
  w3 : wordAt f j 0 3 = sign
  w4 : (wordAt f j 0 4).toNat = fsiz
  w5 : (wordAt f j 0 5).toNat ≤ nops
  w29 : wordAt f j 0 29 = k13

theorem head_of_has {d : Disk} {h : Header} (hk : h.keys[13]? = some k13) (hf : h.fsiz < 2 ^ 32) (hn : h.nrwr.toNat ≤ nops)
    (hc : h.core = (0, lng, 0#32, 0x58444630#32, sign, keys)) (hd : Has d 0 h.words)
    (j : Nat → Byte) : Head (bytesOf d) j h.fsiz sign k13 nops := by
  simp only [Header.core, Prod.mk.injEq] at hc
  obtain ⟨c1, c2, c3, c4, c5, c6⟩ := hc
  have hkl : 13 < h.keys.length := (List.getElem?_eq_some_iff.1 hk).1
  have hwl : h.words.length = h.keys.length + 16 := by simp [Header.words]
  have key : ∀ i w, h.words[i]? = some w → i < h.words.length → wordAt (bytesOf d) j 0 i = w := by
    intro i w hw hi
    apply wordAt_bytes
    have := hd i hi
    rw [Nat.zero_add] at this
    rw [this, hw]
  refine ⟨?_, ?_, ?_, ?_, ?_, ?_⟩
  · rw [key 0 _ rfl (by omega), ext_hi, c1]
  · rw [key 2 _ rfl (by omega), c4]
  · rw [key 3 _ rfl (by omega), c5]
  · rw [key 4 _ rfl (by omega), ofNat_toNat_lt hf]
  · rw [key 5 _ rfl (by omega)]; exact hn
  · refine key 29 _ ?_ (by omega)
    simp only [Header.words]
    rw [List.getElem?_append_right (by simp)]
    exact hk

theorem Head.check {f : List Byte} {j : Nat → Byte} {fsiz : Nat} {sign k13 : W} {nops : Nat}
    (h : Head f j fsiz sign k13 nops) : xdfcheck f j = .valid ↔ f.length = 8 * fsiz := by
  unfold xdfcheck
  rw [h.w4, h.w0]
  constructor
  · intro g
    by_cases hc : fsiz * 8 = f.length
    · omega
    · rw [if_pos hc] at g; cases g
  · intro g
    rw [if_neg (by omega), if_neg (by simp)]

theorem sign5 {f : List Byte} {j : Nat → Byte} (h : signAt f j 17 CMCARCH5 = true) :
    wordAt f j 0 5 = 0x41524348#32 := by
  have h3 := signAt_get h (i := 3) (by decide)
  have h4 := signAt_get h (i := 4) (by decide)
  have h5 := signAt_get h (i := 5) (by decide)
  have h6 := signAt_get h (i := 6) (by decide)
  unfold wordAt
  simp only [Nat.reduceAdd, Nat.reduceMul] at h3 h4 h5 h6 ⊢
  rw [h3, h4, h5, h6]
  rfl

theorem sign4 {f : List Byte} {j : Nat → Byte} (h : signAt f j 9 CMCARCHS = true) :
    (wordAt f j 0 2).extractLsb' 16 8 = 0x43#8 := by
  have h0 := signAt_get h (i := 0) (by decide)
  have : (wordAt f j 0 2).extractLsb' 16 8 = byteAt f j 0 9 := by
    unfold wordAt
    apply BitVec.eq_of_getLsbD_eq
    intro i hi
    simp only [BitVec.getLsbD_append, BitVec.getLsbD_extractLsb']
    interval_cases i <;> simp
  rw [this]
  exact h0

/-- The answer for a file with the header of a random file. -/
theorem Head.kind {f : List Byte} {J : Junk} {fsiz : Nat} {sign k13 : W} {nops : Nat}
    (h : ∀ j, Head f j fsiz sign k13 nops) (ho : nops < 0x41524348) (hk : k13 ≠ SIGN_SEQ)
    (hl : f.length % 2 ^ 32 ≠ 0) (t : List Byte → Int) {r : Kind}
    (hr : tests98 (wordAt f J.buffer 0) (xdfcheck f J.header) = some r) :
    wkoffit f J t = some r := by
  have n5 : signAt f J.cbuf 17 CMCARCH5 ≠ true := by
    intro hs
    have h1 := sign5 hs
    have h2 := (h J.cbuf).w5
    rw [h1] at h2
    simp at h2
    omega
  have n4 : signAt f J.cbuf 9 CMCARCHS ≠ true := by
    intro hs
    have h1 := sign4 hs
    rw [(h J.cbuf).w2] at h1
    exact absurd h1 (by decide)
  have H := h J.buffer
  have e0 : wordAt f J.buffer 0 0 ≠ SIGN_RND := by
    intro he
    have := H.w0
    rw [he] at this
    exact absurd this (by decide)
  unfold wkoffit
  simp only [Bool.not_eq_true] at n5 n4
  rw [if_neg hl]
  simp only [n5, n4, Bool.false_eq_true, if_false, e0, false_and, H.w2, H.w29, hk, and_false, hr]
  simp

theorem Inv.big {own : Own} {m : Mem} {d : Disk} {s : List Slot} (h : Inv own m d s) :
    m.hdr.lng + 260 ≤ m.hdr.fsiz := by
  have hp := List.getElem?_eq_getElem (show 0 < m.pages.length from h.np1)
  have hr := (h.preg 0 _ hp).fit
  rw [h.first _ hp] at hr
  have := h.lprm
  simp only [pageLng, perPage] at hr
  omega

/-- Head of the file after closing. -/
theorem Made.closed {sign : W} {keys : List W} {lprm : Nat} {ops : List Op} {m : Mem} {d : Disk}
    {cs : List Code} (h : Made sign keys lprm ops m d cs) {k13 : W} (hk : keys[13]? = some k13)
    (ho : ops.length < 2 ^ 32) (j : Nat → Byte) :
    Head (bytesOf (apply d (close m))) j m.hdr.fsiz sign k13 ops.length ∧
      (bytesOf (apply d (close m))).length = 8 * m.hdr.fsiz := by
  obtain ⟨-, -, -, hnp, own, hi⟩ := h.history.inv
  obtain ⟨l1, l2, l3⟩ := h.len
  obtain ⟨m', -, -, hh, -, hhas⟩ := hi.reopen hnp (mode := 0) (by omega)
  have hlen : (apply d (close m)).length = 2 * m.hdr.fsiz := by
    have a := apply_fits (close m) (f := m.hdr.fsiz) (d := d) (by omega) (close_fits hi hnp)
    have b := apply_length d (close m)
    omega
  refine ⟨?_, by rw [bytesOf_length, hlen]; omega⟩
  have hw : ({ m'.hdr with rwflg := 0 } : Header) = { m.hdr with rwflg := 0 } := by rw [hh]
  rw [hw] at hhas
  have hkk : m.hdr.keys = keys := by
    simp only [Header.core, Prod.mk.injEq] at l2; exact l2.2.2.2.2.2
  exact head_of_has (h := { m.hdr with rwflg := 0 }) (by simp only [hkk]; exact hk)
    hi.hok.fsiz (l3 ho) l2 hhas j

/-- **C99.** A random file that was closed after any history is accepted by the check of
`c_fstcheck` and `c_burpcheck`, and its type is recognised: the file is a standard file when it was
created with the signature `STDR` and a report file with `BRP0` or `bRp0`.  Hypotheses: fewer than a
thousand million operations (the count of rewritings can spell `ARCH`), key descriptor 6 is not the
signature of an old sequential file, and the size is not a multiple of 4 GiB. -/
theorem C99_closed_partial {sign : W} {keys : List W} {lprm : Nat} {ops : List Op} {m : Mem} {d : Disk}
    {cs : List Code} (h : Made sign keys lprm ops m d cs) {k13 : W} (hk : keys[13]? = some k13)
    (hk2 : k13 ≠ 0xAAAAAAAA#32) (ho : ops.length < 1000000000)
    (h4 : (bytesOf (apply d (close m))).length % 2 ^ 32 ≠ 0) (J : Junk) (t : List Byte → Int) :
    xdfcheck (bytesOf (apply d (close m))) J.header = .valid ∧
    (sign = 0x53544452#32 → wkoffit (bytesOf (apply d (close m))) J t = some .random98) ∧
    (sign = 0x42525030#32 ∨ sign = 0x62527030#32 →
      wkoffit (bytesOf (apply d (close m))) J t = some .burp) := by
  have H := fun j => (h.closed hk (by omega) j).1
  have hl := (h.closed hk (by omega) J.cbuf).2
  have hv : xdfcheck (bytesOf (apply d (close m))) J.header = .valid := (H _).check.2 hl
  obtain ⟨-, -, -, hnp, own, hi⟩ := h.history.inv
  have hfs := hi.fs
  refine ⟨hv, ?_, ?_⟩
  · intro hs
    refine Head.kind H (by omega) hk2 h4 t ?_
    simp [tests98, (H J.buffer).w3, hs, STDR, hv]
  · intro hs
    refine Head.kind H (by omega) hk2 h4 t ?_
    have e4 : wordAt (bytesOf (apply d (close m))) J.buffer 0 4 ≠ RSF0 := by
      intro he
      have := (H J.buffer).w4
      rw [he] at this
      simp [RSF0] at this
      omega
    rcases hs with hs | hs <;>
      simp [tests98, (H J.buffer).w3, hs, STDR, e4, STDS, BRP0, bRp0, hv]

/-- Header on disk after a session that was not closed. -/
theorem session_head {sign : W} {keys : List W} {lprm : Nat} {ops : List Op} {m : Mem} {d : Disk}
    {cs : List Code} {mode : Nat} (h : Made sign keys lprm (ops ++ [.reopen mode]) m d cs)
    {k13 : W} (hk : keys[13]? = some k13) (ho : ops.length + 1 < 2 ^ 32) {session : List Op}
    (hses : ∀ op ∈ session, op.isSession = true)
    (hv : ValidRun (2 * lprm) (expected (ops ++ [.reopen mode])) session) {ws : List Write}
    (hw : writes m d session = some ws) {d' : Disk} (hd : CrashDisk d ws d') (j : Nat → Byte) :
    Head (bytesOf d') j m.hdr.fsiz sign k13 (ops.length + 1) := by
  obtain ⟨own, hi, hmod, hhas⟩ := h.history.reopened
  obtain ⟨-, hmd, hwd, hnp, -⟩ := h.history.inv
  have hsw := session_writes hi hnp hmd (Nat.le_refl _) (fun _ _ => rfl) hses (by rw [hwd]; exact hv) hw
  have hok0 : ({ m.hdr with rwflg := 0 } : Header).Ok :=
    ⟨hi.hok.idtyp, hi.hok.lng, hi.hok.fsiz, hi.hok.nbd, hi.hok.nbig, hi.hok.lprm, hi.hok.nrec,
      by simp, hi.hok.keys⟩
  have hhdr : Has d' 0 { m.hdr with rwflg := 0 }.words := by
    have hvl := Header.words_length hok0
    generalize ({ m.hdr with rwflg := 0 } : Header).words = vs at hhas hvl ⊢
    refine crash_has hd hhas fun w hwm i h1 h2 hc => ?_
    have hfit := hi.hreg.fit
    rw [show ({ m.hdr with rwflg := 0 } : Header).lng = m.hdr.lng from rfl] at hvl
    rw [hvl] at h2
    obtain ⟨p, r, data, res3, junk, hmem, hown⟩ := hsw w hwm i hc.1 hc.2 (by omega)
    rw [hi.hreg.own (i / 2) (by omega) (by omega)] at hown
    cases hown
  obtain ⟨l1, l2, l3⟩ := h.len
  have hkk : m.hdr.keys = keys := by
    simp only [Header.core, Prod.mk.injEq] at l2; exact l2.2.2.2.2.2
  have l3' := l3 (by simp; omega)
  simp only [List.length_append, List.length_cons, List.length_nil] at l3'
  exact head_of_has (h := { m.hdr with rwflg := 0 }) (by simp only [hkk]; exact hk)
    hi.hok.fsiz l3' l2 hhdr j

/-- **C99.** A file is closed and opened again after any history; then any session of appends,
rewrites and deletions, and a crash that may cut, lose or reorder the writes of the session, leaving
the disk `d'`.  The check accepts the file exactly when it is as long as at the last close; a longer
(or shorter) standard file is reported as corrupted. -/
theorem C99_crash {sign : W} {keys : List W} {lprm : Nat} {ops : List Op} {m : Mem} {d : Disk}
    {cs : List Code} {mode : Nat} (h : Made sign keys lprm (ops ++ [.reopen mode]) m d cs)
    {k13 : W} (hk : keys[13]? = some k13) (hk2 : k13 ≠ 0xAAAAAAAA#32)
    (ho : ops.length < 1000000000) {session : List Op}
    (hses : ∀ op ∈ session, op.isSession = true)
    (hv : ValidRun (2 * lprm) (expected (ops ++ [.reopen mode])) session) {ws : List Write}
    (hw : writes m d session = some ws) {d' : Disk} (hd : CrashDisk d ws d') (J : Junk)
    (t : List Byte → Int) :
    (xdfcheck (bytesOf d') J.header = .valid ↔ d'.length = d.length) ∧
    (sign = 0x53544452#32 → (bytesOf d').length % 2 ^ 32 ≠ 0 → d'.length ≠ d.length →
      wkoffit (bytesOf d') J t = some .corrompu) := by
  have H := fun j => session_head h hk (by omega) hses hv hw hd j
  have hc : xdfcheck (bytesOf d') J.header = .valid ↔ d'.length = d.length := by
    rw [(H J.header).check, bytesOf_length, h.len.1]; omega
  refine ⟨hc, ?_⟩
  intro hs h4 hne
  refine Head.kind H (by omega) hk2 h4 t ?_
  have hdm : xdfcheck (bytesOf d') J.header = .damaged := by
    cases hx : xdfcheck (bytesOf d') J.header with
    | valid => exact absurd (hc.1 hx) hne
    | damaged => rfl
  simp [tests98, (H J.buffer).w3, hs, STDR, hdm]

/-- **C99.** A file whose size is a multiple of 4 GiB is said to be empty, whatever it holds. -/
theorem C99_empty_witness (f : List Byte) (n : Nat) (h : f.length = 4294967296 * n) (J : Junk)
    (t : List Byte → Int) : wkoffit f J t = some .vide := by
  unfold wkoffit
  rw [if_pos (by rw [h]; omega)]

/-! ## C100 -/

/-- The file is long enough for every word the tests look at. -/
structure Enough (f : List Byte) : Prop where
  head : 124 ≤ f.length
  mark : (wordAt f (fun _ => 0) 0 0).toInt + 8 ≤ f.length
  neg : (wordAt f (fun _ => 0) 0 0).toInt < -4 → 4108 ≤ f.length

theorem isftnbin_junk {f : List Byte} {pos : Nat} {lng : W} {n : Nat}
    (h1 : lng.toInt + 8 ≤ f.length) (h2 : lng.toInt < -4 → n + 4 ≤ f.length) (hp : pos ≤ n)
    (j j' : Nat → Byte) :
    isftnbin f j pos lng = isftnbin f j' pos lng ∧
      ∀ b q, isftnbin f j pos lng = some (b, q) → lng.toInt < -4 → q ≤ n + 4 := by
  unfold isftnbin
  split
  · simp
  · simp only
    have hb : (if lng.toInt + 4 < 0 then pos else (lng.toInt + 4).toNat) + 4 * 0 + 4 ≤ f.length := by
      split
      · have := h2 (by omega); omega
      · omega
    rw [wordAt_junk hb j j']
    refine ⟨rfl, ?_⟩
    intro b q hq hneg
    simp only [Option.some.injEq, Prod.mk.injEq] at hq
    rw [if_pos (by omega)] at hq
    omega

/-- **C100.** The answer depends on the file alone, not on what the uninitialised buffers hold, when
the file has at least 124 bytes and the record length suggested by its first word lies inside the
file.  Missing: shorter files and other first words, where it does depend on them
(`C100_short_witness`, `C100_marker_witness`). -/
theorem C100_file_only_partial {f : List Byte} (h : Enough f) (J J' : Junk) (t : List Byte → Int) :
    wkoffit f J t = wkoffit f J' t := by
  have h124 := h.head
  have hw : ∀ k, k ≤ 30 → wordAt f J.buffer 0 k = wordAt f J'.buffer 0 k :=
    fun k hk => wordAt_junk (by omega) _ _
  have hw0 : wordAt f (fun _ => 0) 0 0 = wordAt f J'.buffer 0 0 := wordAt_junk (by omega) _ _
  have hmark := h.mark
  have hneg := h.neg
  rw [hw0] at hmark hneg
  have hchk : xdfcheck f J.header = xdfcheck f J'.header := by
    unfold xdfcheck
    rw [wordAt_junk (k := 4) (by omega) J.header J'.header,
      wordAt_junk (k := 0) (by omega) J.header J'.header]
  have ht : tests98 (wordAt f J.buffer 0) (xdfcheck f J.header) =
      tests98 (wordAt f J'.buffer 0) (xdfcheck f J'.header) := by
    unfold tests98
    rw [hchk, hw 0 (by omega), hw 1 (by omega), hw 2 (by omega), hw 3 (by omega), hw 4 (by omega),
      hw 5 (by omega)]
  unfold wkoffit
  simp only
  rw [signAt_junk (a := 17) (s := CMCARCH5) (by simp [CMCARCH5]; omega) J.cbuf J'.cbuf,
    signAt_junk (a := 9) (s := CMCARCHS) (by simp [CMCARCHS]; omega) J.cbuf J'.cbuf,
    ht, hw 0 (by omega), hw 1 (by omega), hw 2 (by omega), hw 17 (by omega), hw 28 (by omega),
    hw 29 (by omega), hw 30 (by omega)]
  have hp : min f.length 4096 ≤ 4096 := Nat.min_le_right _ _
  generalize hW : wordAt f J'.buffer 0 0 = w0 at hmark hneg ⊢
  -- position after the first test
  have step : ∀ (c : Prop) [Decidable c] (j j' : Nat → Byte) (pos n : Nat), pos ≤ n →
      (w0.toInt < -4 → n + 4 ≤ f.length) →
      (if c then isftnbin f j pos w0 else some (false, pos)) =
        (if c then isftnbin f j' pos w0 else some (false, pos)) ∧
      ∀ b q, (if c then isftnbin f j' pos w0 else some (false, pos)) = some (b, q) →
        w0.toInt < -4 → q ≤ n + 4 := by
    intro c _ j j' pos n hpn hn
    by_cases hc : c
    · simp only [if_pos hc]
      obtain ⟨a, b⟩ := isftnbin_junk hmark hn hpn j' j
      exact ⟨a.symm, b⟩
    · simp only [if_neg hc]
      refine ⟨trivial, ?_⟩
      intro b q hq _
      simp only [Option.some.injEq, Prod.mk.injEq] at hq
      omega
  by_cases hn4 : w0.toInt < -4
  · have hlen := hneg hn4
    obtain ⟨a1, b1⟩ := step (wordAt f J'.buffer 0 2 = 0x504b3834#32) J.mot1 J'.mot1
      (min f.length 4096) 4096 hp (fun _ => by omega)
    rw [a1]
    cases hx : (if wordAt f J'.buffer 0 2 = 0x504b3834#32 then
        isftnbin f J'.mot1 (min f.length 4096) w0 else some (false, min f.length 4096)) with
    | none => rfl
    | some x =>
      obtain ⟨b, q⟩ := x
      have hq := b1 _ _ hx hn4
      cases b with
      | true => rfl
      | false =>
        simp only
        obtain ⟨a2, b2⟩ := step (wordAt f J'.buffer 0 29 = SIGN_SEQ ∧ wordAt f J'.buffer 0 30 = SIGN_SEQ)
          J.mot2 J'.mot2 q 4100 hq (fun _ => by omega)
        rw [a2]
        cases hy : (if wordAt f J'.buffer 0 29 = SIGN_SEQ ∧ wordAt f J'.buffer 0 30 = SIGN_SEQ then
            isftnbin f J'.mot2 q w0 else some (false, q)) with
        | none => rfl
        | some y =>
          obtain ⟨b', q'⟩ := y
          have hq' := b2 _ _ hy hn4
          cases b' with
          | true => rfl
          | false =>
            simp only
            rw [(isftnbin_junk (n := 4104) hmark (fun _ => by omega) hq' J.mot3 J'.mot3).1]
  · have step' : ∀ (j j' : Nat → Byte) (pos : Nat), isftnbin f j pos w0 = isftnbin f j' pos w0 :=
      fun j j' pos => (isftnbin_junk (n := pos) hmark (fun g => absurd g hn4) (Nat.le_refl _) j j').1
    simp only [step' J.mot1 J'.mot1, step' J.mot2 J'.mot2, step' J.mot3 J'.mot3]

/-- A big-endian word. -/
def be (n : Nat) : List Byte :=
  [BitVec.ofNat 8 (n / 2 ^ 24), BitVec.ofNat 8 (n / 2 ^ 16), BitVec.ofNat 8 (n / 2 ^ 8), BitVec.ofNat 8 n]

theorem app_toNat (a b c d : Byte) :
    (a ++ b ++ c ++ d : BitVec (8 + 8 + 8 + 8)).toNat =
      a.toNat * 2 ^ 24 + b.toNat * 2 ^ 16 + c.toNat * 2 ^ 8 + d.toNat := by
  simp only [BitVec.toNat_append]
  rw [← Nat.shiftLeft_add_eq_or_of_lt b.isLt, ← Nat.shiftLeft_add_eq_or_of_lt c.isLt,
    ← Nat.shiftLeft_add_eq_or_of_lt d.isLt]
  simp only [Nat.shiftLeft_eq]
  omega

theorem be_app (n : Nat) : BitVec.ofNat 8 (n / 2 ^ 24) ++ BitVec.ofNat 8 (n / 2 ^ 16) ++
    BitVec.ofNat 8 (n / 2 ^ 8) ++ BitVec.ofNat 8 n = BitVec.ofNat 32 n := by
  apply BitVec.eq_of_toNat_eq
  rw [app_toNat]
  simp only [BitVec.toNat_ofNat]
  omega

theorem be_word {f : List Byte} {j : Nat → Byte} {p n : Nat} (h : (f.drop p).take 4 = be n) :
    wordAt f j p 0 = BitVec.ofNat 32 n := by
  have g : ∀ i, i < 4 → f[p + i]? = (be n)[i]? := by
    intro i hi
    rw [← h, List.getElem?_take_of_lt hi, List.getElem?_drop]
  unfold wordAt byteAt
  simp only [Nat.mul_zero, Nat.zero_add]
  rw [g 0 (by omega), g 1 (by omega), g 2 (by omega), g 3 (by omega)]
  simp only [be, List.getElem?_cons_zero, List.getElem?_cons_succ, Option.getD_some]
  exact be_app n

theorem four {f : List Byte} {p : Nat} (h : p + 4 ≤ f.length) (j : Nat → Byte) :
    (f.drop p).take 4 =
      [byteAt f j 0 p, byteAt f j 0 (p + 1), byteAt f j 0 (p + 2), byteAt f j 0 (p + 3)] := by
  have g : ∀ i, i < 4 → f[p + i]? = some (byteAt f j 0 (p + i)) := by
    intro i hi
    rw [byteAt, Nat.zero_add, List.getElem?_eq_getElem (show p + i < f.length by omega)]
    rfl
  apply List.ext_getElem?
  intro i
  by_cases hi : i < 4
  · rw [List.getElem?_take_of_lt hi, List.getElem?_drop, g i hi]
    interval_cases i <;> rfl
  · rw [List.getElem?_eq_none (by simp; omega), List.getElem?_eq_none (by simp; omega)]

theorem word_be {f : List Byte} {j : Nat → Byte} {k v : Nat} (hl : 4 * k + 4 ≤ f.length)
    (h : wordAt f j 0 k = BitVec.ofNat 32 v) : (f.drop (4 * k)).take 4 = be v := by
  rw [four hl j]
  have ht := congrArg BitVec.toNat h
  unfold wordAt at ht
  rw [app_toNat] at ht
  generalize byteAt f j 0 (4 * k) = a at ht ⊢
  generalize byteAt f j 0 (4 * k + 1) = b at ht ⊢
  generalize byteAt f j 0 (4 * k + 2) = c at ht ⊢
  generalize byteAt f j 0 (4 * k + 3) = d at ht ⊢
  have ha := a.isLt
  have hb := b.isLt
  have hc := c.isLt
  have hd := d.isLt
  simp only [BitVec.toNat_ofNat] at ht
  unfold be
  congr 1
  · apply BitVec.eq_of_toNat_eq; simp only [BitVec.toNat_ofNat]; omega
  congr 1
  · apply BitVec.eq_of_toNat_eq; simp only [BitVec.toNat_ofNat]; omega
  congr 1
  · apply BitVec.eq_of_toNat_eq; simp only [BitVec.toNat_ofNat]; omega
  congr 1
  · apply BitVec.eq_of_toNat_eq; simp only [BitVec.toNat_ofNat]; omega

theorem signAt_sub {f : List Byte} {j : Nat → Byte} {a : Nat} {s : List Byte}
    (hl : a + s.length ≤ f.length) (h : signAt f j a s = true) : (f.drop a).take s.length = s := by
  apply List.ext_getElem?
  intro i
  by_cases hi : i < s.length
  · rw [List.getElem?_take_of_lt hi, List.getElem?_drop]
    have := signAt_get h hi
    rw [byteAt, Nat.zero_add, List.getElem?_eq_getElem (show a + i < f.length by omega)] at this
    rw [List.getElem?_eq_getElem (show a + i < f.length by omega), List.getElem?_eq_getElem hi]
    simpa [List.getD_eq_getElem?_getD, hi] using this
  · rw [List.getElem?_eq_none (by simp; omega), List.getElem?_eq_none (by omega)]

theorem tests98_kind {w : Nat → W} {c : Check} {k : Kind} (h : tests98 w c = some k) (x : Int) :
    k ≠ .other x := by
  unfold tests98 at h
  rintro rfl
  repeat' split at h
  all_goals simp at h

/-- The bytes at `a`, `n` of them. -/
def sub (f : List Byte) (a n : Nat) : List Byte := (f.drop a).take n

/-- **C100.** A Fortran unformatted file in big-endian form: its first record, of `n` bytes, lies
between two words holding `n`.  The answer is never left to the image formats, and it is
`WKF_FORTRAN` when the bytes where signatures are looked for hold none and `n` is not itself one of
the signatures of a first word. -/
theorem C100_fortran_partial {n : Nat} (h0 : 0 < n) (hn : n < 2147483644) (data rest : List Byte)
    (hd : data.length = n) {f : List Byte} (hf : f = be n ++ data ++ be n ++ rest)
    (h4 : f.length % 2 ^ 32 ≠ 0) (J : Junk) (t : List Byte → Int) :
    (∃ k, wkoffit f J t = some k ∧ ∀ c, k ≠ .other c) ∧
    (124 ≤ f.length → n < 0x42000000 → sub f 17 8 ≠ CMCARCH5 → sub f 9 8 ≠ CMCARCHS →
      sub f 8 4 ≠ be 0x20202020 → sub f 8 4 ≠ be 0x504b3834 → sub f 116 4 ≠ be 0xAAAAAAAA →
      sub f 12 4 ≠ be 0x53544452 → sub f 12 4 ≠ be 0x53544453 → sub f 12 4 ≠ be 0x42525030 →
      sub f 12 4 ≠ be 0x62527030 → sub f 16 4 ≠ be 0x52534630 →
      wkoffit f J t = some .fortran) := by
  have hbl : (be n).length = 4 := rfl
  have hw0 : ∀ j, wordAt f j 0 0 = BitVec.ofNat 32 n := fun j => be_word (by
    rw [hf, List.drop_zero, List.append_assoc, List.append_assoc, List.take_append_of_le_length (by simp [hbl]),
      List.take_of_length_le (by simp [hbl])])
  have hwn : ∀ j, wordAt f j (n + 4) 0 = BitVec.ofNat 32 n := fun j => be_word (by
    rw [hf, List.append_assoc, List.drop_append_of_le_length (by simp [hbl, hd]; omega),
      List.drop_of_length_le (by simp [hbl, hd]; omega), List.nil_append,
      List.take_append_of_le_length (by simp [hbl]), List.take_of_length_le (by simp [hbl])])
  have hti : (BitVec.ofNat 32 n).toInt = (n : Int) := by
    rw [BitVec.toInt_eq_toNat_of_lt (by simp; omega)]
    simp; omega
  have hyes : ∀ j pos, ∃ q, isftnbin f j pos (BitVec.ofNat 32 n) = some (true, q) := by
    intro j pos
    unfold isftnbin
    rw [hti, if_neg (by omega), if_neg (by omega)]
    have : ((n : Int) + 4).toNat = n + 4 := by omega
    simp only [this, hwn]
    refine ⟨_, congrArg some (Prod.ext ?_ rfl)⟩
    simp only [true_and, decide_eq_true_eq]
    intro hc
    have := congrArg BitVec.toNat hc
    simp at this
    omega
  have hif : ∀ (c : Prop) [Decidable c] (j : Nat → Byte) (pos : Nat),
      (∃ q, c ∧ (if c then isftnbin f j pos (BitVec.ofNat 32 n) else some (false, pos)) = some (true, q)) ∨
      (¬ c ∧ (if c then isftnbin f j pos (BitVec.ofNat 32 n) else some (false, pos)) = some (false, pos)) := by
    intro c _ j pos
    by_cases hc : c
    · obtain ⟨q, hq⟩ := hyes j pos
      exact Or.inl ⟨q, hc, by rw [if_pos hc, hq]⟩
    · exact Or.inr ⟨hc, by rw [if_neg hc]⟩
  obtain ⟨q3, y3⟩ := hyes J.mot3 (min f.length 4096)
  constructor
  · unfold wkoffit
    rw [if_neg h4]
    simp only [hw0]
    split
    · exact ⟨_, rfl, fun c hc => by cases hc⟩
    split
    · exact ⟨_, rfl, fun c hc => by cases hc⟩
    split
    · exact ⟨_, rfl, fun c hc => by cases hc⟩
    split
    · exact ⟨_, rfl, fun c hc => by cases hc⟩
    rcases hif (wordAt f J.buffer 0 2 = 0x504b3834#32) J.mot1 (min f.length 4096) with ⟨q, -, e⟩ | ⟨-, e⟩
    · rw [e]; exact ⟨_, rfl, fun c hc => by cases hc⟩
    rw [e]
    simp only
    split
    · exact ⟨_, rfl, fun c hc => by cases hc⟩
    rcases hif (wordAt f J.buffer 0 29 = SIGN_SEQ ∧ wordAt f J.buffer 0 30 = SIGN_SEQ) J.mot2
      (min f.length 4096) with ⟨q, -, e⟩ | ⟨-, e⟩
    · rw [e]; exact ⟨_, rfl, fun c hc => by cases hc⟩
    rw [e]
    simp only
    cases ht : tests98 (wordAt f J.buffer 0) (xdfcheck f J.header) with
    | some k => exact ⟨k, rfl, tests98_kind ht⟩
    | none =>
      simp only [y3]
      exact ⟨_, rfl, fun c hc => by cases hc⟩
  · intro hl hlt s5 s4 sc sp sq ss1 ss2 ss3 ss4 sr
    have n5 : signAt f J.cbuf 17 CMCARCH5 = false :=
      Bool.eq_false_iff.2 fun hs => s5 (signAt_sub (by simp [CMCARCH5]; omega) hs)
    have n4 : signAt f J.cbuf 9 CMCARCHS = false :=
      Bool.eq_false_iff.2 fun hs => s4 (signAt_sub (by simp [CMCARCHS]; omega) hs)
    have w0 : ∀ v : Nat, 0x42000000 ≤ v → v < 2 ^ 32 → BitVec.ofNat 32 n ≠ BitVec.ofNat 32 v := by
      intro v h1 h2 hc
      have := congrArg BitVec.toNat hc
      simp only [BitVec.toNat_ofNat] at this
      omega
    have e2 : wordAt f J.buffer 0 2 ≠ 0x504b3834#32 := fun h => sp (word_be (k := 2) (by omega) h)
    have e2' : wordAt f J.buffer 0 2 ≠ 0x20202020#32 := fun h => sc (word_be (k := 2) (by omega) h)
    have e29 : wordAt f J.buffer 0 29 ≠ SIGN_SEQ := fun h => sq (word_be (k := 29) (by omega) h)
    have e3a : wordAt f J.buffer 0 3 ≠ STDR := fun h => ss1 (word_be (k := 3) (by omega) h)
    have e3b : wordAt f J.buffer 0 3 ≠ STDS := fun h => ss2 (word_be (k := 3) (by omega) h)
    have e3c : wordAt f J.buffer 0 3 ≠ BRP0 := fun h => ss3 (word_be (k := 3) (by omega) h)
    have e3d : wordAt f J.buffer 0 3 ≠ bRp0 := fun h => ss4 (word_be (k := 3) (by omega) h)
    have e4 : wordAt f J.buffer 0 4 ≠ RSF0 := fun h => sr (word_be (k := 4) (by omega) h)
    have ht : tests98 (wordAt f J.buffer 0) (xdfcheck f J.header) = none := by
      unfold tests98
      rw [hw0, if_neg e3a, if_neg e4, if_neg e3b, if_neg (by simp [e3c, e3d]),
        if_neg (w0 0x47524942 (by omega) (by omega)), if_neg (w0 0x42554652 (by omega) (by omega)),
        if_neg (w0 0x43444601 (by omega) (by omega)), if_neg (w0 0x43444602 (by omega) (by omega)),
        if_neg (fun h => w0 0x89484446 (by omega) (by omega) h.1),
        if_neg (w0 0x424c4f4b (by omega) (by omega)),
        if_neg (fun h => w0 0x53514c69 (by omega) (by omega) h.1)]
    have er : BitVec.ofNat 32 n ≠ SIGN_RND := w0 0x55555555 (by omega) (by omega)
    unfold wkoffit
    rw [if_neg h4]
    simp only [hw0, n5, n4, er, e2, e2', e29, ht, y3, Bool.false_eq_true, if_false, false_and,
      and_false]

def Kind.withOther (k : Kind) (c : Int) : Kind :=
  match k with
  | .other _ => .other c
  | k => k

/-- The image formats matter only when nothing else applies. -/
theorem wkoffit_other (f : List Byte) (J : Junk) (t : List Byte → Int) :
    wkoffit f J t = (wkoffit f J (fun _ => 0)).map (fun k => k.withOther (t f)) := by
  unfold wkoffit
  split
  · rfl
  simp only
  split
  · rfl
  split
  · rfl
  split
  · rfl
  split
  · rfl
  split
  · rfl
  · rfl
  split
  · rfl
  split
  · rfl
  · rfl
  split
  · rename_i k hk
    have := tests98_kind hk
    cases k <;> first | rfl | exact absurd rfl (this _)
  split <;> rfl

def zero : Junk := ⟨fun _ => 0, fun _ => 0, fun _ => 0, fun _ => 0, fun _ => 0, fun _ => 0⟩

/-- **C100.** On a short file the answer depends on uninitialised memory: one byte, and two contents
of the buffer. -/
theorem C100_short_witness : ∃ (f : List Byte) (J J' : Junk), f.length = 1 ∧ ∀ t : List Byte → Int,
    wkoffit f J t = some .sequentiel98 ∧ wkoffit f J' t = some (.other (t f)) := by
  refine ⟨[65#8], { zero with buffer := fun i => (List.replicate 12 0 ++ be 0x53544453).getD i 0 },
    zero, rfl, fun t => ?_⟩
  rw [wkoffit_other, wkoffit_other _ zero]
  have h1 : wkoffit [65#8] { zero with
      buffer := fun i => (List.replicate 12 0 ++ be 0x53544453).getD i 0 } (fun _ => 0) =
      some .sequentiel98 := by decide +kernel
  have h2 : wkoffit [65#8] zero (fun _ => 0) = some (.other 0) := by decide +kernel
  rw [h1, h2]
  exact ⟨rfl, rfl⟩

/-- A file of 200 characters. -/
def text : List Byte := [0x20, 0x20, 0x20, 0x61] ++ List.replicate 196 0x61

/-- **C100.** A text file whose first word, taken as a record length, points past the end: the answer
depends on the uninitialised word of `isftnbin`. -/
theorem C100_marker_witness : ∃ (f : List Byte) (J J' : Junk), f.length = 200 ∧ ∀ t : List Byte → Int,
    wkoffit f J t = some .fortran ∧ wkoffit f J' t = some (.other (t f)) := by
  refine ⟨text, { zero with mot3 := fun i => text.getD i 0 }, zero, by decide +kernel, fun t => ?_⟩
  rw [wkoffit_other, wkoffit_other _ zero]
  have h1 : wkoffit text { zero with mot3 := fun i => text.getD i 0 } (fun _ => 0) =
      some .fortran := by decide +kernel
  have h2 : wkoffit text zero (fun _ => 0) = some (.other 0) := by decide +kernel
  rw [h1, h2]
  exact ⟨rfl, rfl⟩

/-- The start of a GRIB message. -/
def grib : List Byte := be 0x47524942 ++ List.replicate 8 0 ++ be 0x53544453 ++ List.replicate 108 1

/-- **C100.** The signature of a sequential standard file is looked for before that of GRIB: a GRIB
file whose bytes 12 to 15 (centre, process, grid and flag) are `STDS` is taken for a standard file. -/
theorem C100_grib_witness : ∃ f : List Byte, sub f 0 4 = be 0x47524942 ∧
    ∀ J t, wkoffit f J t = some .sequentiel98 := by
  refine ⟨grib, by decide +kernel, fun J t => ?_⟩
  have hl : grib.length = 124 := by decide +kernel
  have hw : ∀ k, k ≤ 30 → wordAt grib J.buffer 0 k = wordAt grib (fun _ => 0) 0 k :=
    fun k hk => wordAt_junk (by omega) _ _
  have e5 : signAt grib J.cbuf 17 CMCARCH5 = false :=
    (signAt_junk (by simp [CMCARCH5, hl]) _ _).trans
      (by decide +kernel : signAt grib (fun _ => 0) 17 CMCARCH5 = false)
  have e4 : signAt grib J.cbuf 9 CMCARCHS = false :=
    (signAt_junk (by simp [CMCARCHS, hl]) _ _).trans
      (by decide +kernel : signAt grib (fun _ => 0) 9 CMCARCHS = false)
  have v0 : wordAt grib (fun _ => 0) 0 0 = 0x47524942#32 := by decide +kernel
  have v2 : wordAt grib (fun _ => 0) 0 2 = 0#32 := by decide +kernel
  have v3 : wordAt grib (fun _ => 0) 0 3 = STDS := by decide +kernel
  have v4 : wordAt grib (fun _ => 0) 0 4 = 0x01010101#32 := by decide +kernel
  have v29 : wordAt grib (fun _ => 0) 0 29 = 0x01010101#32 := by decide +kernel
  have ht : tests98 (wordAt grib J.buffer 0) (xdfcheck grib J.header) = some .sequentiel98 := by
    unfold tests98
    rw [hw 3 (by omega), hw 4 (by omega), v3, v4, if_neg (by decide), if_neg (by decide),
      if_pos rfl]
  have c1 : (0x47524942#32 : W) ≠ SIGN_RND := by decide
  have c2 : (0x47524942#32 : W) ≠ 64#32 := by decide
  have c3 : (0#32 : W) ≠ 0x504b3834#32 := by decide
  have c4 : (0x01010101#32 : W) ≠ SIGN_SEQ := by decide
  unfold wkoffit
  rw [if_neg (by rw [hl]; decide)]
  simp only [e5, e4, hw 0 (by omega), hw 2 (by omega), hw 29 (by omega), v0, v2, v29, c1, c2, c3, c4, ht,
    Bool.false_eq_true, if_false, false_and, and_false]

/-! ## Concrete cases meeting the hypotheses -/

namespace Example

open Verif.Xdf.Example

def keys : List W := List.replicate 32 1#32

def start (ops : List Op) : Option (Mem × Disk × List Code) :=
  (create 0x53544452#32 1#16 2 0#32 keys 7#32 junk).bind fun x => run x.1 (apply [] x.2.1) ops

theorem start_made {ops : List Op} (hv : ValidRun 4 ⟨CREATE, []⟩ ops) {m : Mem} {d : Disk}
    {cs : List Code} (h : start ops = some (m, d, cs)) : Made 0x53544452#32 keys 2 ops m d cs := by
  unfold start at h
  cases hc : create 0x53544452#32 1#16 2 0#32 keys 7#32 junk with
  | none => rw [hc] at h; simp at h
  | some x =>
    rw [hc] at h
    exact ⟨_, _, _, junk, x.1, x.2.1, x.2.2,
      ⟨by decide, by decide, by decide, by decide, junk_ok⟩, hc, hv, h⟩

/-- The hypotheses of `C99_closed_partial`, after two appends and a rewriting. -/
example : ∃ m d cs, Made 0x53544452#32 keys 2 base m d cs ∧ keys[13]? = some 1#32 ∧
    (bytesOf (apply d (close m))).length % 2 ^ 32 ≠ 0 := by
  have key : (start base).any (fun x => decide ((apply x.2.1 (close x.1)).length = 1102)) = true := by
    decide +kernel
  cases hs : start base with
  | none => rw [hs] at key; simp at key
  | some x =>
    obtain ⟨m, d, cs⟩ := x
    rw [hs] at key
    simp only [Option.any_some, decide_eq_true_eq] at key
    exact ⟨m, d, cs, start_made base_ok hs, rfl, by rw [bytesOf_length, key]; decide⟩

/-- The hypotheses of `C99_crash`: a session with an append, all of whose writes were made, so that
the file is longer. -/
example : ∃ m d cs ws, Made 0x53544452#32 keys 2 ((base ++ more.take 2) ++ [.reopen APPEND]) m d cs ∧
    (∀ op ∈ session, op.isSession = true) ∧
    ValidRun 4 (expected ((base ++ more.take 2) ++ [.reopen APPEND])) session ∧
    writes m d session = some ws ∧ CrashDisk d ws (apply d ws) ∧ (apply d ws).length ≠ d.length ∧
    (bytesOf (apply d ws)).length % 2 ^ 32 ≠ 0 := by
  have key : (start (base ++ more)).any (fun x => (writes x.1 x.2.1 session).any fun ws =>
      decide (x.2.1.length = 1106 ∧ (apply x.2.1 ws).length = 1116)) = true := by
    decide +kernel
  have hmore : (base ++ more.take 2) ++ [.reopen APPEND] = base ++ more := rfl
  cases hs : start (base ++ more) with
  | none => rw [hs] at key; simp at key
  | some x =>
    obtain ⟨m, d, cs⟩ := x
    rw [hs] at key
    simp only [Option.any_some] at key
    cases hw : writes m d session with
    | none => rw [hw] at key; simp at key
    | some ws =>
      rw [hw] at key
      simp only [Option.any_some, decide_eq_true_eq] at key
      refine ⟨m, d, cs, ws, ?_, by simp [session, Op.isSession], ?_, hw, crash_apply _ _,
        by omega, by rw [bytesOf_length, key.2]; decide⟩
      · rw [hmore]
        exact start_made ((validRun_append _ _ _ _).2 ⟨base_ok, more_ok⟩) hs
      · rw [hmore]; exact session_ok

/-- The hypotheses of `C100_file_only_partial`: a file of 200 bytes starting with the word 8. -/
example : Enough (be 8 ++ List.replicate 196 3) :=
  ⟨by decide +kernel, by decide +kernel, by decide +kernel⟩

/-- The hypotheses of `C100_fortran_partial`: one record of 200 bytes. -/
example : let f := be 200 ++ List.replicate 200 3#8 ++ be 200 ++ []
    f.length % 2 ^ 32 ≠ 0 ∧ 124 ≤ f.length ∧ sub f 17 8 ≠ CMCARCH5 ∧ sub f 9 8 ≠ CMCARCHS ∧
      sub f 8 4 ≠ be 0x20202020 ∧ sub f 8 4 ≠ be 0x504b3834 ∧ sub f 116 4 ≠ be 0xAAAAAAAA ∧
      sub f 12 4 ≠ be 0x53544452 ∧ sub f 12 4 ≠ be 0x53544453 ∧ sub f 12 4 ≠ be 0x42525030 ∧
      sub f 12 4 ≠ be 0x62527030 ∧ sub f 16 4 ≠ be 0x52534630 := by
  decide +kernel

/-- The hypothesis of `C99_empty_witness`: a file of exactly 4 GiB. -/
example : ∃ f : List Byte, f.length = 4294967296 * 1 ∧ f[0]? = some 0x53#8 := by
  refine ⟨0x53#8 :: List.replicate 4294967295 0, ?_, rfl⟩
  rw [List.length_cons, List.length_replicate]

end Example

end Verif.Wkoffit
