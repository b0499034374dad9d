import Verif.WaFile
import Mathlib.Data.List.Nodup

/-! The page cache shows a plain file: invariant and its preservation. -/
namespace Verif.WaFile

theorem diskWrite_get (d : List Word) (pos : Nat) (ws : List Word) (h : ws ≠ []) (i : Nat) :
    (diskWrite d pos ws)[i]? =
      if i < pos then (if i < d.length then d[i]? else some 0#32)
      else if i < pos + ws.length then ws[i - pos]? else d[i]? := by
  have he : ws.isEmpty = false := by cases ws <;> simp_all
  unfold diskWrite
  simp only [he, Bool.false_eq_true, if_false]
  simp only [List.getElem?_append, List.length_append, List.length_take, List.length_replicate,
    List.getElem?_take, List.getElem?_replicate, List.getElem?_drop]
  have : min pos d.length + (pos - d.length) = pos := by omega
  rw [this]
  by_cases h1 : i < pos
  · by_cases h2 : i < d.length
    · rw [if_pos (by omega), if_pos h1, if_pos (by omega), if_pos h1, if_pos h1, if_pos h2]
    · rw [if_pos (by omega), if_pos h1, if_neg (by omega), if_pos h1, if_neg h2, if_pos (by omega)]
  · rw [if_neg h1]
    by_cases h2 : i < pos + ws.length
    · rw [if_pos h2, if_neg h1, if_pos h2]
    · rw [if_neg h2, if_neg h1, if_neg h2]
      congr 1; omega

theorem diskWrite_nil (d : List Word) (pos : Nat) : diskWrite d pos [] = d := rfl

theorem diskWrite_length (d : List Word) (pos : Nat) (ws : List Word) (h : ws ≠ []) :
    (diskWrite d pos ws).length = max d.length (pos + ws.length) := by
  have he : ws.isEmpty = false := by cases ws <;> simp_all
  unfold diskWrite
  simp only [he, Bool.false_eq_true, if_false]
  simp; omega

/-- Two writes in a row are one. -/
theorem diskWrite_split (d : List Word) (pos l : Nat) (ws : List Word) (hp : pos ≤ d.length)
    (hl : 0 < l) (hle : l ≤ ws.length) :
    diskWrite (diskWrite d pos (ws.take l)) (pos + l) (ws.drop l) = diskWrite d pos ws := by
  have hw : ws ≠ [] := by intro h; subst h; simp at hle; omega
  have h1 : ws.take l ≠ [] := by
    intro h; have := congrArg List.length h; rw [List.length_take, List.length_nil] at this; omega
  have l1 : (ws.take l).length = l := by simp; omega
  by_cases h2 : ws.drop l = []
  · have : ws.take l = ws := by
      have := List.take_append_drop l ws; rw [h2] at this; simpa using this
    rw [h2, diskWrite_nil, this]
  · apply List.ext_getElem?
    intro i
    rw [diskWrite_get _ _ _ h2, diskWrite_get _ _ _ h1, diskWrite_get _ _ _ hw, diskWrite_length _ _ _ h1, l1]
    simp only [List.length_drop, List.getElem?_drop, List.getElem?_take]
    by_cases c1 : i < pos
    · rw [if_pos (show i < pos + l by omega), if_pos (show i < max d.length (pos + l) by omega), if_pos c1,
        if_pos c1]
    · by_cases c2 : i < pos + l
      · rw [if_pos c2, if_pos (by omega), if_neg c1, if_pos c2, if_neg c1, if_pos (by omega), if_pos (by omega)]
      · rw [if_neg c2]
        by_cases c3 : i < pos + ws.length
        · rw [if_pos (by omega), if_neg c1, if_pos c3]; congr 1; omega
        · rw [if_neg (by omega), if_neg c1, if_neg c2, if_neg c1, if_neg c3]

/-- A page in memory agrees with the plain file. -/
structure Good (ps : Nat) (plain : List Word) (p : Pg) : Prop where
  pos : 0 < ps
  al : ∃ k, p.wa0 = k * ps + 1
  len : p.data.length = ps
  inn : p.wa0 ≤ plain.length
  last : p.walast + 1 = min (plain.length + 1) (p.wa0 + ps)
  agree : ∀ i, i < ps → p.wa0 - 1 + i < plain.length → p.data[i]? = plain[p.wa0 - 1 + i]?

structure Inv (ps nb : Nat) (f : File) (plain : List Word) : Prop where
  size : f.size = plain.length
  dlen : f.disk.length ≤ plain.length
  pg : ∀ p ∈ f.pages, Good ps plain p
  nodup : (f.pages.map Pg.wa0).Nodup
  cover : ∀ a, a < plain.length →
    (∀ p ∈ f.pages, p.touch = true → ¬ (p.wa0 ≤ a + 1 ∧ a + 1 < p.wa0 + ps)) → f.disk[a]? = plain[a]?
  cnt : f.pages.length ≤ nb

/-- Two aligned pages that share a word are the same. -/
theorem al_eq {ps a b x : Nat} (ha : ∃ k, a = k * ps + 1) (hb : ∃ k, b = k * ps + 1)
    (h1 : a ≤ x) (h2 : x < a + ps) (h3 : b ≤ x) (h4 : x < b + ps) : a = b := by
  obtain ⟨k, rfl⟩ := ha
  obtain ⟨j, rfl⟩ := hb
  rcases Nat.lt_trichotomy k j with h | h | h
  · have : (k + 1) * ps ≤ j * ps := Nat.mul_le_mul_right _ h
    rw [Nat.add_mul] at this; omega
  · rw [h]
  · have : (j + 1) * ps ≤ k * ps := Nat.mul_le_mul_right _ h
    rw [Nat.add_mul] at this; omega

theorem scrap_sub (f : File) (k : Nat) : (scrap f k).pages.Sublist f.pages := by
  unfold scrap
  split
  · exact List.Sublist.refl _
  · exact List.eraseIdx_sublist _ _

theorem scrap_size (f : File) (k : Nat) : (scrap f k).size = f.size := by
  unfold scrap; split <;> rfl

theorem scrap_length (f : File) (k : Nat) (h : 0 < f.pages.length) :
    (scrap f k).pages.length = f.pages.length - 1 := by
  have : k % f.pages.length < f.pages.length := Nat.mod_lt _ h
  unfold scrap
  rw [List.getElem?_eq_getElem this]
  simp [List.length_eraseIdx, this]

theorem scrap_inv {ps nb : Nat} {f : File} {plain : List Word} (h : Inv ps nb f plain) (k : Nat) :
    Inv ps nb (scrap f k) plain := by
  have hsub := scrap_sub f k
  have hmem : ∀ q ∈ (scrap f k).pages, q ∈ f.pages := fun q hq => hsub.subset hq
  refine ⟨by rw [scrap_size]; exact h.size, ?_, fun q hq => h.pg q (hmem q hq),
    (hsub.map _).nodup h.nodup, ?_, Nat.le_trans hsub.length_le h.cnt⟩
  · unfold scrap
    split
    · exact h.dlen
    · rename_i p hp
      dsimp only
      split
      · have g := h.pg p (List.mem_of_getElem? hp)
        have hd := h.dlen
        have gl := g.last
        have gi := g.inn
        have gn := g.len
        have gp := g.pos
        obtain ⟨k, hk⟩ := g.al
        have hn : p.data.take (p.walast + 1 - p.wa0) ≠ [] := by
          intro hc; have := congrArg List.length hc
          rw [List.length_take, List.length_nil] at this; omega
        rw [diskWrite_length _ _ _ hn, List.length_take]
        omega
      · exact h.dlen
  · intro a ha hcov
    unfold scrap at hcov ⊢
    split at hcov
    · exact h.cover a ha hcov
    · rename_i p hp
      simp only [hp]
      dsimp only at hcov
      have g := h.pg p (List.mem_of_getElem? hp)
      have gl := g.last
      have gi := g.inn
      have gn := g.len
      have gp := g.pos
      have old : ∀ q ∈ f.pages, q = p ∨ q ∈ f.pages.eraseIdx (k % f.pages.length) := by
        intro q hq
        obtain ⟨i, hi⟩ := List.mem_iff_getElem?.1 hq
        by_cases hc : i = k % f.pages.length
        · left; rw [hc, hp] at hi; exact (Option.some.inj hi).symm
        · right
          rw [List.mem_iff_getElem?]
          by_cases hlt : i < k % f.pages.length
          · exact ⟨i, by rw [List.getElem?_eraseIdx, if_pos hlt]; exact hi⟩
          · exact ⟨i - 1, by
              rw [List.getElem?_eraseIdx, if_neg (by omega), show i - 1 + 1 = i by omega]; exact hi⟩
      by_cases ht : p.touch = true
      · rw [if_pos ht]
        have hn : p.data.take (p.walast + 1 - p.wa0) ≠ [] := by
          intro hc; have := congrArg List.length hc
          obtain ⟨k, hk⟩ := g.al
          rw [List.length_take, List.length_nil] at this; omega
        rw [diskWrite_get _ _ _ hn, List.length_take, List.getElem?_take]
        obtain ⟨k', hk'⟩ := g.al
        by_cases hin : p.wa0 ≤ a + 1 ∧ a + 1 < p.wa0 + ps
        · rw [if_neg (by omega), if_pos (by omega), if_pos (by omega),
            g.agree _ (by omega) (by omega)]
          congr 1; omega
        · have hd : f.disk[a]? = plain[a]? := by
            apply h.cover a ha
            intro q hq hqt
            rcases old q hq with rfl | hq'
            · exact hin
            · exact hcov q hq' hqt
          have hlt : a < f.disk.length := by
            rw [List.getElem?_eq_getElem ha] at hd
            exact (List.getElem?_eq_some_iff.1 hd).1
          by_cases hlo : a < p.wa0 - 1
          · rw [if_pos hlo, if_pos hlt]; exact hd
          · rw [if_neg hlo, if_neg (by omega)]; exact hd
      · rw [if_neg ht]
        apply h.cover a ha
        intro q hq hqt
        rcases old q hq with rfl | hq'
        · exact absurd hqt ht
        · exact hcov q hq' hqt

theorem scraps_inv {ps nb : Nat} {plain : List Word} (ks : List Nat) :
    ∀ {f : File}, Inv ps nb f plain → Inv ps nb (ks.foldl scrap f) plain := by
  induction ks with
  | nil => exact fun h => h
  | cons k t ih => exact fun h => ih (scrap_inv h k)

theorem scraps_sub (ks : List Nat) : ∀ f : File, (ks.foldl scrap f).pages.Sublist f.pages := by
  induction ks with
  | nil => exact fun f => List.Sublist.refl _
  | cons k t ih => exact fun f => (ih _).trans (scrap_sub f k)

theorem scraps_size (ks : List Nat) : ∀ f : File, (ks.foldl scrap f).size = f.size := by
  induction ks with
  | nil => exact fun f => rfl
  | cons k t ih => exact fun f => (ih _).trans (scrap_size f k)

theorem makeRoom_spec {ps nb : Nat} {f : File} {plain : List Word} (h : Inv ps nb f plain)
    (hnb : 0 < nb) (w : World) :
    Inv ps nb (makeRoom nb w f) plain ∧ (makeRoom nb w f).pages.Sublist f.pages ∧
      (makeRoom nb w f).pages.length < nb := by
  unfold makeRoom
  split
  · rename_i hge
    refine ⟨scraps_inv _ (scrap_inv h _), (scraps_sub _ _).trans (scrap_sub _ _), ?_⟩
    have := (scraps_sub w.others (scrap f w.victim)).length_le
    have := scrap_length f w.victim (by omega)
    have := h.cnt
    omega
  · refine ⟨scraps_inv _ h, scraps_sub _ _, ?_⟩
    have := (scraps_sub w.others f).length_le
    omega

theorem pageStart_eq {ps adr : Nat} (hps : 0 < ps) (k : Nat) (h1 : k * ps + 1 ≤ adr)
    (h2 : adr < k * ps + 1 + ps) (h3 : adr % ps ≠ 0) : pageStart ps adr = k * ps + 1 := by
  have : adr = (adr - k * ps) + ps * k := by rw [Nat.mul_comm ps k]; omega
  have hm : adr % ps = adr - k * ps := by
    rw [this, Nat.add_mul_mod_self_left]
    have hlt : adr - k * ps < ps := by
      have hne : adr - k * ps ≠ ps := by
        intro hc
        apply h3; rw [this, Nat.add_mul_mod_self_left, hc, Nat.mod_self]
      omega
    rw [Nat.mod_eq_of_lt hlt]
    rw [Nat.mul_comm ps k]; omega
  unfold pageStart
  rw [hm]
  show max _ _ = _
  omega

theorem pageStart_end {ps adr : Nat} (h3 : adr % ps = 0) : pageStart ps adr = adr + 1 := by
  unfold pageStart
  rw [h3]; show max _ _ = _; omega

/-- The missing page is on disk. -/
theorem loadPage_spec {ps nb : Nat} {f : File} {plain : List Word} (h : Inv ps nb f plain)
    (k : Nat) (hno : ∀ p ∈ f.pages, p.wa0 ≠ k * ps + 1) (hin : k * ps + 1 ≤ plain.length)
    (ask : Nat) (hask1 : ask ≤ ps) (hask2 : min ps (plain.length - k * ps) ≤ ask) (hps : 0 < ps) :
    ∃ p, loadPage ps f (k * ps + 1) ask = .ok p ∧ Good ps plain p ∧ p.wa0 = k * ps + 1 ∧ p.touch = false := by
  have hget : ∀ i, i < ps → k * ps + i < plain.length → f.disk[k * ps + i]? = plain[k * ps + i]? := by
    intro i hi hlt
    apply h.cover _ hlt
    intro p hp _ hc
    exact hno p hp (al_eq (h.pg p hp).al ⟨k, rfl⟩ hc.1 hc.2 (by omega) (by omega))
  have hdl := h.dlen
  have hlast : min ps (plain.length - k * ps) ≤ f.disk.length - k * ps := by
    have hm : 0 < min ps (plain.length - k * ps) := by omega
    have := hget (min ps (plain.length - k * ps) - 1) (by omega) (by omega)
    rw [List.getElem?_eq_getElem (by omega : k * ps + (min ps (plain.length - k * ps) - 1) < plain.length)] at this
    have := (List.getElem?_eq_some_iff.1 this).1
    omega
  have hgl : ((f.disk.drop (k * ps + 1 - 1)).take ask).length = min ps (plain.length - k * ps) := by
    simp only [List.length_take, List.length_drop]; omega
  unfold loadPage
  simp only [hgl]
  have hsz := h.size
  rw [if_neg (by
    split
    · omega
    · omega)]
  refine ⟨_, rfl, ⟨hps, ⟨k, rfl⟩, ?_, hin, ?_, ?_⟩, rfl, rfl⟩
  · simp only [List.length_append, hgl, List.length_replicate]; omega
  · show k * ps + 1 + min ps (plain.length - k * ps) - 1 + 1 = min (plain.length + 1) (k * ps + 1 + ps); omega
  · intro i hi hlt
    dsimp only at hlt ⊢
    rw [List.getElem?_append, hgl, if_pos (by omega), List.getElem?_take, if_pos (by omega),
      List.getElem?_drop]
    exact hget i hi (by omega)

theorem append_inv {ps nb : Nat} {f : File} {plain : List Word} (h : Inv ps nb f plain) (p : Pg)
    (hg : Good ps plain p) (hno : ∀ q ∈ f.pages, q.wa0 ≠ p.wa0) (ht : p.touch = false)
    (hc : f.pages.length < nb) : Inv ps nb { f with pages := f.pages ++ [p] } plain := by
  refine ⟨h.size, h.dlen, ?_, ?_, ?_, ?_⟩
  · intro q hq
    rcases List.mem_append.1 hq with hq | hq
    · exact h.pg q hq
    · rw [List.mem_singleton.1 hq]; exact hg
  · rw [List.map_append, List.nodup_append]
    refine ⟨h.nodup, by simp, ?_⟩
    intro a ha b hb
    obtain ⟨q, hq, rfl⟩ := List.mem_map.1 ha
    simp at hb
    subst hb
    exact hno q hq
  · intro a ha hcov
    exact h.cover a ha fun q hq => hcov q (List.mem_append_left _ hq)
  · simp; omega

theorem findPage_some {ps : Nat} {f : File} {adr n k : Nat} (h : findPage ps f adr n = some k) :
    ∃ p, f.pages[k]? = some p ∧ p.wa0 ≤ adr ∧ adr + n ≤ p.wa0 + ps := by
  unfold findPage at h
  rw [List.findIdx?_eq_some_iff_getElem] at h
  obtain ⟨hk, hp, _⟩ := h
  exact ⟨f.pages[k], List.getElem?_eq_getElem hk, by simpa using (of_decide_eq_true hp).1, by simpa using (of_decide_eq_true hp).2⟩

theorem findPage_none {ps : Nat} {f : File} {adr n : Nat} (h : findPage ps f adr n = none) :
    ∀ p ∈ f.pages, ¬ (p.wa0 ≤ adr ∧ adr + n ≤ p.wa0 + ps) := by
  unfold findPage at h
  rw [List.findIdx?_eq_none_iff] at h
  intro p hp hc
  have := h p hp
  rw [decide_eq_false_iff_not] at this
  exact this ⟨hc.1, hc.2⟩

/-- Pages do not overlap. -/
theorem no_overlap {ps nb : Nat} {f : File} {plain : List Word} (h : Inv ps nb f plain) :
    (List.range f.pages.length).any (fun j => (List.range f.pages.length).any fun i =>
      decide (j ≠ i) && (f.pages[j]?).any fun q => (f.pages[i]?).any fun r =>
        decide (q.wa0 ≥ r.wa0 ∧ q.wa0 ≤ r.wa0 + ps - 1)) = false := by
  apply Bool.eq_false_iff.2
  intro hc
  simp only [List.any_eq_true, List.mem_range, Bool.and_eq_true, decide_eq_true_eq] at hc
  obtain ⟨j, hj, i, hi, hne, hx⟩ := hc
  rw [List.getElem?_eq_getElem hj, List.getElem?_eq_getElem hi] at hx
  simp only [Option.any_some, decide_eq_true_eq] at hx
  have gj := h.pg _ (List.getElem_mem hj)
  have gi := h.pg _ (List.getElem_mem hi)
  obtain ⟨k, hk⟩ := gi.al
  have hpos : 0 < ps := by
    rcases Nat.eq_zero_or_pos ps with h0 | h0
    · omega
    · exact h0
  have heq : f.pages[j].wa0 = f.pages[i].wa0 :=
    al_eq gj.al gi.al (Nat.le_refl _) (by omega) hx.1 (by omega)
  apply hne
  have := (List.Nodup.getElem_inj_iff h.nodup (i := j) (j := i) (hi := by simpa using hj) (hj := by simpa using hi)).1
    (by simpa using heq)
  exact this

/-- Writing a piece in its page. -/
theorem write_piece {ps nb : Nat} {f : File} {plain : List Word} {k adr : Nat} {ws : List Word}
    {i : Nat} {p : Pg}
    (hsize : f.size = plain.length) (hdlen : f.disk.length ≤ plain.length)
    (hi : f.pages[i]? = some p)
    (hpg : ∀ q ∈ f.pages, q.wa0 ≠ p.wa0 → Good ps plain q)
    (hnd : (f.pages.map Pg.wa0).Nodup)
    (hcov : ∀ a, a < plain.length →
      (∀ q ∈ f.pages, q.touch = true → ¬ (q.wa0 ≤ a + 1 ∧ a + 1 < q.wa0 + ps)) → f.disk[a]? = plain[a]?)
    (hcnt : f.pages.length ≤ nb)
    (hk : p.wa0 = k * ps + 1) (hlen : p.data.length = ps)
    (hlast : max p.walast (adr + ws.length - 1) + 1 =
      min (max plain.length (adr - 1 + ws.length) + 1) (p.wa0 + ps))
    (hag : ∀ i, i < ps → p.wa0 - 1 + i < plain.length → (i < adr - p.wa0 ∨ adr - p.wa0 + ws.length ≤ i) →
      p.data[i]? = plain[p.wa0 - 1 + i]?)
    (hws : ws ≠ []) (h1 : k * ps + 1 ≤ adr) (h2 : adr + ws.length ≤ k * ps + 1 + ps)
    (hend : adr ≤ plain.length + 1) :
    Inv ps nb
      { f with
        pages := f.pages.set i ⟨p.wa0, Nat.max p.walast (adr + ws.length - 1), true,
          p.data.take (adr - p.wa0) ++ ws ++ p.data.drop (adr - p.wa0 + ws.length)⟩
        size := Nat.max f.size (adr + ws.length - 1) }
      (diskWrite plain (adr - 1) ws) := by
  have hw : 0 < ws.length := List.length_pos_of_ne_nil hws
  have hil : i < f.pages.length := (List.getElem?_eq_some_iff.1 hi).1
  have hL : (diskWrite plain (adr - 1) ws).length = max plain.length (adr - 1 + ws.length) :=
    diskWrite_length _ _ _ hws
  have hmem : ∀ (p' : Pg) (q : Pg), q ∈ f.pages.set i p' → q = p' ∨ (q ∈ f.pages ∧ q.wa0 ≠ p.wa0) := by
    intro p' q hq
    obtain ⟨j, hj⟩ := List.mem_iff_getElem?.1 hq
    rw [List.getElem?_set] at hj
    split at hj
    · left
      exact (Option.some.inj hj).symm
    · rename_i hne
      right
      refine ⟨List.mem_of_getElem? hj, fun hc => hne ?_⟩
      have hjl : j < f.pages.length := (List.getElem?_eq_some_iff.1 hj).1
      have e1 := (List.getElem?_eq_some_iff.1 hj).2
      have e2 := (List.getElem?_eq_some_iff.1 hi).2
      exact (List.Nodup.getElem_inj_iff hnd (i := i) (j := j) (hi := by simpa using hil)
        (hj := by simpa using hjl)).1 (by simp [e1, e2, hc])
  have hget : ∀ a, ¬ (adr ≤ a + 1 ∧ a + 1 < adr + ws.length) →
      a < max plain.length (adr - 1 + ws.length) → (diskWrite plain (adr - 1) ws)[a]? = plain[a]? := by
    intro a hna hlt
    rw [diskWrite_get _ _ _ hws]
    by_cases hc : a < adr - 1
    · rw [if_pos hc, if_pos (by omega)]
    · rw [if_neg hc, if_neg (by omega)]
  refine ⟨?_, ?_, ?_, ?_, ?_, ?_⟩
  · show max f.size (adr + ws.length - 1) = _
    rw [hL, hsize]; omega
  · rw [hL]; show f.disk.length ≤ _; omega
  · intro q hq
    rcases hmem _ q hq with rfl | ⟨hq, hne⟩
    · refine ⟨by omega, ⟨k, hk⟩, ?_, ?_, ?_, ?_⟩
      · simp only [List.length_append, List.length_take, List.length_drop]; omega
      · rw [hL]; show p.wa0 ≤ _; omega
      · rw [hL]; exact hlast
      · intro j hj hjl
        rw [hL] at hjl
        dsimp only at hjl ⊢
        simp only [List.getElem?_append, List.length_append, List.length_take, List.getElem?_take,
          List.getElem?_drop]
        have hm : min (adr - p.wa0) p.data.length = adr - p.wa0 := by omega
        rw [hm]
        by_cases c1 : j < adr - p.wa0
        · rw [if_pos (by omega), if_pos c1, if_pos c1, hget _ (by omega) (by omega)]
          exact hag j hj (by omega) (Or.inl c1)
        · by_cases c2 : j < adr - p.wa0 + ws.length
          · rw [if_pos c2, if_neg c1, diskWrite_get _ _ _ hws, if_neg (by omega), if_pos (by omega)]
            congr 1; omega
          · rw [if_neg c2, hget _ (by omega) (by omega)]
            rw [show adr - p.wa0 + ws.length + (j - (adr - p.wa0 + ws.length)) = j by omega]
            exact hag j hj (by omega) (Or.inr (by omega))
    · have g := hpg q hq hne
      obtain ⟨kq, hkq⟩ := g.al
      have hdis : q.wa0 + ps ≤ p.wa0 ∨ p.wa0 + ps ≤ q.wa0 := by
        rcases Nat.lt_trichotomy k kq with h | h | h
        · right
          have : (k + 1) * ps ≤ kq * ps := Nat.mul_le_mul_right _ h
          rw [Nat.add_mul] at this; omega
        · exact absurd (by rw [hkq, hk, h]) hne
        · left
          have : (kq + 1) * ps ≤ k * ps := Nat.mul_le_mul_right _ h
          rw [Nat.add_mul] at this; omega
      have gi := g.inn
      refine ⟨g.pos, g.al, g.len, by rw [hL]; omega, ?_, ?_⟩
      · have := g.last
        rw [hL]; omega
      · intro j hj hjl
        rw [hL] at hjl
        rw [hget _ (by omega) (by omega)]
        exact g.agree j hj (by omega)
  · show ((f.pages.set i _).map Pg.wa0).Nodup
    rw [List.map_set]
    have : (f.pages.map Pg.wa0).set i p.wa0 = f.pages.map Pg.wa0 := by
      apply List.ext_getElem?
      intro j
      rw [List.getElem?_set]
      split
      · rename_i he; subst he; rw [List.getElem?_map, hi]; simp [hil]
      · rfl
    rw [this]; exact hnd
  · intro a ha hc
    rw [hL] at ha
    have hnp := hc _ (List.mem_of_getElem? (l := f.pages.set i _) (i := i) (by rw [List.getElem?_set, if_pos rfl, if_pos hil])) rfl
    dsimp only at hnp
    rw [hget a (by omega) ha]
    show f.disk[a]? = _
    refine hcov a (by omega) ?_
    intro q hq hqt
    obtain ⟨j, hj⟩ := List.mem_iff_getElem?.1 hq
    by_cases hji : j = i
    · subst hji
      rw [hi] at hj
      rw [← Option.some.inj hj]; exact hnp
    · exact hc q (List.mem_of_getElem? (i := j) (by rw [List.getElem?_set, if_neg (Ne.symm hji)]; exact hj)) hqt
  · show (f.pages.set i _).length ≤ nb
    rw [List.length_set]; exact hcnt

end Verif.WaFile
