import Verif.WaFileInv

/-! Reads and writes through the page cache, piece by piece. -/
namespace Verif.WaFile

theorem readable_get {ps nb : Nat} {f : File} {plain : List Word} (h : Inv ps nb f plain)
    {p : Pg} (hp : p ∈ f.pages) {adr n : Nat} (h1 : p.wa0 ≤ adr) (h2 : adr + n ≤ p.wa0 + ps)
    (h3 : adr - 1 + n ≤ plain.length) :
    (p.data.drop (adr - p.wa0)).take n = (plain.drop (adr - 1)).take n := by
  have g := h.pg p hp
  obtain ⟨k, hk⟩ := g.al
  apply List.ext_getElem?
  intro i
  rw [List.getElem?_take, List.getElem?_take]
  split
  · rw [List.getElem?_drop, List.getElem?_drop, g.agree _ (by omega) (by omega)]
    congr 1; omega
  · rfl

theorem store_ok {ps nb : Nat} {f : File} {plain : List Word} (h : Inv ps nb f plain)
    {i k adr : Nat} {ws : List Word} {p : Pg} (hi : f.pages[i]? = some p) (hk : p.wa0 = k * ps + 1)
    (hws : ws ≠ []) (h1 : k * ps + 1 ≤ adr) (h2 : adr + ws.length ≤ k * ps + 1 + ps)
    (hend : adr ≤ plain.length + 1) :
    ∃ f', store ps f i adr ws = .ok f' ∧ Inv ps nb f' (diskWrite plain (adr - 1) ws) := by
  have g := h.pg p (List.mem_of_getElem? hi)
  have gl := g.last
  have hw : 0 < ws.length := List.length_pos_of_ne_nil hws
  have hn := write_piece (nb := nb) (k := k) (adr := adr) (ws := ws) h.size h.dlen hi
    (fun q hq _ => h.pg q hq) h.nodup h.cover h.cnt hk g.len (by omega)
    (fun j hj hl _ => g.agree j hj hl) hws h1 h2 hend
  unfold store
  simp only [hi]
  rw [if_neg (by omega), if_neg (by rw [h.size]; omega)]
  have := no_overlap hn
  dsimp only at this
  rw [if_neg (by rw [this]; simp)]
  exact ⟨_, rfl, hn⟩

theorem pageWrite_spec {ps nb : Nat} {f : File} {plain : List Word} (h : Inv ps nb f plain)
    (hnb : 0 < nb) (w : World) {k adr : Nat} {ws : List Word} (hws : ws ≠ [])
    (h1 : k * ps + 1 ≤ adr) (h2 : adr + ws.length ≤ k * ps + 1 + ps) (hend : adr ≤ plain.length + 1)
    (hluck : adr = k * ps + 1 → adr + ws.length = plain.length → ws.length = ps) (hmod : adr % ps ≠ 0) :
    ∃ f', pageWrite ps nb w f adr ws = .ok f' ∧ Inv ps nb f' (diskWrite plain (adr - 1) ws) := by
  have hw : 0 < ws.length := List.length_pos_of_ne_nil hws
  have hps : 0 < ps := by omega
  unfold pageWrite writeSel
  cases hf : findPage ps f adr ws.length with
  | some i =>
    obtain ⟨p, hi, ha, hb⟩ := findPage_some hf
    have g := h.pg p (List.mem_of_getElem? hi)
    exact store_ok h hi (al_eq g.al ⟨k, rfl⟩ ha (by omega) h1 (by omega)) hws h1 h2 hend
  | none =>
    obtain ⟨hr, hsub, hlt⟩ := makeRoom_spec h hnb w
    have hno : ∀ q ∈ (makeRoom nb w f).pages, q.wa0 ≠ k * ps + 1 := by
      intro q hq hc
      exact findPage_none hf q (hsub.subset hq) ⟨by omega, by omega⟩
    have hstart := pageStart_eq hps k h1 (by omega) hmod
    have hsz := hr.size
    simp only [hstart]
    generalize makeRoom nb w f = g at hr hsub hlt hno hsz
    have happ : ∀ p : Pg, (g.pages ++ [p])[g.pages.length]? = some p := by
      intro p; simp
    by_cases hcond : adr > k * ps + 1 ∨ (adr + ws.length ≠ k * ps + 1 + ps ∧ adr + ws.length < g.size)
    · rw [if_pos hcond]
      obtain ⟨p, hp, hg, hwa, ht⟩ := loadPage_spec hr k hno (by omega)
        (if ps + (k * ps + 1) > g.size then g.size + 1 - (k * ps + 1) else ps)
        (by split <;> omega) (by split <;> omega) hps
      rw [hp]
      exact store_ok (append_inv hr p hg (by rw [hwa]; exact hno) ht hlt) (happ p) hwa hws h1 h2 hend
    · rw [if_neg hcond]
      have hadr : adr = k * ps + 1 := by omega
      have hcov : ws.length = ps ∨ plain.length < adr + ws.length := by omega
      have hq : ∀ q ∈ g.pages ++ [(⟨k * ps + 1, 0, false, (List.range ps).map w.junk⟩ : Pg)],
          q.wa0 ≠ k * ps + 1 → q ∈ g.pages := by
        intro q hq hne
        rcases List.mem_append.1 hq with hq | hq
        · exact hq
        · rw [List.mem_singleton.1 hq] at hne; exact absurd rfl hne
      have hn := write_piece (ps := ps) (nb := nb) (k := k) (adr := adr) (ws := ws) (plain := plain)
        (f := { g with pages := g.pages ++ [⟨k * ps + 1, 0, false, (List.range ps).map w.junk⟩] })
        (p := ⟨k * ps + 1, 0, false, (List.range ps).map w.junk⟩) hr.size hr.dlen (happ _)
        (fun q hq' hne => hr.pg q (hq q hq' hne))
        (by
          show ((g.pages ++ [_]).map Pg.wa0).Nodup
          rw [List.map_append, List.nodup_append]
          refine ⟨hr.nodup, by simp, ?_⟩
          intro a ha b hb
          obtain ⟨q, hq, rfl⟩ := List.mem_map.1 ha
          simp at hb
          subst hb
          exact hno q hq)
        (fun a ha hc => hr.cover a ha fun q hq => hc q (List.mem_append_left _ hq))
        (by simp; omega) rfl (by simp)
        (by
          show max 0 (adr + ws.length - 1) + 1 = min (max plain.length (adr - 1 + ws.length) + 1) (k * ps + 1 + ps)
          omega)
        (by
          intro j hj hjl hjo
          dsimp only at hjl hjo
          exfalso
          omega)
        hws h1 h2 hend
      unfold store
      simp only [happ]
      rw [if_neg (by omega), if_neg (by rw [hr.size]; omega)]
      have := no_overlap hn
      dsimp only at this
      rw [if_neg (by rw [this]; simp)]
      exact ⟨_, rfl, hn⟩

/-- Where a piece ends. -/
theorem lastAdr_spec {ps adr : Nat} (hps : 0 < ps) (hadr : 1 ≤ adr) :
    ∃ k, k * ps + 1 ≤ adr ∧ adr ≤ (k + 1) * ps ∧ lastAdr ps adr = (k + 1) * ps := by
  refine ⟨(adr - 1) / ps, ?_, ?_, ?_⟩
  · have := Nat.div_mul_le_self (adr - 1) ps
    omega
  · have := Nat.lt_div_mul_add hps (a := adr - 1)
    rw [Nat.add_mul]; omega
  · unfold lastAdr
    have : adr + ps - 1 = (adr - 1) + ps := by omega
    rw [this, Nat.add_div_right _ hps]

/-- A write that does not end exactly one word before the end of the file, or is not unlucky with
pages: it does not start at or before the first word of the page it ends in, or it ends this page. -/
def Lucky (ps size adr n : Nat) : Prop :=
  adr + n = size → (adr + n - 1) % ps = 0 ∨ (adr + n - 1) / ps * ps + 1 < adr

theorem next_mod {ps k : Nat} (hps : 1 < ps) : ((k + 1) * ps + 1) % ps ≠ 0 := by
  rw [Nat.add_comm, Nat.mul_comm, Nat.add_mul_mod_self_left, Nat.mod_eq_of_lt hps]; omega

theorem writePages_spec {ps nb : Nat} (hps : 1 < ps) (hnb : 0 < nb) : ∀ (fuel : Nat) (ω : Nat → World)
    (f : File) (plain : List Word) (adr : Nat) (ws : List Word), Inv ps nb f plain →
    ws.length ≤ fuel → 1 ≤ adr → adr ≤ plain.length + 1 → adr % ps ≠ 0 → Lucky ps plain.length adr ws.length →
    ∃ f', writePages ps nb fuel ω f adr ws = .ok f' ∧ Inv ps nb f' (diskWrite plain (adr - 1) ws) := by
  intro fuel
  induction fuel with
  | zero =>
    intro ω f plain adr ws h hl h1 h2 h3 h4
    have : ws = [] := List.eq_nil_of_length_eq_zero (by omega)
    subst this
    exact ⟨f, rfl, h⟩
  | succ fuel ih =>
    intro ω f plain adr ws h hl h1 h2 h3 h4
    unfold writePages
    by_cases h0 : ws.length = 0
    · have : ws = [] := List.eq_nil_of_length_eq_zero h0
      subst this
      exact ⟨f, rfl, h⟩
    · have hne : ws ≠ [] := fun hc => h0 (by rw [hc]; rfl)
      obtain ⟨k, hk1, hk2, hla⟩ := lastAdr_spec (by omega : 0 < ps) h1
      rw [if_neg h0, hla]
      have hmul : (k + 1) * ps = k * ps + ps := by rw [Nat.add_mul]; omega
      split
      · rename_i hgt
        have hl1 : (ws.take ((k + 1) * ps - adr + 1)).length = (k + 1) * ps - adr + 1 := by
          rw [List.length_take]; omega
        have hn1 : ws.take ((k + 1) * ps - adr + 1) ≠ [] := by
          intro hc; rw [hc] at hl1; simp at hl1
        obtain ⟨f', hf', hi'⟩ := pageWrite_spec h hnb (ω 0) hn1 hk1 (by omega) h2 (by omega) h3
        rw [hf']
        have hlen := diskWrite_length plain (adr - 1) _ hn1
        obtain ⟨f'', hf'', hi''⟩ := ih (fun i => ω (i + 1)) f' _ (adr + ((k + 1) * ps - adr + 1))
          (ws.drop ((k + 1) * ps - adr + 1)) hi' (by rw [List.length_drop]; omega) (by omega) (by omega)
          (by rw [show adr + ((k + 1) * ps - adr + 1) = (k + 1) * ps + 1 by omega]; exact next_mod hps)
          (by
            intro he
            rw [List.length_drop] at he ⊢
            rw [hlen, hl1] at he
            have e : adr + ((k + 1) * ps - adr + 1) + (ws.length - ((k + 1) * ps - adr + 1)) =
              adr + ws.length := by omega
            rw [e] at he ⊢
            rcases h4 (by omega) with hx | hx
            · exact Or.inl hx
            · right
              exfalso
              have : (k + 1) * ps ≤ (adr + ws.length - 1) / ps * ps :=
                Nat.mul_le_mul_right _ ((Nat.le_div_iff_mul_le (by omega)).2 (by omega))
              omega)
        refine ⟨f'', hf'', ?_⟩
        have := diskWrite_split plain (adr - 1) ((k + 1) * ps - adr + 1) ws (by omega) (by omega) (by omega)
        rw [show adr + ((k + 1) * ps - adr + 1) - 1 = adr - 1 + ((k + 1) * ps - adr + 1) by omega] at hi''
        rw [← this]; exact hi''
      · rename_i hgt
        refine pageWrite_spec h hnb (ω 0) hne hk1 (by omega) h2 ?_ h3
        intro ha he
        rcases h4 he with hx | hx
        · exfalso
          have hx' : adr + ws.length - 1 = ws.length + ps * k := by rw [Nat.mul_comm]; omega
          rw [hx', Nat.add_mul_mod_self_left, Nat.mod_eq_of_lt (by omega)] at hx
          omega
        · exfalso
          have : (adr + ws.length - 1) / ps * ps ≥ k * ps :=
            Nat.mul_le_mul_right _ ((Nat.le_div_iff_mul_le (by omega)).2 (by omega))
          omega

/-! ### Reading -/

theorem fetch_spec {ps nb : Nat} {f : File} {plain : List Word} (h : Inv ps nb f plain)
    {i k adr n : Nat} {p : Pg} (hi : f.pages[i]? = some p) (hk : p.wa0 = k * ps + 1)
    (h1 : k * ps + 1 ≤ adr) (h2 : adr + n ≤ k * ps + 1 + ps) (hend : adr - 1 + n ≤ plain.length) :
    (f.pages.length = 1 ∧ fetch ps f i adr n = .ok (f, (plain.drop (adr - 1)).take n)) ∨
    (2 ≤ f.pages.length ∧ fetch ps f i adr n = .error .exit) := by
  have hil : i < f.pages.length := (List.getElem?_eq_some_iff.1 hi).1
  have hg := (h.pg p (List.mem_of_getElem? hi)).pos
  unfold fetch
  simp only [hi]
  rw [if_neg (by omega)]
  by_cases hlen : f.pages.length = 1
  · left
    refine ⟨hlen, ?_⟩
    rw [if_neg ?_, readable_get h (List.mem_of_getElem? hi) (by omega) (by omega) hend]
    rw [hlen]; simp
  · right
    refine ⟨by omega, ?_⟩
    rw [if_pos]
    rw [List.any_eq_true]
    refine ⟨i, List.mem_range.2 hil, ?_⟩
    rw [List.any_eq_true]
    refine ⟨if i = 0 then 1 else 0, List.mem_range.2 (by split <;> omega), ?_⟩
    rw [hi]
    simp only [Option.any_some, Bool.and_eq_true, decide_eq_true_eq]
    exact ⟨by split <;> omega, by omega, by omega⟩

theorem pageRead_spec {ps nb : Nat} {f : File} {plain : List Word} (h : Inv ps nb f plain)
    (hnb : 0 < nb) (w : World) {k adr n : Nat} (hn : 0 < n) (h1 : k * ps + 1 ≤ adr)
    (h2 : adr + n ≤ k * ps + 1 + ps) (hend : adr - 1 + n ≤ plain.length) (hmod : adr % ps ≠ 0) :
    (∃ f', pageRead ps nb w f adr n = .ok (f', (plain.drop (adr - 1)).take n) ∧ Inv ps nb f' plain) ∨
    (2 ≤ nb ∧ pageRead ps nb w f adr n = .error .exit) := by
  have hps : 0 < ps := by omega
  unfold pageRead readSel
  cases hf : findPage ps f adr n with
  | some i =>
    obtain ⟨p, hi, ha, hb⟩ := findPage_some hf
    have g := h.pg p (List.mem_of_getElem? hi)
    rcases fetch_spec h hi (al_eq g.al ⟨k, rfl⟩ ha (by omega) h1 (by omega)) h1 h2 hend with hx | hx
    · exact Or.inl ⟨f, hx.2, h⟩
    · exact Or.inr ⟨Nat.le_trans hx.1 h.cnt, hx.2⟩
  | none =>
    obtain ⟨hr, hsub, hlt⟩ := makeRoom_spec h hnb w
    have hno : ∀ q ∈ (makeRoom nb w f).pages, q.wa0 ≠ k * ps + 1 := by
      intro q hq hc
      exact findPage_none hf q (hsub.subset hq) ⟨by omega, by omega⟩
    have hstart := pageStart_eq hps k h1 (by omega) hmod
    simp only [hstart]
    generalize makeRoom nb w f = g at hr hsub hlt hno
    obtain ⟨p, hp, hg, hwa, ht⟩ := loadPage_spec hr k hno (by omega) ps (Nat.le_refl _) (by omega) hps
    rw [hp]
    have hi := append_inv hr p hg (by rw [hwa]; exact hno) ht hlt
    rcases fetch_spec hi (i := g.pages.length) (p := p) (by simp) hwa h1 h2 hend with hx | hx
    · exact Or.inl ⟨_, hx.2, hi⟩
    · refine Or.inr ⟨?_, hx.2⟩
      have := hx.1
      simp at this; omega

theorem readPages_spec {ps nb : Nat} (hps : 1 < ps) (hnb : 0 < nb) : ∀ (fuel : Nat) (ω : Nat → World)
    (f : File) (plain : List Word) (adr n : Nat), Inv ps nb f plain →
    n ≤ fuel → 1 ≤ adr → adr - 1 + n ≤ plain.length → adr % ps ≠ 0 →
    (∃ f', readPages ps nb fuel ω f adr n = .ok (f', (plain.drop (adr - 1)).take n) ∧ Inv ps nb f' plain) ∨
    (2 ≤ nb ∧ readPages ps nb fuel ω f adr n = .error .exit) := by
  intro fuel
  induction fuel with
  | zero =>
    intro ω f plain adr n h hl h1 h2 h3
    have : n = 0 := by omega
    subst this
    exact Or.inl ⟨f, by simp [readPages], h⟩
  | succ fuel ih =>
    intro ω f plain adr n h hl h1 h2 h3
    unfold readPages
    by_cases h0 : n = 0
    · subst h0
      exact Or.inl ⟨f, by simp, h⟩
    · obtain ⟨k, hk1, hk2, hla⟩ := lastAdr_spec (by omega : 0 < ps) h1
      rw [if_neg h0, hla]
      have hmul : (k + 1) * ps = k * ps + ps := by rw [Nat.add_mul]; omega
      split
      · rename_i hgt
        rcases pageRead_spec h hnb (ω 0) (n := (k + 1) * ps - adr + 1) (by omega) hk1 (by omega) (by omega) h3
          with ⟨f', hf', hi'⟩ | hx
        · rw [hf']
          dsimp only
          rcases ih (fun i => ω (i + 1)) f' plain (adr + ((k + 1) * ps - adr + 1))
            (n - ((k + 1) * ps - adr + 1)) hi' (by omega) (by omega) (by omega)
            (by rw [show adr + ((k + 1) * ps - adr + 1) = (k + 1) * ps + 1 by omega]; exact next_mod hps)
            with ⟨f'', hf'', hi''⟩ | hx
          · left
            rw [hf'']
            refine ⟨f'', ?_, hi''⟩
            dsimp only
            rw [show adr + ((k + 1) * ps - adr + 1) - 1 = adr - 1 + ((k + 1) * ps - adr + 1) by omega]
            generalize hj : (k + 1) * ps - adr + 1 = j at hgt ⊢
            have hjn : n = j + (n - j) := by omega
            rw [← List.drop_drop, ← List.take_add, ← hjn]
          · right
            rw [hx.2]; exact ⟨hx.1, rfl⟩
        · right
          rw [hx.2]; exact ⟨hx.1, rfl⟩
      · rename_i hgt
        exact pageRead_spec h hnb (ω 0) (by omega) hk1 (by omega) h2 h3

end Verif.WaFile
