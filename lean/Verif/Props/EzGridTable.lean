import Mathlib.Tactic.Tauto
import Verif.Props.EzGrid

namespace Verif.EzGrid

theorem slot_ok {s : Table} {k : Int} (h0 : 0 ≤ k) (h : k < s.cap) : slot s k = .ok (s.slots k) := by
  rw [slot, if_pos ⟨h0, h⟩]

/-- Slots chained by `next`. -/
def Linked (f : Int → Slot) : List Nat → Prop
  | [] => True
  | [a] => (f a).next = -1
  | a :: b :: t => (f a).next = b ∧ Linked f (b :: t)

theorem Linked.congr {f g : Int → Slot} : ∀ {l : List Nat},
    (∀ i ∈ l, (g (i : Nat)).next = (f (i : Nat)).next) → Linked f l → Linked g l
  | [], _, _ => trivial
  | [a], h, hl => by
    have := h a (by simp)
    simp only [Linked] at hl ⊢
    rw [this, hl]
  | a :: b :: t, h, hl => by
    refine ⟨by rw [h a (by simp)]; exact hl.1, ?_⟩
    exact Linked.congr (fun i hi => h i (by simp_all)) hl.2

theorem Linked.append {f g : Int → Slot} {n : Nat} : ∀ {l : List Nat} (hne : l ≠ []), l.Nodup →
    (∀ i ∈ l, i ≠ l.getLast hne → (g (i : Nat)).next = (f (i : Nat)).next) →
    (g ((l.getLast hne : Nat))).next = n → (g n).next = -1 → Linked f l → Linked g (l ++ [n])
  | [a], _, _, h, h1, h2, _ => by
    refine ⟨?_, ?_⟩
    · simpa using h1
    · exact h2
  | a :: b :: t, _, nd, h, h1, h2, hl => by
    refine ⟨?_, ?_⟩
    · rw [h a (by simp)]
      · exact hl.1
      · intro e
        rw [List.getLast_cons (by simp)] at e
        have := List.getLast_mem (l := b :: t) (by simp)
        rw [← e] at this
        exact (List.nodup_cons.1 nd).1 this
    · have := Linked.append (f := f) (g := g) (n := n) (l := b :: t) (by simp)
        (List.nodup_cons.1 nd).2
        (fun i hi hne => h i (by simp_all) (by rw [List.getLast_cons (by simp)]; exact hne))
        (by rw [List.getLast_cons (by simp)] at h1; exact h1) h2 hl.2
      exact this

theorem last_eq {s : Table} : ∀ {l : List Nat} {a : Nat} {t : List Nat} {fuel : Nat}, l = a :: t →
    l.length < fuel → (∀ i ∈ l, ((i : Nat) : Int) < s.cap) → Linked s.slots l → (hne : l ≠ []) →
    last s fuel a = .ok ((l.getLast hne : Nat) : Int)
  | _, a, [], fuel + 1, rfl, hf, hc, hl, hne => by
    rw [last, slot_ok (by omega) (hc a (by simp))]
    have : (s.slots a).next = -1 := hl
    simp [bind, Except.bind, this]
  | _, a, b :: t, fuel + 1, rfl, hf, hc, hl, hne => by
    rw [last, slot_ok (by omega) (hc a (by simp))]
    have h1 : (s.slots a).next = b := hl.1
    have hb : ¬ ((b : Int) = -1) := by omega
    simp only [bind, Except.bind, h1, hb, if_false]
    rw [last_eq (l := b :: t) rfl (by simp at hf ⊢; omega) (fun i hi => hc i (by simp_all)) hl.2
      (by simp), List.getLast_cons (a := a) (by simp)]

/-- The loop of the search ends at the first grid of the chain that `P` holds of, or at the last. -/
theorem walk_eq {s : Table} {g : Desc} (P : Nat → Bool) : ∀ {l : List Nat} {a : Nat} {t : List Nat}
    {fuel : Nat}, l = a :: t →
    l.length < fuel → (∀ i ∈ l, ((i : Nat) : Int) < s.cap) → Linked s.slots l →
    (∀ i ∈ l, compare g (s.slots (i : Nat)).d = .ok (if P i then .same else .next)) →
    (hne : l ≠ []) →
    walk s g fuel a = .ok (match l.find? P with
      | some i => ((i : Int), true)
      | none => (((l.getLast hne : Nat) : Int), false))
  | _, a, [], fuel + 1, rfl, hf, hc, hl, hp, hne => by
    rw [walk, slot_ok (by omega) (hc a (by simp))]
    have : (s.slots a).next = -1 := hl
    simp only [bind, Except.bind, hp a (by simp)]
    cases h : P a <;> simp [this, h]
  | _, a, b :: t, fuel + 1, rfl, hf, hc, hl, hp, hne => by
    rw [walk, slot_ok (by omega) (hc a (by simp))]
    have h1 : (s.slots a).next = b := hl.1
    have hb : ¬ ((b : Int) = -1) := by omega
    simp only [bind, Except.bind, hp a (by simp)]
    cases h : P a
    · simp only [Bool.false_eq_true, if_false, h1, hb]
      rw [walk_eq P (l := b :: t) rfl (by simp at hf ⊢; omega) (fun i hi => hc i (by simp_all)) hl.2
        (fun i hi => hp i (by simp_all)) (by simp), List.getLast_cons (a := a) (by simp),
        List.find?_cons (a := a), h]
    · simp [h]

/-- Numbers of the grids of a bucket in order of definition. -/
def chain (crc : Desc → Nat) (K : List Call) (b : Nat) : List Nat :=
  (List.range K.length).filter fun i => (K[i]?.map fun c => crc (newGrid c)) == some b

theorem mem_chain {crc : Desc → Nat} {K : List Call} {b i : Nat} :
    i ∈ chain crc K b ↔ ∃ c, K[i]? = some c ∧ crc (newGrid c) = b := by
  simp only [chain, List.mem_filter, List.mem_range, beq_iff_eq, Option.map_eq_some_iff]
  constructor
  · rintro ⟨_, c, h⟩
    exact ⟨c, h⟩
  · rintro ⟨c, h⟩
    exact ⟨(List.getElem?_eq_some_iff.1 h.1).1, c, h⟩

theorem chain_append {crc : Desc → Nat} {K : List Call} {b : Nat} {c : Call} :
    chain crc (K ++ [c]) b
      = chain crc K b ++ (if crc (newGrid c) = b then [K.length] else []) := by
  unfold chain
  rw [List.length_append, List.length_singleton, List.range_succ, List.filter_append]
  congr 1
  · apply List.filter_congr
    intro i hi
    rw [List.getElem?_append_left (List.mem_range.1 hi)]
  · by_cases h : crc (newGrid c) = b <;> simp [h]

theorem chain_nodup {crc : Desc → Nat} {K : List Call} {b : Nat} : (chain crc K b).Nodup :=
  List.Pairwise.filter _ List.nodup_range

theorem chain_length {crc : Desc → Nat} {K : List Call} {b : Nat} :
    (chain crc K b).length ≤ K.length := by
  unfold chain
  exact Nat.le_trans (List.length_filter_le _ _) (by simp)

/-- The table of the grids `K`, in order of definition. -/
structure Inv (crc : Desc → Nat) (K : List Call) (s : Table) : Prop where
  n : s.n = K.length
  cap : 128 * (s.n / 128 + 1) ≤ s.cap
  valid : ∀ c ∈ K, Valid c
  index : ∀ i : Nat, i < K.length → (s.slots i).index = i
  stored : ∀ (i : Nat) (c : Call), K[i]? = some c → Stored c (s.slots i).d
  heads : ∀ b, s.heads b = (chain crc K b).head?.map fun i : Nat => (i : Int)
  linked : ∀ b, Linked s.slots (chain crc K b)

theorem chain_lt {crc : Desc → Nat} {K : List Call} {b i : Nat}
    (hi : i ∈ chain crc K b) : i < K.length := by
  obtain ⟨c, hc, _⟩ := mem_chain.1 hi
  exact (List.getElem?_eq_some_iff.1 hc).1

/-- Other counts of accesses do not matter. -/
theorem Inv.access {crc : Desc → Nat} {K : List Call} {s : Table} (h : Inv crc K s) (k : Int)
    (v : Int) : Inv crc K (setSlot s k { s.slots k with access := v }) := by
  have hs : ∀ i, ((setSlot s k { s.slots k with access := v }).slots i).d = (s.slots i).d ∧
      ((setSlot s k { s.slots k with access := v }).slots i).index = (s.slots i).index ∧
      ((setSlot s k { s.slots k with access := v }).slots i).next = (s.slots i).next := by
    intro i
    by_cases hik : i = k
    · subst hik; simp [setSlot]
    · simp [setSlot, hik]
  exact
    { n := h.n
      cap := h.cap
      valid := h.valid
      index := fun i hi => by rw [(hs _).2.1]; exact h.index i hi
      stored := fun i c hc => by rw [(hs _).1]; exact h.stored i c hc
      heads := h.heads
      linked := fun b => (h.linked b).congr fun i _ => (hs _).2.2 }

/-- The grid stored under a number may be set to one like it. -/
theorem Inv.set {crc : Desc → Nat} {K : List Call} {s : Table} (h : Inv crc K s) (k : Nat) (c : Call)
    (hk : K[k]? = some c) (d : Desc) (hd : Stored c d) :
    Inv crc K (setSlot s k { s.slots k with d := d }) := by
  have hs : ∀ i,
      ((setSlot s k { s.slots k with d := d }).slots i).index = (s.slots i).index ∧
      ((setSlot s k { s.slots k with d := d }).slots i).next = (s.slots i).next := by
    intro i
    by_cases hik : i = k
    · subst hik; simp [setSlot]
    · simp [setSlot, hik]
  exact
    { n := h.n
      cap := h.cap
      valid := h.valid
      index := fun i hi => by rw [(hs _).1]; exact h.index i hi
      stored := fun i e he => by
        by_cases hik : i = k
        · subst hik
          rw [hk] at he
          cases he
          simpa [setSlot] using hd
        · have : ¬ ((i : Int) = k) := by omega
          simpa [setSlot, this] using h.stored i e he
      heads := h.heads
      linked := fun b => (h.linked b).congr fun i _ => (hs _).2 }

theorem newGrid_stored (c : Call) : Stored c (newGrid c) := by
  unfold newGrid
  by_cases hi : irregular c.typ = true
  · rw [if_pos hi]
    refine ⟨rfl, rfl, rfl, rfl, fun h => ?_, fun h => by rw [hi] at h; cases h⟩
    have hG : c.typ ≠ 'G' := by rcases h with h | h <;> rw [h] <;> decide
    exact ⟨rfl, c.ax, c.ay, by simp [hG], by simp [hG], near_refl _, near_refl _⟩
  · rw [if_neg hi]
    refine ⟨rfl, rfl, rfl, rfl, fun h => ?_, fun _ => ⟨rfl, rfl⟩⟩
    exfalso
    apply hi
    rcases h with h | h <;> rw [h] <;> decide

theorem defAxes_stored {gauss : Nat → Nat → Desc} {c k : Call} (hc : Valid c) (ha : Alike c k)
    {d : Desc} (hd : Stored k d) : Stored k (defAxes gauss c d) := by
  obtain ⟨t, n1, n2, g, yz, reg⟩ := hd
  obtain ⟨a1, a2, a3, a4, a5⟩ := ha
  have h1 : k.typ ≠ '#' := a1 ▸ hc.1
  unfold defAxes
  rw [t]
  by_cases hZ : k.typ = 'Z'
  · rw [if_pos (Or.inr hZ)]
    have hcZ : c.typ = 'Z' := a1.trans hZ
    have hl := hc.2.2.1 hcZ
    refine ⟨by first | exact t | rfl, n1, n2, g, fun h => ⟨(yz h).1, c.ax.take d.ni, c.ay.take d.nj, rfl, rfl, ?_, ?_⟩,
      fun h => ?_⟩
    · rw [List.take_of_length_le (by rw [n1, hl.1, a2]; exact Nat.le_refl _)]
      exact (a5 (Or.inl hcZ)).1
    · rw [List.take_of_length_le (by rw [n2, hl.2, a3]; exact Nat.le_refl _)]
      exact (a5 (Or.inl hcZ)).2
    · rw [hZ] at h
      exact absurd h (by decide)
  · rw [if_neg (by simp [h1, hZ])]
    by_cases hY : k.typ = 'Y'
    · rw [if_pos hY]
      have hcY : c.typ = 'Y' := a1.trans hY
      have hl := hc.2.2.2.1 hcY
      refine ⟨by first | exact t | rfl, n1, n2, g, fun h => ⟨(yz h).1, _, _, rfl, rfl, ?_, ?_⟩,
        fun h => ?_⟩
      · rw [List.take_of_length_le (by rw [n1, n2, hl.1, a2, a3]; exact Nat.le_refl _)]
        exact (a5 (Or.inr hcY)).1
      · rw [List.take_of_length_le (by rw [n1, n2, hl.2, a2, a3]; exact Nat.le_refl _)]
        exact (a5 (Or.inr hcY)).2
      · rw [hY] at h
        exact absurd h (by decide)
    · rw [if_neg hY]
      by_cases hG : k.typ = 'G'
      · rw [if_pos hG]
        refine ⟨by first | exact t | rfl, n1, n2, g, fun h => ?_, fun h => ?_⟩
        · simp [hZ, hY] at h
        · rw [hG] at h
          exact absurd h (by decide)
      · rw [if_neg hG]
        exact ⟨t, n1, n2, g, yz, reg⟩

theorem inv_place {crc : Desc → Nat} {K : List Call} {s t : Table} (h : Inv crc K s) {c : Call}
    (hc : Valid c) (hn : K.length + 1 < 16384) (tn : t.n = s.n) (tcap : t.cap = s.cap)
    (hd : ∀ i : Nat, i < K.length → (t.slots i).d = (s.slots i).d ∧
        (t.slots i).index = (s.slots i).index)
    (hh : ∀ b, t.heads b = (chain crc (K ++ [c]) b).head?.map fun i : Nat => (i : Int))
    (hl : ∀ b, Linked (setSlot t t.n ⟨newGrid c, t.n, crc (newGrid c), -1, 1⟩).slots
      (chain crc (K ++ [c]) b)) :
    ∃ s', place t (crc (newGrid c)) (newGrid c) = .ok (s', (K.length : Int)) ∧
      Inv crc (K ++ [c]) s' := by
  have hcap := h.cap
  have hsn := h.n
  unfold place
  rw [slot_ok (by omega) (by omega)]
  simp only [bind, Except.bind]
  rw [tn, hsn] at hl ⊢
  generalize hf : (setSlot t (K.length : Int)
    ⟨newGrid c, (K.length : Int), crc (newGrid c), -1, 1⟩).slots = f at hl ⊢
  have hfl : ∀ i : Nat, i < K.length → f i = t.slots i := by
    intro i hi
    rw [← hf]
    simp only [setSlot]
    rw [if_neg (by omega)]
  have hfn : f (K.length : Int) = ⟨newGrid c, (K.length : Int), crc (newGrid c), -1, 1⟩ := by
    rw [← hf]; simp [setSlot]
  rw [if_neg (by omega)]
  have fin : ∀ (g : Int → Slot) (cp : Int), (∀ i : Nat, i ≤ K.length → g i = f i) →
      128 * (((K.length : Int) + 1) / 128 + 1) ≤ cp →
      Inv crc (K ++ [c]) { slots := g, cap := cp, heads := t.heads, n := (K.length : Int) + 1 } := by
    intro g cp hg hcp
    have hidx : ∀ {b i : Nat}, i ∈ chain crc (K ++ [c]) b → i ≤ K.length := by
      intro b i hi
      have := chain_lt hi
      simp at this
      omega
    exact
      { n := by simp
        cap := hcp
        valid := by
          intro x hx
          rcases List.mem_append.1 hx with hx | hx
          · exact h.valid x hx
          · simp only [List.mem_singleton] at hx
            rw [hx]; exact hc
        index := by
          intro i hi
          simp only [List.length_append, List.length_singleton] at hi
          show (g i).index = i
          rw [hg i (by omega)]
          by_cases hi' : i = K.length
          · rw [hi', hfn]
          · rw [hfl i (by omega), (hd i (by omega)).2, h.index i (by omega)]
        stored := by
          intro i x hx
          show Stored x (g i).d
          have hlt := (List.getElem?_eq_some_iff.1 hx).1
          simp only [List.length_append, List.length_singleton] at hlt
          rw [hg i (by omega)]
          by_cases hi' : i = K.length
          · subst hi'
            rw [List.getElem?_append_right (by omega)] at hx
            simp at hx
            rw [hfn, ← hx]
            exact newGrid_stored c
          · rw [hfl i (by omega), (hd i (by omega)).1]
            rw [List.getElem?_append_left (by omega)] at hx
            exact h.stored i x hx
        heads := hh
        linked := fun b => (hl b).congr fun i hi => by
          show (g i).next = (f i).next
          rw [hg i (hidx hi)] }
  by_cases hm : ((K.length : Int) + 1) % 128 = 0
  · rw [if_pos hm]
    refine ⟨_, ?_, fin (fun i => if (K.length : Int) + 1 ≤ i ∧ i < (K.length : Int) + 1 + 128 then
      freshSlot else f i) (max t.cap ((K.length : Int) + 1 + 128)) ?_ (by omega)⟩
    · congr 2
      omega
    · intro i hi
      show (if _ then _ else _) = _
      rw [if_neg (by omega)]
  · rw [if_neg hm]
    refine ⟨_, ?_, fin f t.cap (fun _ _ => rfl) (by omega)⟩
    congr 2
    omega

theorem inv_add {crc : Desc → Nat} {K : List Call} {s : Table} (h : Inv crc K s) {c : Call}
    (hc : Valid c) (hn : K.length + 1 < 16384) :
    ∃ s', add s (crc (newGrid c)) (newGrid c) = .ok (s', (K.length : Int)) ∧
      Inv crc (K ++ [c]) s' := by
  have hcap := h.cap
  have hsn := h.n
  unfold add link
  have hother : ∀ b, b ≠ crc (newGrid c) → chain crc (K ++ [c]) b = chain crc K b := by
    intro b hb
    rw [chain_append, if_neg (fun e => hb e.symm), List.append_nil]
  have hthis : chain crc (K ++ [c]) (crc (newGrid c))
      = chain crc K (crc (newGrid c)) ++ [K.length] := by
    rw [chain_append, if_pos rfl]
  have hhead := h.heads (crc (newGrid c))
  match hch : chain crc K (crc (newGrid c)) with
  | [] =>
    rw [hch] at hhead hthis
    simp only [List.head?_nil, Option.map_none] at hhead
    rw [hhead]
    simp only
    rw [slot_ok (by omega) (by omega)]
    simp only [bind, Except.bind]
    apply inv_place h hc hn
    · rfl
    · rfl
    · intro i hi
      have : ¬ ((i : Int) = s.n) := by omega
      simp [setSlot, this]
    · intro b
      show (if b = crc (newGrid c) then some s.n else s.heads b) = _
      by_cases hb : b = crc (newGrid c)
      · rw [if_pos hb, hb, hthis, hsn]
        simp
      · rw [if_neg hb, hother b hb, h.heads]
    · intro b
      by_cases hb : b = crc (newGrid c)
      · rw [hb, hthis]
        simp [Linked, setSlot, hsn]
      · rw [hother b hb]
        refine (h.linked b).congr fun i hi => ?_
        have := chain_lt hi
        have : ¬ ((i : Int) = s.n) := by omega
        simp [setSlot, this]
  | a :: l =>
    have hmem : ∀ i ∈ a :: l, i < K.length := fun i hi => chain_lt (hch ▸ hi)
    have hlk := h.linked (crc (newGrid c))
    have hnd : (a :: l).Nodup := hch ▸ chain_nodup
    have hlen : (a :: l).length ≤ K.length := hch ▸ chain_length
    rw [hch] at hhead hthis hlk
    simp only [List.head?_cons, Option.map_some] at hhead
    rw [hhead]
    have ha := hmem a (by simp)
    have hz := hmem _ (List.getLast_mem (l := a :: l) (by simp))
    simp only
    rw [slot_ok (by omega) (by omega)]
    simp only [bind, Except.bind]
    rw [h.index a ha, last_eq (l := a :: l) rfl (by omega)
      (fun i hi => by have := hmem i hi; omega) hlk (by simp)]
    simp only
    rw [slot_ok (by omega) (by omega)]
    simp only
    generalize hzz : (a :: l).getLast (by simp) = z at hz ⊢
    apply inv_place h hc hn
    · rfl
    · rfl
    · intro i hi
      by_cases hiz : i = z
      · subst hiz; simp [setSlot]
      · have : ¬ ((i : Int) = z) := by omega
        simp [setSlot, this]
    · intro b
      show s.heads b = _
      by_cases hb : b = crc (newGrid c)
      · rw [hb, hthis, hhead]
        simp
      · rw [hother b hb, h.heads]
    · intro b
      by_cases hb : b = crc (newGrid c)
      · rw [hb, hthis]
        refine Linked.append (f := s.slots) (by simp) hnd ?_ ?_ ?_ hlk
        · intro i hi hne
          rw [hzz] at hne
          have := hmem i hi
          have h1 : ¬ ((i : Int) = s.n) := by omega
          have h2 : ¬ ((i : Int) = z) := by omega
          simp [setSlot, h1, h2]
        · rw [hzz]
          have h2 : ¬ ((z : Int) = (K.length : Int)) := by omega
          simp [setSlot, hsn, h2]
        · simp [setSlot, hsn]
      · rw [hother b hb]
        refine (h.linked b).congr fun i hi => ?_
        have := chain_lt hi
        have h1 : ¬ ((i : Int) = s.n) := by omega
        have h2 : ¬ ((i : Int) = z) := by
          intro e
          have e : i = z := by omega
          subst e
          obtain ⟨x, hx, hx'⟩ := mem_chain.1 hi
          have : i ∈ chain crc K (crc (newGrid c)) := by
            rw [hch, ← hzz]; exact List.getLast_mem _
          obtain ⟨y, hy, hy'⟩ := mem_chain.1 this
          rw [hx] at hy
          cases hy
          exact hb (hx'.symm.trans hy')
        simp [setSlot, h1, h2]

/-- Between calls: the tables are allocated by the first call. -/
def Ready (crc : Desc → Nat) (K : List Call) (s : Table) : Prop :=
  s.n = K.length ∧ (K ≠ [] → Inv crc K s)

theorem Ready.tables {crc : Desc → Nat} {K : List Call} {s : Table} (h : Ready crc K s) :
    Inv crc K (tables s) := by
  unfold EzGrid.tables
  by_cases hK : K = []
  · subst hK
    have : s.n = 0 := h.1
    rw [if_pos this]
    exact
      { n := rfl
        cap := by decide
        valid := by simp
        index := by simp
        stored := by simp
        heads := fun b => by simp [chain]
        linked := fun b => by simp [chain, Linked] }
  · rw [if_neg]
    · exact h.2 hK
    · rw [h.1]
      have := List.length_pos_of_ne_nil hK
      omega

/-- One definition: the grid is one of the table with the same code that is alike, or a new one. -/
theorem define {crc : Desc → Nat} {gauss : Nat → Nat → Desc} {K : List Call} {s : Table}
    (h : Ready crc K s) {c : Call} (hc : Valid c)
    (hn : (∀ k ∈ K, ¬ (crc (newGrid c) = crc (newGrid k) ∧ Alike c k)) → K.length + 1 < 16384) :
    ∃ s' id K', defMem crc gauss s c = .ok (s', ((id : Nat) : Int)) ∧ Ready crc K' s' ∧ K' ≠ [] ∧
      (K' = K ∨ K' = K ++ [c] ∧ ∀ k ∈ K, ¬ (crc (newGrid c) = crc (newGrid k) ∧ Alike c k)) ∧
      ∃ k, K'[id]? = some k ∧ crc (newGrid c) = crc (newGrid k) ∧ Alike c k := by
  classical
  have hi := h.tables
  generalize ht : tables s = t at hi
  -- after the number is known
  have fin : ∀ (K' : List Call) (t' : Table) (id : Nat) (k : Call), Inv crc K' t' →
      K'[id]? = some k → Alike c k →
      ∃ s', (if irregular c.typ then (do
          let r ← slot t' (id : Int)
          .ok (setSlot t' (id : Int) { r with d := defAxes gauss c r.d }, (id : Int)))
        else .ok (t', (id : Int)) : Except Fault (Table × Int)) = .ok (s', (id : Int)) ∧
        Ready crc K' s' ∧ K' ≠ [] := by
    intro K' t' id k hi' hk ha
    have hlt := (List.getElem?_eq_some_iff.1 hk).1
    have hne : K' ≠ [] := by rintro rfl; simp at hlt
    have hcap := hi'.cap
    have hnn := hi'.n
    by_cases hirr : irregular c.typ = true
    · rw [if_pos hirr, slot_ok (by omega) (by omega)]
      have := hi'.set id k hk _ (defAxes_stored (gauss := gauss) hc ha (hi'.stored id k hk))
      exact ⟨_, rfl, ⟨this.n, fun _ => this⟩, hne⟩
    · rw [if_neg hirr]
      exact ⟨_, rfl, ⟨hi'.n, fun _ => hi'⟩, hne⟩
  have hidf : ∃ t' id K' old, identify t (crc (newGrid c)) (newGrid c) = .ok (t', ((id : Nat) : Int), old) ∧
      Inv crc K' t' ∧
      (K' = K ∨ K' = K ++ [c] ∧ ∀ k ∈ K, ¬ (crc (newGrid c) = crc (newGrid k) ∧ Alike c k)) ∧
      ∃ k, K'[id]? = some k ∧ crc (newGrid c) = crc (newGrid k) ∧ Alike c k := by
    unfold identify
    have hhead := hi.heads (crc (newGrid c))
    have hself : (K ++ [c])[K.length]? = some c := by simp
    match hch : chain crc K (crc (newGrid c)) with
    | [] =>
      rw [hch] at hhead
      simp only [List.head?_nil, Option.map_none] at hhead
      rw [hhead]
      have hno : ∀ k ∈ K, ¬ (crc (newGrid c) = crc (newGrid k) ∧ Alike c k) := by
        rintro k hk ⟨hk', _⟩
        obtain ⟨i, hik⟩ := List.mem_iff_getElem?.1 hk
        have : i ∈ chain crc K (crc (newGrid c)) := mem_chain.2 ⟨k, hik, hk'.symm⟩
        rw [hch] at this
        simp at this
      obtain ⟨t', h1, h2⟩ := inv_add hi hc (hn hno)
      refine ⟨t', K.length, K ++ [c], false, ?_, h2, Or.inr ⟨rfl, hno⟩, c, hself, rfl, .refl c⟩
      simp only [h1, bind, Except.bind]
    | a :: l =>
      have hmem : ∀ i ∈ a :: l, i < K.length := fun i hi => chain_lt (hch ▸ hi)
      have hlk := hi.linked (crc (newGrid c))
      have hlen : (a :: l).length ≤ K.length := hch ▸ chain_length
      rw [hch] at hhead hlk
      simp only [List.head?_cons, Option.map_some] at hhead
      rw [hhead]
      have hcap := hi.cap
      have hnn := hi.n
      let P : Nat → Bool := fun i => decide (∃ k, K[i]? = some k ∧ Alike c k)
      have hP : ∀ i ∈ a :: l, compare (newGrid c) (t.slots (i : Nat)).d
          = .ok (if P i then .same else .next) := by
        intro i him
        have hlt := hmem i him
        have hk : K[i]? = some K[i] := List.getElem?_eq_getElem hlt
        rw [compare_eq hc (hi.valid _ (List.getElem_mem hlt)) (hi.stored i _ hk)]
        congr 1
        by_cases hA : Alike c K[i]
        · rw [if_pos hA, if_pos]
          exact decide_eq_true ⟨_, hk, hA⟩
        · rw [if_neg hA, if_neg]
          simp only [P, decide_eq_true_eq, not_exists, not_and]
          intro k hk'
          rw [hk] at hk'
          cases hk'
          exact hA
      have hwalk := walk_eq (s := t) (g := newGrid c) P (l := a :: l) (fuel := t.cap.toNat + 1) rfl
        (by omega) (fun i hi => by have := hmem i hi; omega) hlk hP (by simp)
      simp only [find, hwalk, bind, Except.bind]
      cases hf : (a :: l).find? P with
      | some i =>
        have him := List.mem_of_find?_eq_some hf
        have hPi := List.find?_some hf
        have hlt := hmem i him
        simp only
        rw [slot_ok (by omega) (by omega)]
        have hidx := hi.index i hlt
        simp only [if_true]
        rw [if_neg (by omega)]
        obtain ⟨k, hk, hA⟩ := of_decide_eq_true hPi
        have hb : i ∈ chain crc K (crc (newGrid c)) := hch ▸ him
        obtain ⟨k', hk', hcrc⟩ := mem_chain.1 hb
        rw [hk] at hk'
        cases hk'
        refine ⟨setSlot t i { t.slots i with access := (t.slots i).access + 1 }, i, K, true, ?_,
          hi.access i _, Or.inl rfl, k, hk, hcrc.symm, hA⟩
        exact congrArg (fun x => Except.ok (_, x, true)) hidx
      | none =>
        have hz := hmem _ (List.getLast_mem (l := a :: l) (by simp))
        generalize (a :: l).getLast (by simp) = z at hz ⊢
        simp only
        rw [slot_ok (by omega) (by omega)]
        simp only [Bool.false_eq_true, if_false, if_true]
        have hno : ∀ k ∈ K, ¬ (crc (newGrid c) = crc (newGrid k) ∧ Alike c k) := by
          rintro k hk ⟨hk', hA⟩
          obtain ⟨i, hik⟩ := List.mem_iff_getElem?.1 hk
          have : i ∈ a :: l := hch ▸ mem_chain.2 ⟨k, hik, hk'.symm⟩
          have := List.find?_eq_none.1 hf i this
          exact this (decide_eq_true ⟨k, hik, hA⟩)
        obtain ⟨t', h1, h2⟩ := inv_add (hi.access z ((t.slots z).access + 1)) hc (hn hno)
        rw [h1]
        exact ⟨t', K.length, K ++ [c], false, rfl, h2, Or.inr ⟨rfl, hno⟩, c, hself, rfl, .refl c⟩
  obtain ⟨t', id, K', old, h1, h2, h3, k, hk, hcr, hA⟩ := hidf
  obtain ⟨s', e1, e2, e3⟩ := fin K' t' id k h2 hk hA
  refine ⟨s', id, K', ?_, e2, e3, h3, k, hk, hcr, hA⟩
  unfold defMem
  simp only [ht, h1, bind, Except.bind]
  exact e1

theorem Same.code {crc : Desc → Nat} {a b : Call} (hv : Valid a) (h : Same a b) :
    crc (newGrid a) = crc (newGrid b) := by
  obtain ⟨h1, h2, h3, h4, h5, h6⟩ := h
  congr 1
  unfold newGrid
  rw [h1, h2, h3, h4]
  by_cases hi : irregular b.typ = true
  · rw [if_pos hi, if_pos hi]
    by_cases hG : b.typ = 'G'
    · rw [h5 (Or.inl (h1.trans hG))]
      simp [hG]
    · have hyz : a.typ = 'Z' ∨ a.typ = 'Y' := by
        have := hv.1
        rw [h1] at this ⊢
        simp only [irregular, Bool.or_eq_true, beq_iff_eq] at hi
        tauto
      rw [h5 (Or.inr hyz), (h6 hyz).1, (h6 hyz).2]
  · rw [if_neg hi, if_neg hi]

/-- The calls one after the other. -/
def defAll (crc : Desc → Nat) (gauss : Nat → Nat → Desc) :
    Table → List Call → Except Fault (Table × List Int)
  | s, [] => .ok (s, [])
  | s, c :: cs => do
    let (s, id) ← defMem crc gauss s c
    let (s, ids) ← defAll crc gauss s cs
    .ok (s, id :: ids)

theorem defAll_spec {crc : Desc → Nat} {gauss : Nat → Nat → Desc} : ∀ {cs : List Call} {K : List Call}
    {s : Table}, Ready crc K s → (∀ c ∈ cs, Valid c) →
    K.Pairwise (fun a b => ¬ (crc (newGrid a) = crc (newGrid b) ∧ Alike a b)) →
    (∀ l : List Call, (∀ x ∈ l, x ∈ K ++ cs) → l.Pairwise (fun a b => ¬ Same a b) →
      l.length < 16384) →
    ∃ (s' : Table) (K' : List Call) (ids : List Nat),
      defAll crc gauss s cs = .ok (s', ids.map fun i : Nat => (i : Int)) ∧
      Ready crc K' s' ∧ K <+: K' ∧
      K'.Pairwise (fun a b => ¬ (crc (newGrid a) = crc (newGrid b) ∧ Alike a b)) ∧
      List.Forall₂ (fun (c : Call) (id : Nat) =>
        ∃ k, K'[id]? = some k ∧ crc (newGrid c) = crc (newGrid k) ∧ Alike c k) cs ids
  | [], K, s, hr, _, hp, _ => ⟨s, K, [], rfl, hr, List.prefix_refl K, hp, .nil⟩
  | c :: cs, K, s, hr, hv, hp, hn => by
    have hc := hv c (by simp)
    have hK : ∀ a ∈ K, Valid a := by
      intro a ha
      exact (hr.2 (List.ne_nil_of_mem ha)).valid a ha
    obtain ⟨s1, id, K1, h1, h2, h3, h4, k, hk, hcr, hA⟩ := define (gauss := gauss) hr hc (by
      intro hno
      have := hn (K ++ [c]) (by
        intro x hx
        rcases List.mem_append.1 hx with hx | hx
        · exact List.mem_append_left _ hx
        · exact List.mem_append_right _ (by simp_all)) (by
        rw [List.pairwise_append]
        refine ⟨List.Pairwise.imp_of_mem (fun ha _ h h' => ?_) hp, List.pairwise_singleton _ _, ?_⟩
        · exact h ⟨h'.code (hK _ ha), h'.alike⟩
        · intro a ha b hb hab
          rw [List.mem_singleton.1 hb] at hab
          exact hno a ha ⟨(hab.code (hK a ha)).symm, hab.alike.symm⟩)
      simpa using this)
    have hpre : K <+: K1 := by
      rcases h4 with h4 | h4
      · rw [h4]; exact List.prefix_refl _
      · rw [h4.1]; exact List.prefix_append _ _
    have hp1 : K1.Pairwise (fun a b => ¬ (crc (newGrid a) = crc (newGrid b) ∧ Alike a b)) := by
      rcases h4 with h4 | h4
      · rw [h4]; exact hp
      · rw [h4.1, List.pairwise_append]
        refine ⟨hp, List.pairwise_singleton _ _, ?_⟩
        intro a ha b hb hab
        rw [List.mem_singleton.1 hb] at hab
        exact h4.2 a ha ⟨hab.1.symm, hab.2.symm⟩
    have hsub : ∀ x ∈ K1 ++ cs, x ∈ K ++ c :: cs := by
      intro x hx
      rcases h4 with h4 | h4
      · rw [h4] at hx
        rcases List.mem_append.1 hx with hx | hx <;> simp [hx]
      · rw [h4.1] at hx
        simpa using hx
    obtain ⟨s2, K2, ids, g1, g2, g3, g4, g5⟩ := defAll_spec (gauss := gauss) (cs := cs) h2
      (fun x hx => hv x (by simp [hx])) hp1 (fun l hl hl' => hn l (fun x hx => hsub x (hl x hx)) hl')
    refine ⟨s2, K2, id :: ids, ?_, g2, hpre.trans g3, g4, .cons ⟨k, ?_, hcr, hA⟩ g5⟩
    · rw [defAll, h1]
      simp only [bind, Except.bind, g1]
      rfl
    · obtain ⟨r, hr⟩ := g3
      rw [← hr, List.getElem?_append_left (List.getElem?_eq_some_iff.1 hk).1, hk]

theorem code_iff {crc : Desc → Nat} {a b x y : Call}
    (ha : crc (newGrid a) = crc (newGrid x) ∧ Alike a x)
    (hb : crc (newGrid b) = crc (newGrid y) ∧ Alike b y) :
    (crc (newGrid x) = crc (newGrid y) ∧ Alike x y) ↔
      (crc (newGrid a) = crc (newGrid b) ∧ Alike a b) := by
  constructor
  · rintro ⟨h1, h2⟩
    exact ⟨by rw [ha.1, h1, hb.1], (ha.2.trans h2).trans hb.2.symm⟩
  · rintro ⟨h1, h2⟩
    exact ⟨by rw [← ha.1, h1, hb.1], (ha.2.symm.trans h2).trans hb.2⟩

/-- Which calls of `c_ezgdef_fmem` get the same number, for any code: those with the same code and
the same type, size, parameters and values of axes. The grid under the number is the one of the
call. -/
theorem C74_numbers (crc : Desc → Nat) (gauss : Nat → Nat → Desc) (s : Table) (hs : s.n = 0)
    (cs : List Call) (hv : ∀ c ∈ cs, Valid c)
    (hn : ∀ l : List Call, (∀ x ∈ l, x ∈ cs) → l.Pairwise (fun a b => ¬ Same a b) →
      l.length < 16384) :
    ∃ (s' : Table) (ids : List Int), defAll crc gauss s cs = .ok (s', ids) ∧
      ids.length = cs.length ∧
      (∀ (i j : Nat) (a b : Call), cs[i]? = some a → cs[j]? = some b →
        (ids[i]? = ids[j]? ↔ crc (newGrid a) = crc (newGrid b) ∧ Alike a b)) ∧
      ∀ (i : Nat) (c : Call), cs[i]? = some c → ∃ id, ids[i]? = some id ∧ Holds s' id c := by
  obtain ⟨s', K, ids, h1, h2, -, h4, h5⟩ := defAll_spec (crc := crc) (gauss := gauss) (cs := cs)
    (K := []) (s := s)
    ⟨hs, by simp⟩ hv .nil (by simpa using hn)
  have hget : ∀ (i : Nat) (c : Call), cs[i]? = some c → ∃ id k, ids[i]? = some id ∧ K[id]? = some k ∧
      crc (newGrid c) = crc (newGrid k) ∧ Alike c k := by
    clear h1 hn hv
    induction h5 with
    | nil => intro i c hc; simp at hc
    | cons h _ ih =>
      intro i c hc
      cases i with
      | zero =>
        simp only [List.getElem?_cons_zero, Option.some.injEq] at hc
        subst hc
        obtain ⟨k, hk⟩ := h
        exact ⟨_, k, by simp, hk⟩
      | succ i =>
        simp only [List.getElem?_cons_succ] at hc ⊢
        exact ih i c hc
  refine ⟨s', ids.map fun i : Nat => (i : Int), h1, by simp [h5.length_eq], ?_, ?_⟩
  · intro i j a b ha hb
    obtain ⟨x, k, hx, hk, ek⟩ := hget i a ha
    obtain ⟨y, l, hy, hl, el⟩ := hget j b hb
    rw [List.getElem?_map, List.getElem?_map, hx, hy, ← code_iff ek el]
    simp only [Option.map_some, Option.some.injEq]
    constructor
    · intro e
      have e : x = y := by omega
      subst e
      rw [hk] at hl
      cases hl
      exact ⟨rfl, .refl _⟩
    · rintro ⟨e1, e2⟩
      rcases Nat.lt_trichotomy x y with hxy | hxy | hxy
      · have hxl := (List.getElem?_eq_some_iff.1 hk)
        have hyl := (List.getElem?_eq_some_iff.1 hl)
        have := List.pairwise_iff_getElem.1 h4 x y hxl.1 hyl.1 hxy
        rw [hxl.2, hyl.2] at this
        exact absurd ⟨e1, e2⟩ this
      · rw [hxy]
      · have hxl := (List.getElem?_eq_some_iff.1 hk)
        have hyl := (List.getElem?_eq_some_iff.1 hl)
        have := List.pairwise_iff_getElem.1 h4 y x hyl.1 hxl.1 hxy
        rw [hxl.2, hyl.2] at this
        exact absurd ⟨e1.symm, e2.symm⟩ this
  · intro i c hc
    obtain ⟨x, k, hx, hk, ek, ak⟩ := hget i c hc
    refine ⟨x, by rw [List.getElem?_map, hx]; rfl, ?_⟩
    have hlt := (List.getElem?_eq_some_iff.1 hk).1
    have hne : K ≠ [] := by rintro rfl; simp at hlt
    have hi := h2.2 hne
    have hn' := hi.n
    obtain ⟨q1, q2, q3, q4, q5, q6⟩ := hi.stored x k hk
    obtain ⟨a1, a2, a3, a4, a5⟩ := ak
    refine ⟨by omega, by omega, by rw [q1, a1], by rw [q2, a2], by rw [q3, a3], by rw [q4, a4], ?_⟩
    intro h
    obtain ⟨_, u, v, hu, hv, nu, nv⟩ := q5 (a1 ▸ h)
    have := a5 h
    exact ⟨u, v, hu, hv, near_trans nu (near_symm this.1), near_trans nv (near_symm this.2)⟩

/-- The same number exactly for the same grid, if no two calls have the same code and differ only in
the reference grid or in signs of zeros. -/
theorem C74_define_partial (crc : Desc → Nat) (gauss : Nat → Nat → Desc) (s : Table) (hs : s.n = 0)
    (cs : List Call) (hv : ∀ c ∈ cs, Valid c)
    (hc : ∀ a ∈ cs, ∀ b ∈ cs, crc (newGrid a) = crc (newGrid b) → Alike a b → Same a b)
    (hn : ∀ l : List Call, (∀ x ∈ l, x ∈ cs) → l.Pairwise (fun a b => ¬ Same a b) →
      l.length < 16384) :
    ∃ (s' : Table) (ids : List Int), defAll crc gauss s cs = .ok (s', ids) ∧
      ids.length = cs.length ∧
      (∀ (i j : Nat) (a b : Call), cs[i]? = some a → cs[j]? = some b →
        (ids[i]? = ids[j]? ↔ Same a b)) ∧
      ∀ (i : Nat) (c : Call), cs[i]? = some c → ∃ id, ids[i]? = some id ∧ Holds s' id c := by
  obtain ⟨s', ids, h1, h2, h3, h4⟩ := C74_numbers crc gauss s hs cs hv hn
  refine ⟨s', ids, h1, h2, fun i j a b ha hb => ?_, h4⟩
  rw [h3 i j a b ha hb]
  constructor
  · rintro ⟨e1, e2⟩
    exact hc a (List.mem_of_getElem? ha) b (List.mem_of_getElem? hb) e1 e2
  · intro h
    exact ⟨h.code (hv a (List.mem_of_getElem? ha)), h.alike⟩

end Verif.EzGrid
