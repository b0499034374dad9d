import Verif.UserLock
import Mathlib.Tactic

namespace Verif.UserLock

/-! # C134: locks between threads -/

/-- A turn of the loop of `set_user_lock` that no other thread interrupts. -/
def turn (c : Nat × Bool) : List (Nat × Act) := [(c.1, .call c.2), (c.1, .go), (c.1, .go), (c.1, .go)]

/-- The lock between turns: free, or held by one thread `o` to a depth `d`. -/
structure Free (s : Sys) : Prop where
  lock : s.lock = 0
  depth : ∀ t, s.depth t = 0

structure Held (s : Sys) (o d : Nat) : Prop where
  owner : o < 16777216
  low : 1 ≤ d
  high : d ≤ 127
  lock : s.lock.toNat = o + d * 16777216
  own : s.depth o = d
  others : ∀ t, t ≠ o → s.depth t = 0

/-- Between turns threads are outside or at the head of the loop. -/
def Quiet (s : Sys) : Prop := ∀ t, s.pc t = .out ∨ ∃ b, s.pc t = .want b

def Good (s : Sys) : Prop := Free s ∨ ∃ o d, Held s o d

theorem pid_toNat {t : Nat} (h : t < 16777216) : (pid t).toNat = t := by
  have e : (16777215 : Nat) = 2 ^ 24 - 1 := rfl
  rw [pid, BitVec.toNat_and, BitVec.toNat_ofNat]
  show t % 2 ^ 32 &&& 16777215 = t
  rw [e, Nat.and_two_pow_sub_one_eq_mod]
  omega

theorem low_toNat (x : BitVec 32) : (x &&& 0xFFFFFF).toNat = x.toNat % 16777216 := by
  have e : (16777215 : Nat) = 2 ^ 24 - 1 := rfl
  rw [BitVec.toNat_and]
  show x.toNat &&& 16777215 = _
  rw [e, Nat.and_two_pow_sub_one_eq_mod]

theorem count_toNat (x : BitVec 32) : ((x >>> 24) &&& 127).toNat = x.toNat / 16777216 % 128 := by
  have e : (127 : Nat) = 2 ^ 7 - 1 := rfl
  rw [BitVec.toNat_and, BitVec.toNat_ushiftRight]
  show x.toNat >>> 24 &&& 127 = _
  rw [e, Nat.and_two_pow_sub_one_eq_mod, Nat.shiftRight_eq_div_pow]

theorem lock_toNat {t d : Nat} (h : t < 16777216) (hd : d ≤ 127) {c : BitVec 32} (hc : c.toNat = d) :
    (pid t + c <<< 24).toNat = t + d * 16777216 := by
  rw [BitVec.toNat_add, pid_toNat h, BitVec.toNat_shiftLeft, hc, Nat.shiftLeft_eq]
  omega

theorem upd_same {α : Type} (f : Nat → α) (t : Nat) (v : α) : upd f t v t = v := if_pos rfl

theorem upd_ne {α : Type} {f : Nat → α} {t u : Nat} {v : α} (h : u ≠ t) : upd f t v u = f u := if_neg h

theorem upd_upd {α : Type} (f : Nat → α) (t : Nat) (v w : α) : upd (upd f t v) t w = upd f t w := by
  funext u; simp only [upd]; split_ifs <;> rfl

/-- What a turn does. -/
theorem turn_eq {s : Sys} (hd : s.dead = false) (hq : Quiet s) (t : Nat) (b : Bool) :
    ∃ b', (s.pc t = .out → b' = b) ∧ run s (turn (t, b)) =
      (if b' then acquire else release) { s with pc := upd s.pc t (.two b' (s.lock &&& 0xFFFFFF) ((s.lock >>> 24) &&& 127)) }
        t (s.lock &&& 0xFFFFFF) ((s.lock >>> 24) &&& 127) := by
  have key : ∀ b', run { s with pc := upd s.pc t (.want b') } [(t, .go), (t, .go), (t, .go)] =
      (if b' then acquire else release) { s with pc := upd s.pc t (.two b' (s.lock &&& 0xFFFFFF) ((s.lock >>> 24) &&& 127)) }
        t (s.lock &&& 0xFFFFFF) ((s.lock >>> 24) &&& 127) := by
    intro b'
    simp only [run, List.foldl_cons, List.foldl_nil, step, go, hd, upd_same, upd_upd, Bool.false_eq_true, if_false]
    cases b' <;> rfl
  rcases hq t with h | ⟨b', h⟩
  · refine ⟨b, fun _ => rfl, ?_⟩
    rw [← key b]
    simp only [turn, run, List.foldl_cons, step, call, hd, h, Bool.false_eq_true, if_false, if_true]
  · refine ⟨b', fun h' => (by rw [h] at h'; cases h'), ?_⟩
    rw [← key b']
    have : upd s.pc t (.want b') = s.pc := by
      funext u; simp only [upd]; split_ifs with hu
      · rw [hu, h]
      · rfl
    rw [this]
    have hcall : call s t b = s := by
      rw [call, if_neg (by rw [hd]; simp), if_neg (by rw [h]; simp)]
    show run (call s t b) [(t, .go), (t, .go), (t, .go)] = _
    rw [hcall]

theorem turn_good {s : Sys} (hd : s.dead = false) (hq : Quiet s) (hg : Good s) {t : Nat} (ht : t < 16777216) (b : Bool)
    (hmax : ∀ u, (run s (turn (t, b))).depth u ≤ 127) :
    (run s (turn (t, b))).dead = true ∧ (run s (turn (t, b))).depth = s.depth ∨
      (run s (turn (t, b))).dead = false ∧ Quiet (run s (turn (t, b))) ∧ Good (run s (turn (t, b))) := by
  obtain ⟨b', -, he⟩ := turn_eq hd hq t b
  rw [he] at hmax ⊢
  have hquiet : ∀ p : Pc, (p = .out ∨ ∃ b, p = .want b) → ∀ q : Pc, ∀ u,
      upd (upd s.pc t q) t p u = .out ∨ ∃ b, upd (upd s.pc t q) t p u = .want b := by
    intro p hp q u
    simp only [upd_upd]
    by_cases hu : u = t
    · rw [hu, upd_same]; exact hp
    · rw [upd_ne hu]; exact hq u
  generalize hp : s.lock &&& 0xFFFFFF = p at *
  generalize hc : (s.lock >>> 24) &&& 127 = c at *
  have hpn : p.toNat = s.lock.toNat % 16777216 := by rw [← hp, low_toNat]
  have hcn : c.toNat = s.lock.toNat / 16777216 % 128 := by rw [← hc, count_toNat]
  cases b' with
  | true =>
    rw [if_pos rfl] at hmax ⊢
    right
    unfold acquire at hmax ⊢
    split_ifs at hmax ⊢ with h
    · refine ⟨hd, fun u => hquiet .out (Or.inl rfl) _ u, ?_⟩
      have hm := hmax t
      simp only [upd_same] at hm
      right
      rcases hg with hg | ⟨o, d, hg⟩
      · have h0 : s.lock.toNat = 0 := by rw [hg.lock]; rfl
        rw [h0] at hcn
        refine ⟨t, 1, ht, le_rfl, by omega, ?_, ?_, ?_⟩
        · simp only
          rw [lock_toNat ht (by omega) (show (c + 1).toNat = 1 from by rw [BitVec.toNat_add, hcn]; rfl)]
        · simp only [upd_same]; rw [hg.depth]
        · intro u hu; simp only [upd_ne hu]; exact hg.depth u
      · have hl := hg.lock
        have h1 := hg.owner
        have h2 := hg.high
        have h3 := hg.low
        have hcd : c.toNat = d := by rw [hcn, hl]; omega
        have hpo : p.toNat = o := by rw [hpn, hl]; omega
        have hot : o = t := by
          rcases h with h | h
          · rw [h] at hcd; simp at hcd; omega
          · rw [← hpo, h, pid_toNat ht]
        subst hot
        rw [hg.own] at hm
        refine ⟨o, d + 1, h1, by omega, hm, ?_, ?_, ?_⟩
        · simp only
          rw [lock_toNat ht (by omega) (show (c + 1).toNat = d + 1 from by
            rw [BitVec.toNat_add, hcd]; show (d + 1) % 2 ^ 32 = d + 1; omega)]
        · simp only [upd_same]; rw [hg.own]
        · intro u hu; simp only [upd_ne hu]; exact hg.others u hu
    · refine ⟨hd, fun u => hquiet (.want true) (Or.inr ⟨true, rfl⟩) _ u, ?_⟩
      rcases hg with hg | ⟨o, d, hg⟩
      · exact Or.inl ⟨hg.lock, hg.depth⟩
      · exact Or.inr ⟨o, d, hg.owner, hg.low, hg.high, hg.lock, hg.own, hg.others⟩
  | false =>
    rw [if_neg (by simp)] at hmax ⊢
    unfold release at hmax ⊢
    split_ifs at hmax ⊢ with h h'
    · left; exact ⟨rfl, rfl⟩
    · right
      refine ⟨hd, fun u => hquiet .out (Or.inl rfl) _ u, ?_⟩
      left
      refine ⟨rfl, ?_⟩
      intro u
      simp only
      rcases hg with hg | ⟨o, d, hg⟩
      · by_cases hu : u = t
        · rw [hu, upd_same, hg.depth]
        · rw [upd_ne hu, hg.depth]
      · have hl := hg.lock
        have h1 := hg.owner
        have h2 := hg.high
        have h3 := hg.low
        have hcd : c.toNat = d := by rw [hcn, hl]; omega
        have hpo : p.toNat = o := by rw [hpn, hl]; omega
        have hpos : 0 < s.lock.toInt := by
          rw [BitVec.toInt_eq_toNat_of_lt (by omega)]; omega
        have hot : o = t := by
          by_contra hne
          refine h ⟨fun e => hne ?_, hpos⟩
          rw [← hpo, ← e, pid_toNat ht]
        subst hot
        have hd1 : (c - 1).toNat = d - 1 := by
          rw [BitVec.toNat_sub, hcd]
          show (2 ^ 32 - 1 + d) % 2 ^ 32 = d - 1
          omega
        rw [BitVec.toInt_eq_toNat_of_lt (by omega), hd1] at h'
        by_cases hu : u = o
        · rw [hu, upd_same, hg.own]; omega
        · rw [upd_ne hu, hg.others u hu]
    · right
      refine ⟨hd, fun u => hquiet .out (Or.inl rfl) _ u, ?_⟩
      rcases hg with hg | ⟨o, d, hg⟩
      · exfalso
        have h0 : s.lock.toNat = 0 := by rw [hg.lock]; rfl
        rw [h0] at hcn
        have hc0 : c = 0 := BitVec.eq_of_toNat_eq (by simpa using hcn)
        rw [hc0] at h'
        exact h' (by decide)
      · have hl := hg.lock
        have h1 := hg.owner
        have h2 := hg.high
        have h3 := hg.low
        have hcd : c.toNat = d := by rw [hcn, hl]; omega
        have hpo : p.toNat = o := by rw [hpn, hl]; omega
        have hpos : 0 < s.lock.toInt := by
          rw [BitVec.toInt_eq_toNat_of_lt (by omega)]; omega
        have hot : o = t := by
          by_contra hne
          refine h ⟨fun e => hne ?_, hpos⟩
          rw [← hpo, ← e, pid_toNat ht]
        subst hot
        have hd1 : (c - 1).toNat = d - 1 := by
          rw [BitVec.toNat_sub, hcd]
          show (2 ^ 32 - 1 + d) % 2 ^ 32 = d - 1
          omega
        rw [BitVec.toInt_eq_toNat_of_lt (by omega), hd1] at h'
        right
        refine ⟨o, d - 1, h1, by omega, by omega, ?_, ?_, ?_⟩
        · simp only
          rw [lock_toNat ht (by omega) hd1]
        · simp only [upd_same]; rw [hg.own]
        · intro u hu; simp only [upd_ne hu]; exact hg.others u hu

theorem run_dead {s : Sys} (h : s.dead = true) (l : List (Nat × Act)) : run s l = s := by
  induction l with
  | nil => rfl
  | cons a l ih =>
    rcases a with ⟨t, b | _⟩
    · show run (call s t b) l = s
      rw [call, if_pos h, ih]
    · show run (go s t) l = s
      rw [go, if_pos h, ih]

theorem run_append (s : Sys) (l m : List (Nat × Act)) : run s (l ++ m) = run (run s l) m := List.foldl_append

/-- C134: when turns of the loop are not interrupted, at most one thread holds the lock, however the threads take
turns and nest their calls up to a depth of 127. -/
theorem C134_partial (cs : List (Nat × Bool)) (ht : ∀ c ∈ cs, c.1 < 16777216)
    (hmax : ∀ k u, (run start ((cs.take k).flatMap turn)).depth u ≤ 127) :
    ∀ k t u, 0 < (run start ((cs.take k).flatMap turn)).depth t → 0 < (run start ((cs.take k).flatMap turn)).depth u →
      t = u := by
  have key : ∀ k, (Good (run start ((cs.take k).flatMap turn)) ∧ Quiet (run start ((cs.take k).flatMap turn)) ∧
      (run start ((cs.take k).flatMap turn)).dead = false) ∨
      ((run start ((cs.take k).flatMap turn)).dead = true ∧
        ∀ t u, 0 < (run start ((cs.take k).flatMap turn)).depth t → 0 < (run start ((cs.take k).flatMap turn)).depth u →
      t = u) := by
    intro k
    induction k with
    | zero => exact Or.inl ⟨Or.inl ⟨rfl, fun _ => rfl⟩, fun _ => Or.inl rfl, rfl⟩
    | succ k ih =>
      by_cases hk : k < cs.length
      · rw [List.take_succ_eq_append_getElem hk, List.flatMap_append, run_append]
        have hm := hmax (k + 1)
        rw [List.take_succ_eq_append_getElem hk, List.flatMap_append, run_append] at hm
        have hfm : [cs[k]].flatMap turn = turn (cs[k].1, cs[k].2) := by simp
        rw [hfm] at hm ⊢
        rcases ih with ⟨hg, hq, hd⟩ | ⟨hd, hu⟩
        · rcases turn_good hd hq hg (ht _ (List.getElem_mem hk)) cs[k].2 hm with ⟨h1, h2⟩ | ⟨h1, h2, h3⟩
          · right
            refine ⟨h1, ?_⟩
            rw [h2]
            intro t u
            rcases hg with hg | ⟨o, d, hg⟩
            · intro h; rw [hg.depth] at h; omega
            · intro h3 h4
              by_contra hne
              by_cases hto : t = o
              · have := hg.others u (fun h => hne (hto.trans h.symm)); omega
              · have := hg.others t hto; omega
          · exact Or.inl ⟨h3, h2, h1⟩
        · right
          rw [run_dead hd]
          exact ⟨hd, hu⟩
      · rw [List.take_of_length_le (by omega)]
        rw [List.take_of_length_le (by omega)] at ih
        exact ih
  intro k t u h3 h4
  rcases key k with ⟨hg, -, -⟩ | ⟨-, hu⟩
  · rcases hg with hg | ⟨o, d, hg⟩
    · rw [hg.depth] at h3; omega
    · by_contra hne
      by_cases hto : t = o
      · have := hg.others u (fun h => hne (hto.trans h.symm)); omega
      · have := hg.others t hto; omega
  · exact hu t u h3 h4

/-- C134: a free lock is given to the thread that asks, and one that is held only to the thread that holds it. -/
theorem C134_grant {s : Sys} (hd : s.dead = false) (hq : Quiet s) {t : Nat} (ht : t < 16777216) (hout : s.pc t = .out) :
    (Free s → (run s (turn (t, true))).depth t = 1) ∧
      ∀ o d, Held s o d → (run s (turn (t, true))).depth t = if o = t then d + 1 else 0 := by
  obtain ⟨b', hb, he⟩ := turn_eq hd hq t true
  have := hb hout
  subst this
  rw [he, if_pos rfl]
  constructor
  · intro hf
    have h0 : s.lock.toNat = 0 := by rw [hf.lock]; rfl
    have hc0 : (s.lock >>> 24) &&& 127 = 0 := BitVec.eq_of_toNat_eq (by rw [count_toNat, h0]; rfl)
    rw [acquire, if_pos (Or.inl hc0)]
    simp only [upd_same, hf.depth]
  · intro o d hh
    have hl := hh.lock
    have h1 := hh.owner
    have h2 := hh.high
    have h3 := hh.low
    have hcd : ((s.lock >>> 24) &&& 127).toNat = d := by rw [count_toNat, hl]; omega
    have hpo : (s.lock &&& 0xFFFFFF).toNat = o := by rw [low_toNat, hl]; omega
    unfold acquire
    by_cases hot : o = t
    · subst hot
      rw [if_pos (Or.inr (BitVec.eq_of_toNat_eq (by rw [hpo, pid_toNat ht]))), if_pos rfl]
      simp only [upd_same, hh.own]
    · rw [if_neg, if_neg hot]
      · exact hh.others t (Ne.symm hot)
      · rintro (h | h)
        · rw [h] at hcd; simp at hcd; omega
        · rw [h, pid_toNat ht] at hpo; exact hot hpo.symm

/-- Two threads, two levels, and the lock given back. -/
example : ((run start ([(1, true), (2, true), (1, true), (1, false), (1, false), (2, true)].flatMap turn)).depth 2,
    (run start ([(1, true), (2, true), (1, true), (1, false)].flatMap turn)).depth 1,
    (run start ([(1, true), (2, true), (1, true), (1, false)].flatMap turn)).depth 2) = (1, 1, 0) := by decide +kernel

/-- Reads and writes of two threads may be mixed: both find the lock free and both get it. -/
theorem C134_race_witness :
    (run start [(1, .call true), (2, .call true), (1, .go), (2, .go), (1, .go), (2, .go), (1, .go), (2, .go)]).depth 1 = 1 ∧
    (run start [(1, .call true), (2, .call true), (1, .go), (2, .go), (1, .go), (2, .go), (1, .go), (2, .go)]).depth 2 = 1 := by
  decide +kernel

/-- A count of 128 does not fit: the lock looks free and another thread gets it. -/
theorem C134_depth_witness :
    (run start ((List.replicate 128 (1, true) ++ [(2, true)]).flatMap turn)).depth 1 = 128 ∧
    (run start ((List.replicate 128 (1, true) ++ [(2, true)]).flatMap turn)).depth 2 = 1 := by decide +kernel

/-- C134: the thread that holds the lock gives one level back; any other that tries ends the program. -/
theorem C134_release {s : Sys} (hd : s.dead = false) (hq : Quiet s) {t : Nat} (ht : t < 16777216) (hout : s.pc t = .out)
    {o d : Nat} (hh : Held s o d) :
    if o = t then (run s (turn (t, false))).depth t = d - 1 ∧ (run s (turn (t, false))).dead = false
    else (run s (turn (t, false))).dead = true ∧ (run s (turn (t, false))).lock = s.lock := by
  obtain ⟨b', hb, he⟩ := turn_eq hd hq t false
  have := hb hout
  subst this
  simp only [Bool.false_eq_true, if_false] at he
  rw [he]
  have hl := hh.lock
  have h1 := hh.owner
  have h2 := hh.high
  have h3 := hh.low
  have hpo : (s.lock &&& 0xFFFFFF).toNat = o := by rw [low_toNat, hl]; omega
  have hpos : 0 < s.lock.toInt := by
    rw [BitVec.toInt_eq_toNat_of_lt (by omega)]; omega
  unfold release
  by_cases hot : o = t
  · subst hot
    have e : pid o = s.lock &&& 0xFFFFFF := BitVec.eq_of_toNat_eq (by rw [hpo, pid_toNat ht])
    rw [if_pos rfl, if_neg (fun h => h.1 e)]
    refine ⟨?_, hd⟩
    simp only [upd_same, hh.own]
  · rw [if_neg hot, if_pos ⟨fun e => hot (by rw [← hpo, ← e, pid_toNat ht]), hpos⟩]
    exact ⟨rfl, rfl⟩

theorem turn_depth {s : Sys} (hd : s.dead = false) (hq : Quiet s) (t : Nat) (b : Bool) :
    (∀ u, (run s (turn (t, b))).depth u ≤ s.depth u + 1) ∧
      ((run s (turn (t, b))).dead = true ∨ (run s (turn (t, b))).dead = false ∧ Quiet (run s (turn (t, b)))) := by
  obtain ⟨b', -, he⟩ := turn_eq hd hq t b
  rw [he]
  have hquiet : ∀ p : Pc, (p = .out ∨ ∃ b, p = .want b) → ∀ q : Pc, ∀ u,
      upd (upd s.pc t q) t p u = .out ∨ ∃ b, upd (upd s.pc t q) t p u = .want b := by
    intro p hp q u
    simp only [upd_upd]
    by_cases hu : u = t
    · rw [hu, upd_same]; exact hp
    · rw [upd_ne hu]; exact hq u
  have hdep : ∀ n, n ≤ s.depth t + 1 → ∀ u, upd s.depth t n u ≤ s.depth u + 1 := by
    intro n hn u
    by_cases hu : u = t
    · rw [hu, upd_same]; exact hn
    · rw [upd_ne hu]; omega
  cases b' with
  | true =>
    rw [if_pos rfl]
    unfold acquire
    split_ifs with h
    · exact ⟨hdep _ le_rfl, Or.inr ⟨hd, fun u => hquiet .out (Or.inl rfl) _ u⟩⟩
    · exact ⟨fun u => Nat.le_succ _, Or.inr ⟨hd, fun u => hquiet (.want true) (Or.inr ⟨true, rfl⟩) _ u⟩⟩
  | false =>
    rw [if_neg (by simp)]
    unfold release
    by_cases h : pid t ≠ s.lock &&& 0xFFFFFF ∧ 0 < s.lock.toInt
    · rw [if_pos h]
      exact ⟨fun u => Nat.le_succ _, Or.inl rfl⟩
    · rw [if_neg h]
      exact ⟨hdep _ (by show s.depth t - 1 ≤ _; omega), Or.inr ⟨hd, fun u => hquiet .out (Or.inl rfl) _ u⟩⟩

/-- C134: as long as no more than 127 calls are made there is no condition on the depth. -/
theorem C134_short (cs : List (Nat × Bool)) (ht : ∀ c ∈ cs, c.1 < 16777216) (hlen : cs.length ≤ 127) (t u : Nat)
    (h1 : 0 < (run start (cs.flatMap turn)).depth t) (h2 : 0 < (run start (cs.flatMap turn)).depth u) : t = u := by
  have key : ∀ k, (∀ u, (run start ((cs.take k).flatMap turn)).depth u ≤ min k cs.length) ∧
      ((run start ((cs.take k).flatMap turn)).dead = true ∨ (run start ((cs.take k).flatMap turn)).dead = false ∧
        Quiet (run start ((cs.take k).flatMap turn))) := by
    intro k
    induction k with
    | zero => exact ⟨fun _ => le_of_eq (by simp [run, start]), Or.inr ⟨rfl, fun _ => Or.inl rfl⟩⟩
    | succ k ih =>
      by_cases hk : k < cs.length
      · rw [List.take_succ_eq_append_getElem hk, List.flatMap_append, run_append]
        have hfm : [cs[k]].flatMap turn = turn (cs[k].1, cs[k].2) := by simp
        rw [hfm]
        obtain ⟨i1, i2⟩ := ih
        rcases i2 with hd | ⟨hd, hq⟩
        · rw [run_dead hd]
          exact ⟨fun u => (i1 u).trans (by omega), Or.inl hd⟩
        · obtain ⟨j1, j2⟩ := turn_depth hd hq cs[k].1 cs[k].2
          exact ⟨fun u => (j1 u).trans (by have := i1 u; omega), j2⟩
      · rw [List.take_of_length_le (by omega)]
        rw [List.take_of_length_le (by omega)] at ih
        exact ⟨fun u => (ih.1 u).trans (by omega), ih.2⟩
  have := C134_partial cs ht (fun k u => ((key k).1 u).trans (by omega)) cs.length t u
  rw [List.take_length] at this
  exact this h1 h2

/-- Thread 2 asks in vain while thread 1 holds the lock, and holds it alone later. -/
example : ([(1, true), (2, true), (1, false), (2, true)] : List (Nat × Bool)).length ≤ 127 ∧
    0 < (run start ([(1, true), (2, true), (1, false), (2, true)].flatMap turn)).depth 2 := by decide +kernel

/-- Thread 2 gives back what thread 1 holds. -/
example : (run start ([(1, true), (2, false)].flatMap turn)).dead = true := by decide +kernel

end Verif.UserLock
