import Verif.WhiteBoardStep

/-!
`c_wb_check` with its callbacks, `c_wb_checkpoint` and `c_wb_reload` on a whole whiteboard.
-/
namespace WhiteBoard

/-- The callback keeps what the layout depends on. -/
def Quiet (cb : Flags → Option Flags) : Prop :=
  ∀ f g, cb f = some g → g.type = f.type ∧ g.array = f.array ∧
    g.elementsize = f.elementsize ∧ g.lines = f.lines

/-- The variable is selected. -/
def hit (m : Mask) (name : List Byte) (e : Ent) : Bool :=
  m.test e.fl && matchName (e.key ++ [0#8]) name name.length

/-- What happens to one variable; `whole` when the walk went to the end. -/
def Upd (m : Mask) (name : List Byte) (cb : Flags → Option Flags) (whole : Prop) (e e' : Ent) :
    Prop :=
  (e' = e ∧ (whole → hit m name e = false)) ∨
  (hit m name e = true ∧ ∃ g, cb e.fl = some g ∧ e' = { e with fl := g })

theorem Upd.same {m : Mask} {name : List Byte} {cb : Flags → Option Flags} {whole : Prop}
    {e e' : Ent} (hq : Quiet cb) (h : Upd m name cb whole e e') : Same e e' := by
  rcases h with ⟨rfl, _⟩ | ⟨_, g, hg, rfl⟩
  · exact Same.refl _
  · exact Same.flags e g (hq _ _ hg)

theorem forall2_refl {P : Ent → Ent → Prop} (h : ∀ e, P e e) (es : List Ent) :
    List.Forall₂ P es es := by
  induction es with
  | nil => exact .nil
  | cons e es ih => exact .cons (h e) ih

theorem checkLines_rep (m : Mask) (name : List Byte) {cb : Flags → Option Flags} (hq : Quiet cb)
    (es : List Ent) (p : Page) (A free : List Byte) (i : Nat)
    (hm : p.mem = A ++ (es.flatMap Ent.enc ++ free)) (hA : A.length = 40 * i)
    (hok : ∀ e ∈ es, EntOk e) :
    ∃ es' c b, checkLines m name cb (offs i es) p =
        some ({ p with mem := A ++ (es'.flatMap Ent.enc ++ free) }, c, b) ∧
      List.Forall₂ (Upd m name cb (b = false)) es es' ∧
      (b = true → ∃ e ∈ es, hit m name e = true ∧ cb e.fl = none) := by
  induction es generalizing p A i with
  | nil =>
    refine ⟨[], 0, false, ?_, .nil, by simp⟩
    show some (p, 0, false) = _
    rw [← hm]
  | cons e es ih =>
    have he := hok e (by simp)
    have hat : At p i e A (es.flatMap Ent.enc ++ free) :=
      ⟨by rw [hm, List.flatMap_cons, List.append_assoc], hA, he.key⟩
    unfold offs checkLines
    rw [hat.flagsAt he.valid, hat.nameAt]
    have hlen : ∀ x, Same e x → (A ++ x.enc).length = 40 * (i + e.span) := by
      intro x hx
      rw [List.length_append, hA, (hx.ok he).enc_length, hx.span]
      omega
    by_cases hh : hit m name e = true
    · have hh' := hh
      unfold hit at hh'
      rw [if_pos hh']
      cases hcb : cb e.fl with
      | none =>
        refine ⟨e :: es, 1, true, ?_, forall2_refl (fun x => .inl ⟨rfl, by simp⟩) _,
          fun _ => ⟨e, by simp, hh, hcb⟩⟩
        simp only []
        rw [← hm]
      | some g =>
        simp only []
        rw [hat.setFlags]
        have hs : Same e { e with fl := g } := Same.flags e g (hq _ _ hcb)
        obtain ⟨es', c, b, h1, h2, h3⟩ := ih
          (put_at p A (es.flatMap Ent.enc ++ free) { e with fl := g })
          (A ++ Ent.enc { e with fl := g }) (i + e.span)
          (by unfold put_at; simp [List.append_assoc]) (hlen _ hs)
          (fun x hx => hok x (by simp [hx]))
        refine ⟨{ e with fl := g } :: es', c + 1, b, ?_, .cons (.inr ⟨hh, g, hcb, rfl⟩) h2, ?_⟩
        · show (checkLines m name cb (offs (i + e.span) es) _).bind _ = _
          rw [h1]
          simp [put_at, List.append_assoc]
        · intro hb
          obtain ⟨x, hx, hxx⟩ := h3 hb
          exact ⟨x, by simp [hx], hxx⟩
    · have hh' := hh
      unfold hit at hh'
      rw [if_neg hh']
      obtain ⟨es', c, b, h1, h2, h3⟩ := ih p (A ++ e.enc) (i + e.span)
        (by rw [hm, List.flatMap_cons]; simp [List.append_assoc]) (hlen _ (Same.refl e))
        (fun x hx => hok x (by simp [hx]))
      refine ⟨e :: es', c, b, ?_, .cons (.inl ⟨rfl, fun _ => by simpa using hh⟩) h2, ?_⟩
      · rw [h1]
        simp [List.append_assoc]
      · intro hb
        obtain ⟨x, hx, hxx⟩ := h3 hb
        exact ⟨x, by simp [hx], hxx⟩

theorem same_sum {es es' : List Ent} (h : List.Forall₂ Same es es') :
    (es'.map Ent.span).sum = (es.map Ent.span).sum := by
  induction h with
  | nil => rfl
  | cons hs _ ih => simp [hs.span, ih]

theorem same_ok {es es' : List Ent} (h : List.Forall₂ Same es es') (ho : ∀ e ∈ es, EntOk e) :
    ∀ e ∈ es', EntOk e := by
  induction h with
  | nil => simp
  | cons hs _ ih =>
    intro x hx
    rcases List.mem_cons.1 hx with rfl | hx
    · exact hs.ok (ho _ (by simp))
    · exact ih (fun e he => ho e (by simp [he])) x hx

theorem same_keys {es es' : List Ent} (h : List.Forall₂ Same es es') :
    es'.map Ent.key = es.map Ent.key := by
  induction h with
  | nil => rfl
  | cons hs _ ih => simp [hs.key, ih]

theorem Rep.update {p : Page} {es es' : List Ent} (h : Rep p es)
    (hs : List.Forall₂ Same es es') {free : List Byte} (hf : p.mem = es.flatMap Ent.enc ++ free) :
    Rep { p with mem := es'.flatMap Ent.enc ++ free } es' := by
  have ho' := same_ok hs h.ok
  have hsum := same_sum hs
  refine ⟨⟨free, rfl⟩, ?_, by rw [hsum]; exact h.used, ho', ?_, h.bound, h.pos⟩
  · have h1 := enc_sum h.ok
    have h2 := enc_sum ho'
    have h3 := h.len
    rw [hf, List.length_append, h1] at h3
    simp only [List.length_append, h2, hsum]
    exact h3
  · rcases h.big with hb | ⟨⟨e, rfl⟩, hb⟩
    · exact .inl hb
    · right
      refine ⟨?_, hb⟩
      cases hs with
      | cons _ hn =>
        cases hn
        exact ⟨_, rfl⟩

theorem forall2_same {m : Mask} {name : List Byte} {cb : Flags → Option Flags} {whole : Prop}
    (hq : Quiet cb) {es es' : List Ent} (h : List.Forall₂ (Upd m name cb whole) es es') :
    List.Forall₂ Same es es' := h.imp fun _ _ hu => hu.same hq

theorem check_rep (m : Mask) (name : List Byte) {cb : Flags → Option Flags} (hq : Quiet cb)
    {w : List Page} {ess : List (List Ent)} (h : List.Forall₂ Rep w ess) :
    ∃ w' c ess', check m name cb w = some (w', c) ∧ List.Forall₂ Rep w' ess' ∧
      List.Forall₂ (List.Forall₂ (Upd m name cb (0 ≤ c))) ess ess' ∧
      (c < 0 → c = -1008 ∧ ∃ e ∈ ess.flatten, hit m name e = true ∧ cb e.fl = none) := by
  induction h with
  | nil => exact ⟨[], 0, [], rfl, .nil, .nil, by omega⟩
  | cons hp hr ih =>
    rename_i p es w ess
    obtain ⟨free, hf⟩ := hp.mem
    obtain ⟨es', c, b, h1, h2, h3⟩ := checkLines_rep m name hq es p [] free 0
      (by simpa using hf) rfl hp.ok
    have hrep := hp.update (forall2_same hq h2) hf
    unfold check
    rw [hp.starts, h1]
    simp only [Option.bind_eq_bind, Option.bind_some, List.nil_append]
    cases b with
    | true =>
      simp only [if_true]
      obtain ⟨e, he, hh, hn⟩ := h3 rfl
      refine ⟨_, _, es' :: ess, rfl, .cons hrep hr, .cons ?_ ?_, fun _ => ⟨rfl, e, ?_, hh, hn⟩⟩
      · exact h2.imp fun _ _ hu => hu.imp_left fun ⟨a, _⟩ => ⟨a, by omega⟩
      · clear ih hr
        induction ess with
        | nil => exact .nil
        | cons a l ih => exact .cons (forall2_refl (fun x => .inl ⟨rfl, by omega⟩) _) ih
      · rw [List.flatten_cons]
        exact List.mem_append_left _ he
    | false =>
      simp only [Bool.false_eq_true, if_false]
      obtain ⟨w', d, ess', g1, g2, g3, g4⟩ := ih
      rw [g1]
      simp only [Option.bind_some]
      refine ⟨_, _, es' :: ess', rfl, .cons hrep g2, ?_, ?_⟩
      · have hiff : 0 ≤ (if d < 0 then d else d + (c : Int)) ↔ 0 ≤ d := by
          split <;> omega
        refine .cons ?_ ?_
        · exact h2.imp fun _ _ hu => hu.imp_left fun ⟨a, hb⟩ => ⟨a, fun _ => hb rfl⟩
        · refine g3.imp fun _ _ hl => hl.imp fun _ _ hu => hu.imp_left fun ⟨a, hb⟩ => ⟨a, fun hx => hb (hiff.1 hx)⟩
      · intro hneg
        have hd : d < 0 := by
          split at hneg <;> omega
        rw [if_pos hd]
        obtain ⟨hc, e, he, hx⟩ := g4 hd
        refine ⟨hc, e, ?_, hx⟩
        rw [List.flatten_cons]
        exact List.mem_append_right _ he

theorem forall2_flatten {P : Ent → Ent → Prop} {a b : List (List Ent)}
    (h : List.Forall₂ (List.Forall₂ P) a b) : List.Forall₂ P a.flatten b.flatten := by
  induction h with
  | nil => exact .nil
  | cons h1 _ ih =>
    rw [List.flatten_cons, List.flatten_cons]
    exact List.rel_append h1 ih

/-- Corresponding variables are found under the same name. -/
theorem find_forall2 {P : Ent → Ent → Prop} (hk : ∀ e e', P e e' → e'.key = e.key)
    {es es' : List Ent} (h : List.Forall₂ P es es') (k : List Byte) :
    (findEnt es k = none ∧ findEnt es' k = none) ∨
    (∃ e e', findEnt es k = some e ∧ findEnt es' k = some e' ∧ P e e') := by
  induction h with
  | nil => exact .inl ⟨rfl, rfl⟩
  | cons hp ht ih =>
    rename_i e e' es es'
    by_cases hek : e.key = k
    · refine .inr ⟨e, e', ?_, ?_, hp⟩
      · exact findEnt_split (es₁ := []) (by simp) hek
      · exact findEnt_split (es₁ := []) (by simp) (by rw [hk _ _ hp, hek])
    · have h1 : findEnt (e :: es) k = findEnt es k := findEnt_insert (a := []) hek
      have h2 : findEnt (e' :: es') k = findEnt es' k :=
        findEnt_insert (a := []) (by rw [hk _ _ hp]; exact hek)
      rw [h1, h2]
      exact ih

/-- The effect of `c_wb_check` on a whole whiteboard. -/
theorem check_R {m : Mask} {name : List Byte} {cb : Flags → Option Flags} (hq : Quiet cb)
    {w : List Page} {ess : List (List Ent)} (h : R w ess) :
    ∃ w' c ess', check m name cb w = some (w', c) ∧ R w' ess' ∧
      (∀ k, (findEnt ess.flatten k = none ∧ findEnt ess'.flatten k = none) ∨
        (∃ e e', findEnt ess.flatten k = some e ∧ findEnt ess'.flatten k = some e' ∧
          Upd m name cb (0 ≤ c) e e')) ∧
      (c < 0 → c = -1008 ∧ ∃ e ∈ ess.flatten, hit m name e = true ∧ cb e.fl = none) := by
  obtain ⟨w', c, ess', h1, h2, h3, h4⟩ := check_rep m name hq h.pages
  have hf := forall2_flatten h3
  refine ⟨w', c, ess', h1, ⟨h2, ?_⟩, ?_, h4⟩
  · rw [same_keys (forall2_same hq hf)]
    exact h.nodup
  · intro k
    exact find_forall2 (fun e e' hu => (Upd.same hq hu).key) hf k

theorem quiet_readOnly : Quiet cbReadOnly := by
  intro f g h
  unfold cbReadOnly at h
  split at h
  · cases h
    exact ⟨rfl, rfl, rfl, rfl⟩
  · cases h

theorem quiet_readWrite : Quiet cbReadWrite := by
  intro f g h
  cases h
  exact ⟨rfl, rfl, rfl, rfl⟩

theorem quiet_undefined : Quiet cbUndefined := by
  intro f g h
  cases h
  exact ⟨rfl, rfl, rfl, rfl⟩

theorem quiet_fromRestart : Quiet cbFromRestart := by
  intro f g h
  cases h
  exact ⟨rfl, rfl, rfl, rfl⟩

/-! ### Checkpoint and reload -/

theorem reloadPages_eq {w : List Page} {ess : List (List Ent)} (h : List.Forall₂ Rep w ess)
    (acc : List Page) (tail : List Byte) (fuel : Nat) (hf : w.length < fuel) :
    reloadPages fuel ((w.flatMap fun p => le32 p.nbLines ++ le32 p.firstFree ++ p.mem) ++
      (le32 0 ++ tail)) acc = some (w.reverse ++ acc) := by
  induction h generalizing acc fuel with
  | nil =>
    cases fuel with
    | zero => simp at hf
    | succ fuel =>
      unfold reloadPages
      simp only [List.flatMap_nil, List.nil_append]
      rw [if_neg (by simp [le32_length]), rd32_le32, if_pos (by decide)]
      rfl
  | cons hp hr ih =>
    rename_i p es w ess
    cases fuel with
    | zero => simp at hf
    | succ fuel =>
      have hb := hp.bound
      have hpos := hp.pos
      have hfit := hp.fits
      have hlen := hp.len
      unfold reloadPages
      generalize hT : (w.flatMap fun p => le32 p.nbLines ++ le32 p.firstFree ++ p.mem) = T at ih
      have hfile : (List.flatMap (fun p => le32 p.nbLines ++ le32 p.firstFree ++ p.mem) (p :: w)) ++
          (le32 0 ++ tail) = le32 p.nbLines ++ (le32 p.firstFree ++ (p.mem ++ (T ++ (le32 0 ++ tail)))) := by
        rw [List.flatMap_cons, hT]
        simp [List.append_assoc]
      rw [hfile]
      rw [if_neg (by simp [le32_length]), rd32_le32, Nat.mod_eq_of_lt (by omega)]
      rw [if_neg (by unfold int32; rw [if_pos hb]; omega)]
      have hd : (le32 p.nbLines ++ (le32 p.firstFree ++ (p.mem ++ (T ++ (le32 0 ++ tail))))).drop 4 =
          le32 p.firstFree ++ (p.mem ++ (T ++ (le32 0 ++ tail))) := by
        rw [show (4 : Nat) = (le32 p.nbLines).length from rfl, List.drop_left]
      have hd2 : (le32 p.firstFree ++ (p.mem ++ (T ++ (le32 0 ++ tail)))).drop 4 =
          p.mem ++ (T ++ (le32 0 ++ tail)) := by
        rw [show (4 : Nat) = (le32 p.firstFree).length from rfl, List.drop_left]
      simp only [hd]
      rw [if_neg (by simp only [List.length_append, le32_length, hlen]; omega), ← List.drop_drop,
        hd2, rd32_le32, Nat.mod_eq_of_lt (by omega), ← hlen, List.drop_left, List.take_left]
      rw [ih _ fuel (by simpa using hf)]
      simp

theorem R_reverse {w : List Page} {ess : List (List Ent)} (h : R w ess) :
    R w.reverse ess.reverse := by
  refine ⟨List.rel_reverse h.pages, ?_⟩
  have hp : ess.reverse.flatten.Perm ess.flatten := (List.reverse_perm ess).flatten
  exact (hp.map Ent.key).nodup_iff.2 h.nodup

theorem find_mem {es : List Ent} (h : (es.map Ent.key).Nodup) {k : List Byte} {e : Ent} :
    findEnt es k = some e ↔ e ∈ es ∧ e.key = k := by
  constructor
  · intro hf
    unfold findEnt at hf
    have h1 := List.mem_of_find?_eq_some hf
    have h2 := List.find?_some hf
    exact ⟨h1, by simpa using h2⟩
  · rintro ⟨hm, hk⟩
    obtain ⟨a, b, rfl⟩ := List.append_of_mem hm
    refine findEnt_split ?_ hk
    intro x hx hxk
    rw [List.map_append, List.map_cons, List.nodup_append] at h
    refine h.2.2 x.key (List.mem_map_of_mem hx) e.key (by simp) ?_
    rw [hxk, hk]

theorem find_perm {es es' : List Ent} (h : (es.map Ent.key).Nodup) (hp : es'.Perm es)
    (k : List Byte) : findEnt es' k = findEnt es k := by
  have h' : (es'.map Ent.key).Nodup := (hp.map Ent.key).nodup_iff.2 h
  cases hf : findEnt es k with
  | some e =>
    rw [find_mem h] at hf
    rw [find_mem h']
    exact ⟨hp.mem_iff.2 hf.1, hf.2⟩
  | none =>
    cases hf' : findEnt es' k with
    | none => rfl
    | some e =>
      rw [find_mem h'] at hf'
      have := (find_mem h).2 ⟨hp.mem_iff.1 hf'.1, hf'.2⟩
      rw [hf] at this
      cases this

/-- A variable after a restart. -/
structure Restarted (e e' : Ent) : Prop where
  key : e'.key = e.key
  area : e'.area = e.area
  type : e'.fl.type = e.fl.type
  arr : e'.fl.array = e.fl.array
  size : e'.fl.elementsize = e.fl.elementsize
  global : e.fl.islocal = false → e'.fl.initialized = e.fl.initialized ∧ e'.fl.badval = e.fl.badval
  loc : e.fl.islocal = true → e'.fl.initialized = false ∧ e'.fl.badval = false
  readonly : e.fl.readonly = true → e'.fl.readonly = true
  restart : e'.fl.fromrestart = true
  isloc : e'.fl.islocal = e.fl.islocal

theorem reload_R {w : List Page} {ess : List (List Ent)} (h : R w ess) (tail : List Byte) :
    ∃ w' ess', reload [] (checkpoint w ++ tail) = some (w', 0) ∧ R w' ess' ∧
      ∀ k, (findEnt ess.flatten k = none ∧ findEnt ess'.flatten k = none) ∨
        (∃ e e', findEnt ess.flatten k = some e ∧ findEnt ess'.flatten k = some e' ∧
          Restarted e e' ∧
          ((∀ x ∈ ess.flatten, x.fl.noreset = true → x.fl.initialized = true) →
            e.fl.noreset = true → e'.fl.readonly = true)) := by
  unfold reload
  simp only [List.isEmpty_nil, not_true, if_false]
  have htake : (checkpoint w ++ tail).take 8 = signature := by
    unfold checkpoint
    rw [List.append_assoc, List.append_assoc, show (8 : Nat) = signature.length from rfl,
      List.take_left]
  have hdrop : (checkpoint w ++ tail).drop 8 =
      (w.flatMap fun p => le32 p.nbLines ++ le32 p.firstFree ++ p.mem) ++ (le32 0 ++ tail) := by
    unfold checkpoint
    rw [List.append_assoc, List.append_assoc, show (8 : Nat) = signature.length from rfl,
      List.drop_left]
  have hfuel : w.length < (checkpoint w ++ tail).length + 1 := by
    unfold checkpoint
    have : ∀ v : List Page, v.length ≤
        (v.flatMap fun p => le32 p.nbLines ++ le32 p.firstFree ++ p.mem).length := by
      intro v
      induction v with
      | nil => simp
      | cons a v ih =>
        rw [List.flatMap_cons]
        simp only [List.length_append, List.length_cons, le32_length]
        omega
    have := this w
    simp only [List.length_append]
    omega
  rw [htake, hdrop]
  simp only [ne_eq, not_true, if_false]
  have hpages := reloadPages_eq h.pages [] tail _ hfuel
  rw [List.append_nil] at hpages
  rw [hpages]
  simp only [Option.bind_eq_bind, Option.bind_some]
  have hr := R_reverse h
  obtain ⟨w1, c1, ess1, e1, r1, k1, _⟩ := check_R (m := .rewriteAtRestart) (name := [])
    quiet_readWrite hr
  rw [e1]
  simp only [Option.bind_some]
  obtain ⟨w2, c2, ess2, e2, r2, k2, n2⟩ := check_R (m := .readOnlyOnRestart) (name := [])
    quiet_readOnly r1
  rw [e2]
  simp only [Option.bind_some]
  obtain ⟨w3, c3, ess3, e3, r3, k3, n3⟩ := check_R (m := .isLocal) (name := [])
    quiet_undefined r2
  rw [e3]
  simp only [Option.bind_some]
  obtain ⟨w4, c4, ess4, e4, r4, k4, n4⟩ := check_R (m := .all) (name := []) quiet_fromRestart r3
  rw [e4]
  simp only [Option.bind_some]
  have hperm : ess.reverse.flatten.Perm ess.flatten := (List.reverse_perm ess).flatten
  have hmatch : ∀ e : Ent, matchName (e.key ++ [0#8]) [] ([] : List Byte).length = true := by
    intro e
    cases e.key <;> rfl
  have p3 : 0 ≤ c3 := by
    refine Int.not_lt.1 fun hneg => ?_
    obtain ⟨_, e, _, _, hn⟩ := n3 hneg
    cases hn
  have p4 : 0 ≤ c4 := by
    refine Int.not_lt.1 fun hneg => ?_
    obtain ⟨_, e, _, _, hn⟩ := n4 hneg
    cases hn
  refine ⟨w4, ess4, rfl, r4, fun k => ?_⟩
  rw [← find_perm h.nodup hperm k]
  rcases k1 k with ⟨a, b⟩ | ⟨x0, x1, a0, a1, u1⟩
  · left
    refine ⟨a, ?_⟩
    rcases k2 k with ⟨_, b2⟩ | ⟨x, _, hx, _⟩
    · rcases k3 k with ⟨_, b3⟩ | ⟨x, _, hx, _⟩
      · rcases k4 k with ⟨_, b4⟩ | ⟨x, _, hx, _⟩
        · exact b4
        · rw [b3] at hx; cases hx
      · rw [b2] at hx; cases hx
    · rw [b] at hx; cases hx
  · right
    rcases k2 k with ⟨b, _⟩ | ⟨y1, x2, a1', a2, u2⟩
    · rw [a1] at b; cases b
    rw [a1] at a1'
    cases a1'
    rcases k3 k with ⟨b, _⟩ | ⟨y2, x3, a2', a3, u3⟩
    · rw [a2] at b; cases b
    rw [a2] at a2'
    cases a2'
    rcases k4 k with ⟨b, _⟩ | ⟨y3, x4, a3', a4, u4⟩
    · rw [a3] at b; cases b
    rw [a3] at a3'
    cases a3'
    refine ⟨x0, x4, a0, a4, ?_⟩
    -- first walk: no variable is ever selected
    have q1 : x1 = x0 := by
      rcases u1 with ⟨q, _⟩ | ⟨hh, _⟩
      · exact q
      · simp [hit, Mask.test] at hh
    subst q1
    -- last walk: every variable
    have q4 : x4 = { x3 with fl := { x3.fl with fromrestart := true } } := by
      rcases u4 with ⟨_, hw⟩ | ⟨_, g, hg, q⟩
      · have := hw p4
        unfold hit at this
        rw [hmatch] at this
        simp [Mask.test] at this
      · cases hg
        exact q
    subst q4
    -- second walk
    have q2 : (x2 = x1 ∨ x2 = { x1 with fl := { x1.fl with readonly := true, resetmany := false } })
        ∧ (0 ≤ c2 → x1.fl.noreset = true → x2.fl.readonly = true) := by
      rcases u2 with ⟨q, hw⟩ | ⟨_, g, hg, q⟩
      · refine ⟨.inl q, fun hc hn => ?_⟩
        have := hw hc
        unfold hit at this
        rw [hmatch] at this
        simp [Mask.test, hn] at this
      · unfold cbReadOnly at hg
        split at hg
        · cases hg
          exact ⟨.inr q, fun _ _ => by rw [q]⟩
        · cases hg
    have q3 : (x2.fl.islocal = false ∧ x3 = x2) ∨
        (x2.fl.islocal = true ∧
          x3 = { x2 with fl := { x2.fl with initialized := false, badval := false } }) := by
      rcases u3 with ⟨q, hw⟩ | ⟨hh, g, hg, q⟩
      · left
        refine ⟨?_, q⟩
        have := hw p3
        unfold hit at this
        rw [hmatch] at this
        simpa [Mask.test] using this
      · right
        refine ⟨?_, ?_⟩
        · unfold hit at hh
          rw [hmatch] at hh
          simpa [Mask.test] using hh
        · cases hg
          exact q
    refine ⟨?_, ?_⟩
    · rcases q2.1 with rfl | rfl <;> rcases q3 with ⟨hl, rfl⟩ | ⟨hl, rfl⟩ <;>
        exact ⟨rfl, rfl, rfl, rfl, rfl, by simp_all, by simp_all, by simp_all, rfl, rfl⟩
    · intro hall hn
      have hc2 : 0 ≤ c2 := by
        refine Int.not_lt.1 fun hneg => ?_
        obtain ⟨_, e, hmem, hh, hnone⟩ := n2 hneg
        -- the walk before changed nothing
        have hfe : findEnt ess1.flatten e.key = some e := (find_mem r1.nodup).2 ⟨hmem, rfl⟩
        rcases k1 e.key with ⟨_, hb⟩ | ⟨z0, z1, hz0, hz1, uz⟩
        · rw [hfe] at hb; cases hb
        · rw [hfe] at hz1
          cases hz1
          have : e = z0 := by
            rcases uz with ⟨q, _⟩ | ⟨hx, _⟩
            · exact q
            · simp [hit, Mask.test] at hx
          subst this
          rw [find_perm h.nodup hperm] at hz0
          have hmem0 := ((find_mem h.nodup).1 hz0).1
          have hni : e.fl.noreset = true := by
            unfold hit at hh
            rw [hmatch] at hh
            simpa [Mask.test] using hh
          have := hall e hmem0 hni
          unfold cbReadOnly at hnone
          rw [if_pos this] at hnone
          cases hnone
      have hro := q2.2 hc2 hn
      rcases q3 with ⟨_, rfl⟩ | ⟨_, rfl⟩
      · exact hro
      · exact hro

end WhiteBoard
