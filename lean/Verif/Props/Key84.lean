import Verif.Key84
import Mathlib.Tactic
import Verif.Props.BitSlicer

namespace Verif.Key84

/-! # C155: the ip and the ig form of a key of 84 bits -/

open Verif Verif.BitSlicer

/-- The number of 84 bits with the digits `p`, in base 2^28. -/
def ipNum (p : List W) : Nat := p.foldl (fun a w => a * 2 ^ 28 + w.toNat % 2 ^ 28) 0

/-- The number of 84 bits with the digits `g`, in base 2^21. -/
def igNum (g : List W) : Nat := g.foldl (fun a w => a * 2 ^ 21 + w.toNat % 2 ^ 21) 0

theorem toBits_cat (a b x y : Nat) : toBits a x ++ toBits b y = toBits (a + b) (x * 2 ^ b + y % 2 ^ b) := by
  rw [toBits_append, Nat.shiftRight_eq_div_pow]
  congr 1
  · rw [Nat.add_comm, Nat.add_mul_div_right _ _ (Nat.two_pow_pos _), Nat.div_eq_of_lt (Nat.mod_lt _ (Nat.two_pow_pos _)), Nat.zero_add]
  · rw [← toBits_mod b y, ← toBits_mod b (x * 2 ^ b + y % 2 ^ b)]
    congr 1
    rw [Nat.add_comm, Nat.add_mul_mod_self_right, Nat.mod_mod]

theorem ip_bits (a b c : W) : slicesBits (List.zip [28, 28, 28] [a, b, c]) = toBits 84 (ipNum [a, b, c]) := by
  have e : slicesBits (List.zip [28, 28, 28] [a, b, c]) = (toBits 28 a.toNat ++ toBits 28 b.toNat) ++ toBits 28 c.toNat := by
    simp [slicesBits, width]
  rw [e, toBits_cat, toBits_cat, ← toBits_mod, ← toBits_mod 84]
  congr 1
  simp only [ipNum, List.foldl_cons, List.foldl_nil]
  omega

theorem ig_bits (a b c d : W) : slicesBits (List.zip [21, 21, 21, 21] [a, b, c, d]) = toBits 84 (igNum [a, b, c, d]) := by
  have e : slicesBits (List.zip [21, 21, 21, 21] [a, b, c, d]) =
      ((toBits 21 a.toNat ++ toBits 21 b.toNat) ++ toBits 21 c.toNat) ++ toBits 21 d.toNat := by
    simp [slicesBits, width]
  rw [e, toBits_cat, toBits_cat, toBits_cat, ← toBits_mod, ← toBits_mod 84]
  congr 1
  simp only [igNum, List.foldl_cons, List.foldl_nil]
  omega

theorem mask (v : W) {k : Nat} (hk : k < 32) : (v &&& BitVec.ofNat 32 (2 ^ k - 1)).toNat = v.toNat % 2 ^ k := by
  have : 2 ^ k < 2 ^ 32 := Nat.pow_lt_pow_right (by decide) hk
  have : 0 < 2 ^ k := Nat.two_pow_pos _
  rw [BitVec.toNat_and, BitVec.toNat_ofNat, Nat.mod_eq_of_lt (by omega), Nat.and_two_pow_sub_one_eq_mod]

/-- Three words which begin with the bits of a number of 84 bits give it back as ip. -/
theorem ip_get (junk : W) (k : List W) (N : Nat) (hN : N < 2 ^ 84) (r : List Bool) (hk : memBits k = toBits 84 N ++ r) :
    ∃ a b c, ipGet junk k = some [a, b, c] ∧ a.toNat < 2 ^ 28 ∧ b.toNat < 2 ^ 28 ∧ c.toNat < 2 ^ 28 ∧ ipNum [a, b, c] = N := by
  let x : W := BitVec.ofNat 32 (N / 2 ^ 56)
  let y : W := BitVec.ofNat 32 (N / 2 ^ 28 % 2 ^ 28)
  let z : W := BitVec.ofNat 32 (N % 2 ^ 28)
  have hx : x.toNat = N / 2 ^ 56 := by simp only [x, BitVec.toNat_ofNat]; omega
  have hy : y.toNat = N / 2 ^ 28 % 2 ^ 28 := by simp only [y, BitVec.toNat_ofNat]; omega
  have hz : z.toNat = N % 2 ^ 28 := by simp only [z, BitVec.toNat_ofNat]; omega
  have hn : ipNum [x, y, z] = N := by
    simp only [ipNum, List.foldl_cons, List.foldl_nil, hx, hy, hz]; omega
  have hb := ip_bits x y z
  rw [hn] at hb
  have h := getLoop_spec (List.zip [28, 28, 28] [x, y, z]) 0 { rest := k, left := 0, mybits := junk } r (by simp)
    (by rw [hb]; simpa [Get.bits] using hk) (by simp only [Get.bits, List.length_append, memBits_length, toBits_length]; omega)
    (Or.inr (by simp [width])) (by simp [NoAligned32, width])
  refine ⟨_, _, _, h, ?_, ?_, ?_, ?_⟩
  · simp only [show width 28 = 28 from rfl, mask _ (show 28 < 32 by omega)]; omega
  · simp only [show width 28 = 28 from rfl, mask _ (show 28 < 32 by omega)]; omega
  · simp only [show width 28 = 28 from rfl, mask _ (show 28 < 32 by omega)]; omega
  · rw [← hn]
    simp only [ipNum, List.foldl_cons, List.foldl_nil, show width 28 = 28 from rfl, mask _ (show 28 < 32 by omega)]
    omega

/-- And as ig. -/
theorem ig_get (junk : W) (k : List W) (N : Nat) (hN : N < 2 ^ 84) (r : List Bool) (hk : memBits k = toBits 84 N ++ r) :
    ∃ a b c d, igGet junk k = some [a, b, c, d] ∧ a.toNat < 2 ^ 21 ∧ b.toNat < 2 ^ 21 ∧ c.toNat < 2 ^ 21 ∧ d.toNat < 2 ^ 21 ∧
      igNum [a, b, c, d] = N := by
  let x : W := BitVec.ofNat 32 (N / 2 ^ 63)
  let y : W := BitVec.ofNat 32 (N / 2 ^ 42 % 2 ^ 21)
  let z : W := BitVec.ofNat 32 (N / 2 ^ 21 % 2 ^ 21)
  let u : W := BitVec.ofNat 32 (N % 2 ^ 21)
  have hx : x.toNat = N / 2 ^ 63 := by simp only [x, BitVec.toNat_ofNat]; omega
  have hy : y.toNat = N / 2 ^ 42 % 2 ^ 21 := by simp only [y, BitVec.toNat_ofNat]; omega
  have hz : z.toNat = N / 2 ^ 21 % 2 ^ 21 := by simp only [z, BitVec.toNat_ofNat]; omega
  have hu : u.toNat = N % 2 ^ 21 := by simp only [u, BitVec.toNat_ofNat]; omega
  have hn : igNum [x, y, z, u] = N := by
    simp only [igNum, List.foldl_cons, List.foldl_nil, hx, hy, hz, hu]; omega
  have hb := ig_bits x y z u
  rw [hn] at hb
  have h := getLoop_spec (List.zip [21, 21, 21, 21] [x, y, z, u]) 0 { rest := k, left := 0, mybits := junk } r (by simp)
    (by rw [hb]; simpa [Get.bits] using hk) (by simp only [Get.bits, List.length_append, memBits_length, toBits_length]; omega)
    (Or.inr (by simp [width])) (by simp [NoAligned32, width])
  refine ⟨_, _, _, _, h, ?_, ?_, ?_, ?_, ?_⟩
  · simp only [show width 21 = 21 from rfl, mask _ (show 21 < 32 by omega)]; omega
  · simp only [show width 21 = 21 from rfl, mask _ (show 21 < 32 by omega)]; omega
  · simp only [show width 21 = 21 from rfl, mask _ (show 21 < 32 by omega)]; omega
  · simp only [show width 21 = 21 from rfl, mask _ (show 21 < 32 by omega)]; omega
  · rw [← hn]
    simp only [igNum, List.foldl_cons, List.foldl_nil, show width 21 = 21 from rfl, mask _ (show 21 < 32 by omega)]
    omega

theorem ipNum_lt (a b c : W) : ipNum [a, b, c] < 2 ^ 84 := by
  simp only [ipNum, List.foldl_cons, List.foldl_nil]; omega

theorem igNum_lt (a b c d : W) : igNum [a, b, c, d] < 2 ^ 84 := by
  simp only [igNum, List.foldl_cons, List.foldl_nil]; omega

theorem ipNum_inj {a b c a' b' c' : W} (ha : a.toNat < 2 ^ 28) (hb : b.toNat < 2 ^ 28) (hc : c.toNat < 2 ^ 28)
    (ha' : a'.toNat < 2 ^ 28) (hb' : b'.toNat < 2 ^ 28) (hc' : c'.toNat < 2 ^ 28) (h : ipNum [a, b, c] = ipNum [a', b', c']) :
    a = a' ∧ b = b' ∧ c = c' := by
  simp only [ipNum, List.foldl_cons, List.foldl_nil] at h
  refine ⟨?_, ?_, ?_⟩ <;> apply BitVec.eq_of_toNat_eq <;> omega

theorem igNum_inj {a b c d a' b' c' d' : W} (ha : a.toNat < 2 ^ 21) (hb : b.toNat < 2 ^ 21) (hc : c.toNat < 2 ^ 21) (hd : d.toNat < 2 ^ 21)
    (ha' : a'.toNat < 2 ^ 21) (hb' : b'.toNat < 2 ^ 21) (hc' : c'.toNat < 2 ^ 21) (hd' : d'.toNat < 2 ^ 21)
    (h : igNum [a, b, c, d] = igNum [a', b', c', d']) : a = a' ∧ b = b' ∧ c = c' ∧ d = d' := by
  simp only [igNum, List.foldl_cons, List.foldl_nil] at h
  refine ⟨?_, ?_, ?_, ?_⟩ <;> apply BitVec.eq_of_toNat_eq <;> omega

/-- **C155**, ig to ip: for any ig1 to ig4 the three ip have 28 bits each and are the same number of 84 bits. -/
theorem C155_igaip (junk a b c d : W) : ∃ x y z, igaip junk [a, b, c, d] = some [x, y, z] ∧
    x.toNat < 2 ^ 28 ∧ y.toNat < 2 ^ 28 ∧ z.toNat < 2 ^ 28 ∧
    (x.toNat * 2 ^ 28 + y.toNat) * 2 ^ 28 + z.toNat =
      ((a.toNat % 2 ^ 21 * 2 ^ 21 + b.toNat % 2 ^ 21) * 2 ^ 21 + c.toNat % 2 ^ 21) * 2 ^ 21 + d.toNat % 2 ^ 21 := by
  obtain ⟨m, e, -, ⟨r, hr⟩, -⟩ := fBitsPut_spec [0, 0, 0] (List.zip [21, 21, 21, 21] [a, b, c, d]) (by simp [total, width])
  rw [ig_bits] at hr
  obtain ⟨x, y, z, h, hx, hy, hz, hn⟩ := ip_get junk m _ (igNum_lt a b c d) r hr
  refine ⟨x, y, z, by rw [igaip, igPut, e]; exact h, hx, hy, hz, ?_⟩
  simpa only [ipNum, igNum, List.foldl_cons, List.foldl_nil, Nat.zero_mul, Nat.zero_add, Nat.mod_eq_of_lt hx, Nat.mod_eq_of_lt hy,
    Nat.mod_eq_of_lt hz] using hn

/-- C155, ip to ig. -/
theorem C155_ipaig (junk a b c : W) : ∃ x y z u, ipaig junk [a, b, c] = some [x, y, z, u] ∧
    x.toNat < 2 ^ 21 ∧ y.toNat < 2 ^ 21 ∧ z.toNat < 2 ^ 21 ∧ u.toNat < 2 ^ 21 ∧
    ((x.toNat * 2 ^ 21 + y.toNat) * 2 ^ 21 + z.toNat) * 2 ^ 21 + u.toNat =
      (a.toNat % 2 ^ 28 * 2 ^ 28 + b.toNat % 2 ^ 28) * 2 ^ 28 + c.toNat % 2 ^ 28 := by
  obtain ⟨m, e, -, ⟨r, hr⟩, -⟩ := fBitsPut_spec [0, 0, 0] (List.zip [28, 28, 28] [a, b, c]) (by simp [total, width])
  rw [ip_bits] at hr
  obtain ⟨x, y, z, u, h, hx, hy, hz, hu, hn⟩ := ig_get junk m _ (ipNum_lt a b c) r hr
  refine ⟨x, y, z, u, by rw [ipaig, ipPut, e]; exact h, hx, hy, hz, hu, ?_⟩
  simpa only [ipNum, igNum, List.foldl_cons, List.foldl_nil, Nat.zero_mul, Nat.zero_add, Nat.mod_eq_of_lt hx, Nat.mod_eq_of_lt hy,
    Nat.mod_eq_of_lt hz, Nat.mod_eq_of_lt hu] using hn

/-- C155.  ig of 21 bits come back from ip. -/
theorem C155_ig_roundtrip (junk junk' a b c d : W) (ha : a.toNat < 2 ^ 21) (hb : b.toNat < 2 ^ 21) (hc : c.toNat < 2 ^ 21)
    (hd : d.toNat < 2 ^ 21) : (igaip junk [a, b, c, d]).bind (ipaig junk') = some [a, b, c, d] := by
  obtain ⟨x, y, z, h, hx, hy, hz, hn⟩ := C155_igaip junk a b c d
  obtain ⟨a', b', c', d', h', ha', hb', hc', hd', hn'⟩ := C155_ipaig junk' x y z
  rw [h, Option.bind_some, h']
  obtain ⟨rfl, rfl, rfl, rfl⟩ := igNum_inj ha' hb' hc' hd' ha hb hc hd
    (by simp only [igNum, List.foldl_cons, List.foldl_nil, Nat.zero_mul, Nat.zero_add, Nat.mod_eq_of_lt, ha, hb, hc, hd, ha', hb', hc', hd']
        rw [hn']
        simpa only [Nat.mod_eq_of_lt, hx, hy, hz, ha, hb, hc, hd] using hn)
  rfl

/-- C155.  ip of 28 bits come back from ig. -/
theorem C155_ip_roundtrip (junk junk' a b c : W) (ha : a.toNat < 2 ^ 28) (hb : b.toNat < 2 ^ 28) (hc : c.toNat < 2 ^ 28) :
    (ipaig junk [a, b, c]).bind (igaip junk') = some [a, b, c] := by
  obtain ⟨x, y, z, u, h, hx, hy, hz, hu, hn⟩ := C155_ipaig junk a b c
  obtain ⟨a', b', c', h', ha', hb', hc', hn'⟩ := C155_igaip junk' x y z u
  rw [h, Option.bind_some, h']
  obtain ⟨rfl, rfl, rfl⟩ := ipNum_inj ha' hb' hc' ha hb hc
    (by simp only [ipNum, List.foldl_cons, List.foldl_nil, Nat.zero_mul, Nat.zero_add, Nat.mod_eq_of_lt, ha, hb, hc, ha', hb', hc']
        rw [hn']
        simpa only [Nat.mod_eq_of_lt, hx, hy, hz, hu, ha, hb, hc] using hn)
  rfl

example : igaip 7 [1, 2, 3, 2097151] = some [128, 32768, 8388607] ∧ ipaig 5 [128, 32768, 8388607] = some [1, 2, 3, 2097151] := by
  decide +kernel

/-- The token is checksum, seconds and microseconds, whatever the array was. -/
theorem token_spec (old : List W) (ho : old.length = 3) (crc : W) (t : Nat) (ht : t < 2 ^ 32 * 1000000) :
    ∃ k, token old crc t = some k ∧ ∃ r, memBits k =
      toBits 84 ((crc.toNat * 2 ^ 32 + t / 1000000) * 2 ^ 20 + t % 1000000) ++ r := by
  obtain ⟨m, e, -, ⟨r, hr⟩, -⟩ := fBitsPut_spec old
    [(32, crc), (32, BitVec.ofNat 32 ((t - t % 1000000) / 1000000)), (20, BitVec.ofNat 32 (t % 1000000))] (by simp [total, width, ho])
  refine ⟨m, e, r, ?_⟩
  rw [hr]
  congr 1
  have e : slicesBits [(32, crc), (32, BitVec.ofNat 32 ((t - t % 1000000) / 1000000)), (20, BitVec.ofNat 32 (t % 1000000))] =
      (toBits 32 crc.toNat ++ toBits 32 ((t - t % 1000000) / 1000000 % 2 ^ 32)) ++ toBits 20 (t % 1000000 % 2 ^ 32) := by
    simp [slicesBits, width]
  rw [e, toBits_cat, toBits_cat]
  have h1 : (t - t % 1000000) / 1000000 % 2 ^ 32 % 2 ^ 32 = t / 1000000 := by omega
  have h2 : t % 1000000 % 2 ^ 32 % 2 ^ 20 = t % 1000000 := by omega
  rw [h1, h2]

/-- What `c_def_84bitkey` leaves: both forms are the number of checksum, seconds and microseconds. -/
theorem C155_def (junk : W) (old : List W) (ho : old.length = 3) (crc : W) (t : Nat) (ht : t < 2 ^ 32 * 1000000)
    (p1 p2 p3 g1 g2 g3 g4 : Nat) (hd : [p1, p2, p3, g1, g2, g3, g4].Nodup) (m : Nat → W) :
    ∃ m', cDef junk old crc t [p1, p2, p3] [g1, g2, g3, g4] m = some m' ∧
      ((m' p1).toNat * 2 ^ 28 + (m' p2).toNat) * 2 ^ 28 + (m' p3).toNat = (crc.toNat * 2 ^ 32 + t / 1000000) * 2 ^ 20 + t % 1000000 ∧
      igaip junk [m' g1, m' g2, m' g3, m' g4] = some [m' p1, m' p2, m' p3] ∧
      ∀ x, x ∉ [p1, p2, p3, g1, g2, g3, g4] → m' x = m x := by
  obtain ⟨k, ek, r, hr⟩ := token_spec old ho crc t ht
  have hN : (crc.toNat * 2 ^ 32 + t / 1000000) * 2 ^ 20 + t % 1000000 < 2 ^ 84 := by have := crc.isLt; omega
  obtain ⟨a, b, c, hp, ha, hb, hc, hn⟩ := ip_get junk k _ hN r hr
  obtain ⟨x, y, z, u, hg, hx, hy, hz, hu, hn'⟩ := ig_get junk k _ hN r hr
  obtain ⟨a', b', c', hq, ha', hb', hc', hm⟩ := C155_igaip junk x y z u
  refine ⟨stores [g1, g2, g3, g4] [x, y, z, u] (stores [p1, p2, p3] [a, b, c] m),
    by simp only [cDef, ek, hp, hg, Option.bind_eq_bind, Option.bind_some], ?_, ?_, ?_⟩
  all_goals
    simp only [List.nodup_cons, List.mem_cons, List.not_mem_nil, or_false, not_or, List.nodup_nil, not_false_eq_true, and_true] at hd
    obtain ⟨⟨n1, n2, n3, n4, n5, n6⟩, ⟨n7, n8, n9, n10, n11⟩, ⟨n12, n13, n14, n15⟩, ⟨n16, n17, n18⟩, ⟨n19, n20⟩, n21⟩ := hd
  · simp only [stores, n1, n2, n3, n4, n5, n6, n7, n8, n9, n10, n11, n12, n13, n14, n15, if_true, if_false]
    rw [← hn]
    simp only [ipNum, List.foldl_cons, List.foldl_nil, Nat.zero_mul, Nat.zero_add, Nat.mod_eq_of_lt, ha, hb, hc]
  · simp only [stores, n1, n2, n3, n4, n5, n6, n7, n8, n9, n10, n11, n12, n13, n14, n15, n16, n17, n18, n19, n20, n21, if_true, if_false]
    rw [hq]
    obtain ⟨rfl, rfl, rfl⟩ := ipNum_inj ha' hb' hc' ha hb hc
      (by rw [hn, ← hn']
          simpa only [ipNum, igNum, List.foldl_cons, List.foldl_nil, Nat.zero_mul, Nat.zero_add, Nat.mod_eq_of_lt, ha', hb', hc'] using hm)
    rfl
  · intro v hv
    simp only [List.mem_cons, List.not_mem_nil, or_false, not_or] at hv
    simp only [stores, hv, if_false]

example : [0, 1, 2, 3, 4, 5, 6].Nodup ∧ (cDef 0 [9, 9, 9] 0xdeadbeef 1700000000123456 [0, 1, 2] [3, 4, 5, 6] (fun _ => 7)).isSome := by
  decide +kernel

/-- C155.  Keys made at different times before the year 2106, or from headers with different checksums, are different. -/
theorem C155_unique (junk : W) (old old' : List W) (ho : old.length = 3) (ho' : old'.length = 3) (crc crc' : W) (t t' : Nat)
    (ht : t < 2 ^ 32 * 1000000) (ht' : t' < 2 ^ 32 * 1000000)
    (p1 p2 p3 g1 g2 g3 g4 : Nat) (hd : [p1, p2, p3, g1, g2, g3, g4].Nodup) (m n m' n' : Nat → W)
    (hm : cDef junk old crc t [p1, p2, p3] [g1, g2, g3, g4] m = some m')
    (hn : cDef junk old' crc' t' [p1, p2, p3] [g1, g2, g3, g4] n = some n')
    (heq : m' p1 = n' p1 ∧ m' p2 = n' p2 ∧ m' p3 = n' p3) : crc = crc' ∧ t = t' := by
  obtain ⟨x, hx, h1, -⟩ := C155_def junk old ho crc t ht p1 p2 p3 g1 g2 g3 g4 hd m
  obtain ⟨y, hy, h2, -⟩ := C155_def junk old' ho' crc' t' ht' p1 p2 p3 g1 g2 g3 g4 hd n
  rw [hm] at hx; rw [hn] at hy
  obtain rfl := Option.some.inj hx
  obtain rfl := Option.some.inj hy
  obtain ⟨e1, e2, e3⟩ := heq
  rw [e1, e2, e3] at h1
  have := crc.isLt
  have := crc'.isLt
  refine ⟨BitVec.eq_of_toNat_eq ?_, ?_⟩ <;> omega

/-- C155.  `f_def_84bitkey` never stores ig1, and leaves the 21 bits of ig1 in ip1. -/
theorem C155_fortran_witness :
    (fDef 0 [0, 0, 0] 0xdeadbeef 1700000000123456 [0, 1, 2] [3, 4, 5, 6] (fun _ => 7)).map (fun m => (m 0, m 3)) =
      some (0x1bd5b7, 7) ∧
    (cDef 0 [0, 0, 0] 0xdeadbeef 1700000000123456 [0, 1, 2] [3, 4, 5, 6] (fun _ => 7)).map (fun m => (m 0, m 3)) =
      some (0xdeadbee, 0x1bd5b7) := by decide +kernel

/-- C155.  For any header and time ig1 is left as it was. -/
theorem C155_fortran_ig1 (junk : W) (old : List W) (crc : W) (t : Nat) (p1 p2 p3 g1 g2 g3 g4 : Nat)
    (hd : [p1, p2, p3, g1, g2, g3, g4].Nodup) (m m' : Nat → W)
    (h : fDef junk old crc t [p1, p2, p3] [g1, g2, g3, g4] m = some m') : m' g1 = m g1 := by
  have stay : ∀ (as : List Nat) (vs : List W) (f : Nat → W), g1 ∉ as → stores as vs f g1 = f g1 := by
    intro as
    induction as with
    | nil => intro vs f _; rfl
    | cons a as ih =>
      intro vs f hn
      simp only [List.mem_cons, not_or] at hn
      cases vs with
      | nil => rfl
      | cons v vs => rw [stores, ih _ _ hn.2, if_neg hn.1]
  simp only [fDef, cDef, Option.bind_eq_bind, Option.bind_eq_some_iff] at h
  obtain ⟨k, -, p, -, g, -, h⟩ := h
  rw [← Option.some.inj h]
  simp only [List.nodup_cons, List.mem_cons, List.not_mem_nil, or_false, not_or] at hd
  rw [stay, stay] <;> simp <;> omega


end Verif.Key84
