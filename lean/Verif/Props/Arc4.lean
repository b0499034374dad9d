import Verif.Arc4

/-! # C13: the stream cipher -/

namespace Verif.Arc4

/-- **C13**, decryption.  Encrypting any buffer and processing the result with a context set up from
the same key gives the buffer back, whatever the uninitialised scrap buffers (1024 bytes) contain; a
nonempty key always gives a context. -/
theorem C13_decrypt (key : List Byte) (keylen : Nat) (h0 : key ≠ []) (hk : keylen ≤ key.length)
    (scrap scrap' : List Byte) (h1 : scrap.length = 1024) (h2 : scrap'.length = 1024) (buf : List Byte) :
    ∃ c c', setup scrap key keylen = some c ∧ setup scrap' key keylen = some c' ∧
      (crypt c' (crypt c buf).2).2 = buf := by
  obtain ⟨m, hm⟩ := Option.isSome_iff_exists.1 (schedule_defined key keylen h0 hk 256 0 0 0 id)
  refine ⟨_, _, by rw [setup, hm]; rfl, by rw [setup, hm]; rfl, ?_⟩
  simp only
  rw [crypt_ctx _ scrap' scrap (by omega)]
  generalize (crypt _ scrap).1 = c
  rw [crypt_eq, crypt_eq, List.length_zipWith, stream_length, Nat.min_self]
  exact zip_xor_twice _ _ (by rw [stream_length])

/-- **C13**, splitting.  Processing a buffer in consecutive pieces gives the same bytes and the same
context as one call. -/
theorem C13_split (c : Ctx) (pieces : List (List Byte)) :
    (pieces.foldl (fun (s : Ctx × List Byte) p => ((crypt s.1 p).1, s.2 ++ (crypt s.1 p).2)) (c, [])) = crypt c pieces.flatten := by
  have happ : ∀ (a : List Byte) (c : Ctx) (b : List Byte),
      crypt c (a ++ b) = ((crypt (crypt c a).1 b).1, (crypt c a).2 ++ (crypt (crypt c a).1 b).2) := by
    intro a
    induction a with
    | nil => intros; rfl
    | cons x a ih => intro c b; simp only [List.cons_append, crypt, ih]
  have key : ∀ (ps : List (List Byte)) (c : Ctx) (acc : List Byte),
      ps.foldl (fun (s : Ctx × List Byte) p => ((crypt s.1 p).1, s.2 ++ (crypt s.1 p).2)) (c, acc) =
        ((crypt c ps.flatten).1, acc ++ (crypt c ps.flatten).2) := by
    intro ps
    induction ps with
    | nil => intro c acc; simp [crypt]
    | cons p ps ih => intro c acc; rw [List.foldl_cons, ih, List.flatten_cons, happ]; simp
  simpa using key pieces c []

/-- **C13**, the state table stays a permutation of the 256 byte values from the key schedule through
any amount of encryption. -/
theorem C13_permutation (scrap key : List Byte) (keylen : Nat) (c : Ctx) (h : setup scrap key keylen = some c)
    (buf : List Byte) : Function.Injective (crypt c buf).1.m := by
  simp only [setup, Option.map_eq_some_iff] at h
  obtain ⟨m, hm, rfl⟩ := h
  exact crypt_inj (crypt_inj (schedule_inj key keylen 256 0 0 0 id m (fun _ _ h => h) hm) scrap) buf

example : ∃ c c', setup (List.replicate 1024 7) [1, 2, 3] 3 = some c ∧ setup (List.replicate 1024 9) [1, 2, 3] 3 = some c' ∧
    (crypt c' (crypt c [10, 20, 30]).2).2 = [10, 20, 30] :=
  C13_decrypt _ _ (by simp) (by simp) _ _ (by rw [List.length_replicate]) (by rw [List.length_replicate]) _

end Verif.Arc4
