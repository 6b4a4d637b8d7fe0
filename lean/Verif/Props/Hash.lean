import Verif.Proof.Hash
/-! # C03, C04, C56: the integer hashes and the address mixing are bijections -/
namespace Verif.Hash

/-- C03: `unhash` recovers every 32-bit key. -/
theorem unhash32_hash32 (x : BitVec 32) : unhash32 (hash32 x) = x := by
  simp only [hash32, unhash32]
  rw [xs1 _ 16 (by decide), mul_inv_cancel _ _ _ (by decide), xs1 _ 16 (by decide),
    mul_inv_cancel _ _ _ (by decide), xs1 _ 16 (by decide)]

/-- C03: every 32-bit value is the hash of its `unhash`. -/
theorem hash32_unhash32 (x : BitVec 32) : hash32 (unhash32 x) = x := by
  simp only [hash32, unhash32]
  rw [xs1 _ 16 (by decide), mul_inv_cancel _ _ _ (by decide), xs1 _ 16 (by decide),
    mul_inv_cancel _ _ _ (by decide), xs1 _ 16 (by decide)]

/-- C03: distinct keys have distinct hashes. -/
theorem hash32_injective (x y : BitVec 32) (h : hash32 x = hash32 y) : x = y := by
  rw [← unhash32_hash32 x, ← unhash32_hash32 y, h]

/-- C04 -/
theorem unhash64_hash64 (x : BitVec 64) : unhash64 (hash64 x) = x := by
  simp only [hash64, unhash64]
  rw [xs2 _ 31 62 rfl (by decide), mul_inv_cancel _ _ _ (by decide),
    xs2 _ 27 54 rfl (by decide), mul_inv_cancel _ _ _ (by decide), xs2 _ 30 60 rfl (by decide)]

/-- C04 -/
theorem hash64_unhash64 (x : BitVec 64) : hash64 (unhash64 x) = x := by
  simp only [hash64, unhash64]
  rw [xs2' _ 30 60 rfl (by decide), mul_inv_cancel _ _ _ (by decide),
    xs2' _ 27 54 rfl (by decide), mul_inv_cancel _ _ _ (by decide), xs2' _ 31 62 rfl (by decide)]

/-- C04 -/
theorem hash64_injective (x y : BitVec 64) (h : hash64 x = hash64 y) : x = y := by
  rw [← unhash64_hash64 x, ← unhash64_hash64 y, h]

/-- C04 does not extend to signed instantiations: with arithmetic shifts `x` and `~x` (that is
`-1-x`) always collide. -/
theorem hashI64_collides (x : BitVec 64) : hashI64 (~~~x) = hashI64 x := by
  have key : ∀ s, s < 64 → (~~~x) ^^^ (~~~x).sshiftRight s = x ^^^ x.sshiftRight s := by
    intro s hs
    ext i hi
    simp only [BitVec.getElem_xor, BitVec.getElem_not, BitVec.getElem_sshiftRight, BitVec.msb_not]
    split
    · cases x[i] <;> simp
    · cases x[i] <;> cases x.msb <;> rfl
  simp only [hashI64, key 30 (by decide)]

/-- The signed hash is never negative: at most half of the values are reached. -/
theorem hashI64_nonneg (x : BitVec 64) : (hashI64 x).msb = false := by
  simp only [hashI64]
  generalize (_ * _ : BitVec 64) = y
  rw [BitVec.msb_xor, BitVec.msb_sshiftRight, Bool.xor_self]

/-- The collisions are not only those of a key with its complement. -/
theorem hashI64_collides_further :
    hashI64 1#64 = hashI64 0x6921e4e96469fcd3#64 ∧ hashI64 1#64 = hashI64 (~~~1#64) := by decide

/-- The violated signed version of C04, with a concrete collision. -/
theorem hashI64_not_injective_violated :
    ¬ ∀ x y : BitVec 64, hashI64 x = hashI64 y → x = y := fun h =>
  absurd (h (~~~0#64) 0#64 (hashI64_collides 0#64)) (by decide)

/-- C56: the address mixing is undone by the unmixing. -/
theorem twangUnmix64_twangMix64 (x : BitVec 64) : twangUnmix64 (twangMix64 x) = x := by
  simp only [twangMix64, twangUnmix64, mix_step1, mix_step2, mix_step3, mix_step4]
  rw [mul_inv_cancel _ _ _ (by decide), xs2a _ 28 56 rfl (by decide),
    mul_inv_cancel _ _ _ (by decide), xs4 _ 14 (by decide),
    mul_inv_cancel _ _ _ (by decide), xs2a _ 24 48 rfl (by decide),
    BitVec.sub_add_cancel, mul_inv_cancel _ _ _ (by decide)]

/-- C56: and conversely. -/
theorem twangMix64_twangUnmix64 (x : BitVec 64) : twangMix64 (twangUnmix64 x) = x := by
  simp only [twangMix64, twangUnmix64, mix_step1, mix_step2, mix_step3, mix_step4]
  rw [mul_inv_cancel _ _ _ (by decide), BitVec.add_sub_cancel, 
    xs2a' _ 24 48 rfl (by decide), mul_inv_cancel _ _ _ (by decide), xs4' _ 14 (by decide),
    mul_inv_cancel _ _ _ (by decide), xs2a' _ 28 56 rfl (by decide),
    mul_inv_cancel _ _ _ (by decide)]

/-- C56: different addresses never get the same wait key. -/
theorem twangMix64_injective (x y : BitVec 64) (h : twangMix64 x = twangMix64 y) : x = y := by
  rw [← twangUnmix64_twangMix64 x, ← twangUnmix64_twangMix64 y, h]

example : twangMix64 1#64 ≠ twangMix64 2#64 := by decide
example : hash32 7#32 ≠ 7#32 ∧ hash64 7#64 ≠ 7#64 := by decide

/-! ### hash_combine -/

/-- For a fixed seed, combining distinct values gives distinct seeds (32-bit). -/
theorem hashCombine32_injective (s a b : BitVec 32) (h : hashCombine32 s a = hashCombine32 s b) :
    a = b := by
  simp only [hashCombine32, BitVec.xor_right_inj] at h
  simpa using h

/-- For a fixed seed, combining distinct values gives distinct seeds (64-bit). -/
theorem hashCombine64_injective (s a b : BitVec 64) (h : hashCombine64 s a = hashCombine64 s b) :
    a = b := by
  simp only [hashCombine64, BitVec.xor_right_inj] at h
  simpa using h

end Verif.Hash
