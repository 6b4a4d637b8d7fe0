import Verif.Model.Hash
/-! Helper lemmas for the hash bijections. -/
namespace Verif.Hash

theorem mul_inv_cancel {w} (x a b : BitVec w) (h : a * b = 1#w) : x * a * b = x := by
  rw [BitVec.mul_assoc, h, BitVec.mul_one]

/-- x ^ (x >> s) is inverted by xoring the shifts by 2s, 4s, ...; here for one level. -/
theorem xs1 {w} (x : BitVec w) (s : Nat) (h : w ≤ 2 * s) :
    (((x >>> s) ^^^ x) >>> s) ^^^ ((x >>> s) ^^^ x) = x := by
  ext i hi
  simp only [BitVec.getElem_xor, BitVec.getElem_ushiftRight, BitVec.getLsbD_xor,
    BitVec.getLsbD_ushiftRight]
  have : x.getLsbD (s + (s + i)) = false := BitVec.getLsbD_of_ge _ _ (by omega)
  rw [this]
  simp

/-- Two-level inverse, `w ≤ 3 s`. -/
theorem xs2 {w} (x : BitVec w) (s t : Nat) (ht : t = s + s) (h : w ≤ 3 * s) :
    (x ^^^ (x >>> s)) ^^^ ((x ^^^ (x >>> s)) >>> s) ^^^ ((x ^^^ (x >>> s)) >>> t) = x := by
  subst ht
  ext i hi
  simp only [BitVec.getElem_xor, BitVec.getElem_ushiftRight, BitVec.getLsbD_xor,
    BitVec.getLsbD_ushiftRight]
  have h1 : x.getLsbD (s + (s + s + i)) = false := BitVec.getLsbD_of_ge _ _ (by omega)
  rw [h1, show s + (s + i) = s + s + i by omega]
  cases x[i] <;> cases x.getLsbD (s+i) <;> cases x.getLsbD (s+s+i) <;> rfl

theorem xs2' {w} (x : BitVec w) (s t : Nat) (ht : t = s + s) (h : w ≤ 3 * s) :
    (x ^^^ (x >>> s) ^^^ (x >>> t)) ^^^ ((x ^^^ (x >>> s) ^^^ (x >>> t)) >>> s) = x := by
  subst ht
  ext i hi
  simp only [BitVec.getElem_xor, BitVec.getElem_ushiftRight, BitVec.getLsbD_xor,
    BitVec.getLsbD_ushiftRight]
  have h1 : x.getLsbD (s + s + (s + i)) = false := BitVec.getLsbD_of_ge _ _ (by omega)
  rw [h1, show s + (s + i) = s + s + i by omega]
  cases x[i] <;> cases x.getLsbD (s+i) <;> cases x.getLsbD (s+s+i) <;> rfl

theorem xs2a {w} (x : BitVec w) (s t : Nat) (ht : t = s + s) (h : w ≤ 3 * s) :
    (x ^^^ (x >>> s)) ^^^ (((x ^^^ (x >>> s)) >>> s) ^^^ ((x ^^^ (x >>> s)) >>> t)) = x := by
  rw [← BitVec.xor_assoc, xs2 x s t ht h]

theorem xs2a' {w} (x : BitVec w) (s t : Nat) (ht : t = s + s) (h : w ≤ 3 * s) :
    (x ^^^ ((x >>> s) ^^^ (x >>> t))) ^^^ ((x ^^^ ((x >>> s) ^^^ (x >>> t))) >>> s) = x := by
  rw [← BitVec.xor_assoc, xs2' x s t ht h]

theorem xs4 {w} (x : BitVec w) (s : Nat) (h : w ≤ 5 * s) :
    (x ^^^ (x >>> s)) ^^^ (((x ^^^ (x >>> s)) >>> s) ^^^ ((x ^^^ (x >>> s)) >>> (2*s)) ^^^
      ((x ^^^ (x >>> s)) >>> (3*s)) ^^^ ((x ^^^ (x >>> s)) >>> (4*s))) = x := by
  ext i hi
  simp only [BitVec.getElem_xor, BitVec.getElem_ushiftRight, BitVec.getLsbD_xor,
    BitVec.getLsbD_ushiftRight]
  have h1 : x.getLsbD (s + (4*s + i)) = false := BitVec.getLsbD_of_ge _ _ (by omega)
  rw [h1, show s + (s + i) = 2*s + i by omega, show s + (2*s+i) = 3*s+i by omega,
    show s + (3*s+i) = 4*s+i by omega]
  cases x[i] <;> cases x.getLsbD (s+i) <;> cases x.getLsbD (2*s+i) <;>
    cases x.getLsbD (3*s+i) <;> cases x.getLsbD (4*s+i) <;> rfl

theorem xs4' {w} (x : BitVec w) (s : Nat) (h : w ≤ 5 * s) :
    (x ^^^ ((x >>> s) ^^^ (x >>> (2*s)) ^^^ (x >>> (3*s)) ^^^ (x >>> (4*s)))) ^^^
    ((x ^^^ ((x >>> s) ^^^ (x >>> (2*s)) ^^^ (x >>> (3*s)) ^^^ (x >>> (4*s)))) >>> s) = x := by
  ext i hi
  simp only [BitVec.getElem_xor, BitVec.getElem_ushiftRight, BitVec.getLsbD_xor,
    BitVec.getLsbD_ushiftRight]
  have h1 : x.getLsbD (4*s + (s + i)) = false := BitVec.getLsbD_of_ge _ _ (by omega)
  rw [h1, show s + (s + i) = 2*s + i by omega, show 2*s + (s+i) = 3*s+i by omega,
    show 3*s + (s+i) = 4*s+i by omega]
  cases x[i] <;> cases x.getLsbD (s+i) <;> cases x.getLsbD (2*s+i) <;>
    cases x.getLsbD (3*s+i) <;> cases x.getLsbD (4*s+i) <;> rfl

theorem shl_mul {w} (x : BitVec w) (n : Nat) : x <<< n = x * BitVec.twoPow w n :=
  (BitVec.mul_twoPow_eq_shiftLeft x n).symm

theorem mul_add' {w} (x a b : BitVec w) : x * a + x * b = x * (a + b) := BitVec.mul_add.symm

theorem mix_step4 (k : BitVec 64) : k + (k <<< 31) = k * 0x80000001#64 := by
  conv => lhs; arg 1; rw [← BitVec.mul_one k]
  rw [shl_mul, mul_add', show (1#64 + BitVec.twoPow 64 31) = 0x80000001#64 by decide]

theorem mix_step2 (k : BitVec 64) : k + (k <<< 3) + (k <<< 8) = k * 265#64 := by
  conv => lhs; arg 1; arg 1; rw [← BitVec.mul_one k]
  rw [shl_mul, shl_mul, mul_add', mul_add',
    show (1#64 + BitVec.twoPow 64 3 + BitVec.twoPow 64 8) = 265#64 by decide]

theorem mix_step3 (k : BitVec 64) : k + (k <<< 2) + (k <<< 4) = k * 21#64 := by
  conv => lhs; arg 1; arg 1; rw [← BitVec.mul_one k]
  rw [shl_mul, shl_mul, mul_add', mul_add',
    show (1#64 + BitVec.twoPow 64 2 + BitVec.twoPow 64 4) = 21#64 by decide]

theorem mix_step1 (k : BitVec 64) : (~~~k) + (k <<< 21) = k * 0x1fffff#64 - 1#64 := by
  have h : ~~~k = k * (-1#64) - 1#64 := by
    rw [BitVec.mul_neg, BitVec.mul_one, BitVec.neg_eq_not_add, BitVec.add_sub_cancel]
  rw [h, shl_mul, BitVec.sub_eq_add_neg, BitVec.add_assoc, BitVec.add_comm (-1#64),
    ← BitVec.add_assoc, mul_add', ← BitVec.sub_eq_add_neg,
    show (-1#64 + BitVec.twoPow 64 21) = 0x1fffff#64 by decide]

end Verif.Hash
