import Verif.Model.TileIter
import Verif.Props.Bits
import Mathlib.Tactic.Ring

/-!
Helpers for the iterators over tiled memory.
-/
namespace Verif.TileIter

theorem bitCount_pow (k : Nat) : Bits.bitCount (2 ^ k) = k := by
  apply Nat.le_antisymm
  · exact (Bits.bitCount_spec (2 ^ k) k).2 fun m h => h
  · refine Nat.le_of_not_lt fun hc => ?_
    have hlt : Bits.bitCount (2 ^ k) ≤ k - 1 := by omega
    have hk : 0 < k := by omega
    have := (Bits.bitCount_spec (2 ^ k) (k - 1)).1 hlt (2 ^ k - 1) (by have := Nat.two_pow_pos k; omega)
    have e : 2 ^ k = 2 * 2 ^ (k - 1) := by
      conv_lhs => rw [show k = (k - 1) + 1 by omega, Nat.pow_succ]
      omega
    have := Nat.two_pow_pos (k - 1)
    omega

/-- Shift, multiply, shift back and add the low bits, without overflow. -/
theorem tile_offset {w k : Nat} (i n m : BitVec w) (hm : m.toNat = 2 ^ k - 1)
    (h : i.toNat / 2 ^ k * n.toNat * 2 ^ k + i.toNat % 2 ^ k < 2 ^ w) :
    ((((i >>> k) * n) <<< k) ||| (i &&& m)).toNat = i.toNat / 2 ^ k * n.toNat * 2 ^ k + i.toNat % 2 ^ k := by
  have hp := Nat.two_pow_pos k
  have h1 : i.toNat / 2 ^ k * n.toNat * 2 ^ k < 2 ^ w := by omega
  have h2 : i.toNat / 2 ^ k * n.toNat < 2 ^ w := Nat.lt_of_le_of_lt (Nat.le_mul_of_pos_right _ hp) h1
  rw [BitVec.toNat_or, BitVec.toNat_and, hm, Nat.and_two_pow_sub_one_eq_mod, BitVec.toNat_shiftLeft, BitVec.toNat_mul, BitVec.toNat_ushiftRight,
    Nat.shiftRight_eq_div_pow, Nat.mod_eq_of_lt h2, Nat.shiftLeft_eq, Nat.mod_eq_of_lt h1, Nat.mul_comm _ (2 ^ k)]
  exact (Nat.two_pow_add_eq_or_of_lt (Nat.mod_lt _ hp) _).symm

/-- The first value of an iterator over smaller values. -/
theorem small_first {S L t base i segNo chn nch a : Nat} {it : Small} (h : small S L t base i segNo chn nch = some it) (ha : it.deref S L t 1 = [a]) :
    a = base + (i / L * nch + chn) * (S * L) + t * (segNo * L + i % L) := by
  rw [small] at h
  split at h
  · cases h
  · cases h
    simp only [Small.deref, List.range_one, List.map_cons, List.map_nil, List.cons.injEq, and_true] at ha
    rw [← ha]
    ring

theorem place_lt {S L t segNo i : Nat} (hL : 0 < L) (hseg : (segNo + 1) * t ≤ S) : t * (segNo * L + i % L) + t ≤ S * L := by
  have hm := Nat.mod_lt i hL
  calc t * (segNo * L + i % L) + t = t * (segNo * L + (i % L + 1)) := by ring
    _ ≤ t * (segNo * L + L) := Nat.mul_le_mul_left _ (by omega)
    _ = (segNo + 1) * t * L := by ring
    _ ≤ S * L := Nat.mul_le_mul_right _ hseg

/-- Places in a lower row come before those in a higher one. -/
theorem rows_apart {n q q' chn W x y t : Nat} (hc : chn < n) (hq : q < q') (hx : x + t ≤ W) :
    (q * n + chn) * W + x + t ≤ (q' * n + chn) * W + y := by
  have h1 : (q + 1) * n ≤ q' * n := Nat.mul_le_mul_right _ hq
  have h2 : (q * n + chn + 1) * W ≤ (q' * n + chn) * W := Nat.mul_le_mul_right _ (by
    have : (q + 1) * n = q * n + n := by ring
    omega)
  have h3 : (q * n + chn + 1) * W = (q * n + chn) * W + W := by ring
  omega

end Verif.TileIter
