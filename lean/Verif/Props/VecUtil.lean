import Verif.Model.VecUtil
import Mathlib.Algebra.Order.Ring.Abs
import Mathlib.Tactic.Ring
import Mathlib.Tactic.Linarith

/-!
Properties of the functions for vectors given by pointers.
-/
namespace Verif.VecUtil

/-- Three cells in memory, apart from three others. -/
def Apart (p q : Nat) : Prop := p + 2 < q ∨ q + 2 < p

/-- The scalar product of the vectors at two places, the second in another memory. -/
def dot (m : Mem) (a : Nat) (m' : Mem) (b : Nat) : ℚ := m a * m' b + m (a + 1) * m' (b + 1) + m (a + 2) * m' (b + 2)

theorem store_same (m : Mem) (p : Nat) (x : ℚ) : store m p x p = x := if_pos rfl
theorem store_other (m : Mem) {p q : Nat} (x : ℚ) (h : q ≠ p) : store m p x q = m q := if_neg h

/-- `orthogonalVector`: nothing but the output changes; it is orthogonal to the input, and its squared length is between two thirds of that of the
input and that of the input. In particular it is zero only for the input zero. -/
theorem orthogonal_exact (m : Mem) (i o : Nat) (h : Apart i o) :
    (∀ q, q < o ∨ o + 2 < q → orthogonalVector m i o q = m q) ∧ dot m i (orthogonalVector m i o) o = 0 ∧
      2 / 3 * dot m i m i ≤ dot (orthogonalVector m i o) o (orthogonalVector m i o) o ∧
      dot (orthogonalVector m i o) o (orthogonalVector m i o) o ≤ dot m i m i := by
  have n : ∀ j k : Nat, j ≤ 2 → k ≤ 2 → i + j ≠ o + k := by
    intro j k hj hk
    unfold Apart at h
    omega
  have sq : ∀ {x y : ℚ}, |x| ≤ |y| → x * x ≤ y * y := fun {x y} q => by
    have := mul_self_le_mul_self (abs_nonneg x) q
    rwa [abs_mul_abs_self, abs_mul_abs_self] at this
  have p0 := mul_self_nonneg (m i)
  have p1 := mul_self_nonneg (m (i + 1))
  have p2 := mul_self_nonneg (m (i + 2))
  have n00 : i ≠ o := n 0 0 (by omega) (by omega)
  have n10 : i + 1 ≠ o := n 1 0 (by omega) (by omega)
  have n20 : i + 2 ≠ o := n 2 0 (by omega) (by omega)
  have n01 : i ≠ o + 1 := n 0 1 (by omega) (by omega)
  have n11 : i + 1 ≠ o + 1 := n 1 1 (by omega) (by omega)
  have n21 : i + 2 ≠ o + 1 := n 2 1 (by omega) (by omega)
  have e1 : o ≠ o + 1 := by omega
  have e2 : o ≠ o + 2 := by omega
  have e3 : o + 1 ≠ o + 2 := by omega
  have out : ∀ (x y z : ℚ) (m' : Mem), m' = store (store (store m o x) (o + 1) y) (o + 2) z →
      (∀ q, q < o ∨ o + 2 < q → m' q = m q) ∧ m' o = x ∧ m' (o + 1) = y ∧ m' (o + 2) = z := by
    rintro x y z m' rfl
    refine ⟨fun q hq => ?_, ?_, ?_, store_same _ _ _⟩
    · rw [store_other _ _ (by omega), store_other _ _ (by omega), store_other _ _ (by omega)]
    · rw [store_other _ _ e2, store_other _ _ e1, store_same]
    · rw [store_other _ _ e3, store_same]
  have key : ∃ x y z : ℚ, orthogonalVector m i o = store (store (store m o x) (o + 1) y) (o + 2) z ∧
      m i * x + m (i + 1) * y + m (i + 2) * z = 0 ∧
      2 / 3 * (m i * m i + m (i + 1) * m (i + 1) + m (i + 2) * m (i + 2)) ≤ x * x + y * y + z * z ∧
      x * x + y * y + z * z ≤ m i * m i + m (i + 1) * m (i + 1) + m (i + 2) * m (i + 2) := by
    unfold orthogonalVector
    simp only [Nat.add_zero]
    split
    · rename_i h1
      split
      · rename_i h2
        have s1 := sq h1.le
        have s2 := sq h2.le
        refine ⟨0, m (i + 2), -m (i + 1), ?_, by ring, by linarith, by linarith⟩
        rw [store_other _ _ n20, store_other _ _ n11, store_other _ _ n10]
      · rename_i h2
        have s1 := sq h1.le
        have s2 := sq (not_lt.1 h2)
        refine ⟨m (i + 1), -m i, 0, ?_, by ring, by linarith, by linarith⟩
        rw [store_other _ _ n00]
    · rename_i h1
      have s1 := sq (not_lt.1 h1)
      split
      · rename_i h2
        have s2 := sq h2.le
        refine ⟨-m (i + 2), 0, m i, ?_, by ring, by linarith, by linarith⟩
        rw [store_other _ _ n01, store_other _ _ n00]
      · rename_i h2
        have s2 := sq (not_lt.1 h2)
        refine ⟨m (i + 1), -m i, 0, ?_, by ring, by linarith, by linarith⟩
        rw [store_other _ _ n00]
  obtain ⟨x, y, z, e, k1, k2, k3⟩ := key
  obtain ⟨a, b, c, d⟩ := out x y z _ e
  refine ⟨a, ?_, ?_, ?_⟩ <;> unfold dot <;> rw [b, c, d]
  · exact k1
  · exact k2
  · exact k3

/-- Zero only for zero. -/
theorem orthogonal_nonzero (m : Mem) (i o : Nat) (h : Apart i o) (hz : m i ≠ 0 ∨ m (i + 1) ≠ 0 ∨ m (i + 2) ≠ 0) :
    0 < dot (orthogonalVector m i o) o (orthogonalVector m i o) o := by
  obtain ⟨-, -, h2, -⟩ := orthogonal_exact m i o h
  have p0 := mul_self_nonneg (m i)
  have p1 := mul_self_nonneg (m (i + 1))
  have p2 := mul_self_nonneg (m (i + 2))
  have : 0 < dot m i m i := by
    unfold dot
    rcases hz with q | q | q <;> linarith [mul_self_pos.2 q]
  linarith

example : Apart 0 3 := by unfold Apart; omega

/-- `cross`: the vector product, if the output is apart from the arguments; the arguments may be the same. -/
theorem cross_exact (m : Mem) (a b o : Nat) (ha : Apart a o) (hb : Apart b o) :
    cross m a b o o = m (a + 1) * m (b + 2) - m (a + 2) * m (b + 1) ∧ cross m a b o (o + 1) = m (a + 2) * m b - m a * m (b + 2) ∧
      cross m a b o (o + 2) = m a * m (b + 1) - m (a + 1) * m b ∧ ∀ q, q < o ∨ o + 2 < q → cross m a b o q = m q := by
  have n : ∀ p : Nat, Apart p o → (p ≠ o ∧ p + 1 ≠ o ∧ p + 2 ≠ o) ∧ (p ≠ o + 1 ∧ p + 1 ≠ o + 1 ∧ p + 2 ≠ o + 1) := by
    intro p h
    unfold Apart at h
    omega
  obtain ⟨⟨a0, a1, a2⟩, b0, b1, b2⟩ := n a ha
  obtain ⟨⟨c0, c1, c2⟩, d0, d1, d2⟩ := n b hb
  unfold cross
  refine ⟨?_, ?_, ?_, ?_⟩
  · rw [store_other _ _ (by omega), store_other _ _ (by omega), store_same]; ring
  · rw [store_other _ _ (by omega), store_same, store_other _ _ c0, store_other _ _ a2, store_other _ _ a0, store_other _ _ c2]; ring
  · rw [store_same, store_other _ _ b0, store_other _ _ d1, store_other _ _ d0, store_other _ _ b1, store_other _ _ a0, store_other _ _ c1,
      store_other _ _ c0, store_other _ _ a1]
    ring
  · intro q hq
    rw [store_other _ _ (by omega), store_other _ _ (by omega), store_other _ _ (by omega)]

/-- The vector product of a vector and another one into the first of them is wrong: the components are read after they have been replaced. -/
theorem cross_alias_violated : ∃ m : Mem, dot m 0 (cross m 0 3 0) 0 ≠ 0 ∧ dot m 3 (cross m 0 3 0) 0 ≠ 0 := by
  refine ⟨fun q => ([1, 2, 3, 4, 5, 7] : List ℚ).getD q 0, ?_, ?_⟩ <;> decide +kernel

/-- Neither is an orthogonal vector computed in place orthogonal. -/
theorem orthogonal_alias_violated : ∃ m : Mem, dot m 0 (orthogonalVector m 0 0) 0 ≠ 0 := by
  refine ⟨fun q => ([1, 3, 2] : List ℚ).getD q 0, ?_⟩
  decide +kernel

/-- `vectorCopy`: the multiple of the vector, also in place. -/
theorem copy_exact (m : Mem) (s : ℚ) (v r : Nat) (h : Apart v r ∨ v = r) :
    vectorCopy m s v r r = m v * s ∧ vectorCopy m s v r (r + 1) = m (v + 1) * s ∧ vectorCopy m s v r (r + 2) = m (v + 2) * s ∧
      ∀ q, q < r ∨ r + 2 < q → vectorCopy m s v r q = m q := by
  unfold Apart at h
  unfold vectorCopy
  refine ⟨?_, ?_, ?_, ?_⟩
  · rw [store_other _ _ (by omega), store_other _ _ (by omega), store_same]
  · rw [store_other _ _ (by omega), store_same, store_other _ _ (by omega)]
  · rw [store_same, store_other _ _ (by omega), store_other _ _ (by omega)]
  · intro q hq
    rw [store_other _ _ (by omega), store_other _ _ (by omega), store_other _ _ (by omega)]

/-- `sgn`: the sign, except that numbers up to `1e-10` count as zero. -/
theorem sgn_exact (x : ℚ) : (sgn x = 1 ↔ 1 / 10 ^ 10 < x) ∧ (sgn x = -1 ↔ x < -(1 / 10 ^ 10)) ∧ (sgn x = 0 ↔ |x| ≤ 1 / 10 ^ 10) ∧ sgn (-x) = -sgn x := by
  have e : (1 : ℚ) / 10 ^ 10 = 1 / 10000000000 := by decide +kernel
  have pos : (0 : ℚ) < 1 / 10000000000 := by decide +kernel
  rw [e, abs_le]
  unfold sgn
  generalize (1 : ℚ) / 10000000000 = c at pos
  rcases lt_or_ge x (-c) with h | h
  · rw [if_pos h, if_neg (show ¬-x < -c by linarith), if_pos (show -x > c by linarith)]
    exact ⟨⟨fun q => absurd q (by decide), fun q => by linarith⟩, ⟨fun _ => h, fun _ => rfl⟩, ⟨fun q => absurd q (by decide), fun q => by linarith [q.1]⟩, by decide⟩
  · rw [if_neg (not_lt.2 h)]
    rcases lt_or_ge c x with k | k
    · rw [if_pos k, if_pos (show -x < -c by linarith)]
      exact ⟨⟨fun _ => k, fun _ => rfl⟩, ⟨fun q => absurd q (by decide), fun q => by linarith⟩, ⟨fun q => absurd q (by decide), fun q => by linarith [q.2]⟩, by decide⟩
    · rw [if_neg (not_lt.2 k), if_neg (show ¬-x < -c by linarith), if_neg (show ¬-x > c by linarith)]
      exact ⟨⟨fun q => absurd q (by decide), fun q => by linarith⟩, ⟨fun q => absurd q (by decide), fun q => by linarith⟩, ⟨fun _ => ⟨h, k⟩, fun _ => rfl⟩, by decide⟩

end Verif.VecUtil
