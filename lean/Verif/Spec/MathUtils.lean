import Mathlib.Data.Real.Basic

/-!
What the smallest positive root is.
-/
namespace Verif.MathUtils

/-- `t` is the smallest positive zero of `f`, or negative and there is none. -/
def SmallestPositive (f : ℝ → ℝ) (t : ℝ) : Prop :=
  (0 < t ∧ f t = 0 ∧ ∀ x, 0 < x → f x = 0 → t ≤ x) ∨ (t < 0 ∧ ∀ x, 0 < x → f x ≠ 0)

end Verif.MathUtils
