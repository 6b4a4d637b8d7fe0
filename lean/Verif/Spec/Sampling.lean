import Mathlib.Analysis.SpecialFunctions.Exp
import Mathlib.Data.Nat.Factorial.Basic

/-!
The distribution sampled.
-/
namespace Verif.Sampling

/-- The Poisson distribution. -/
noncomputable def pmf (lam : NNReal) (k : ℕ) : ℝ := Real.exp (-(lam : ℝ)) * (lam : ℝ) ^ k / k.factorial

end Verif.Sampling
