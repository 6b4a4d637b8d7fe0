import Verif.Model.Mpm

/-! Principal stresses of the corotated model and of the logarithmic model of sand. -/
namespace Verif.Stress

open Verif.Mpm

/-- Principal Kirchhoff stress of the corotated model. -/
def tau (mu lambda : ℝ) (s : V3) : V3 := fun d => 2 * mu * (s d - 1) * s d + lambda * (s 0 * s 1 * s 2 - 1) * (s 0 * s 1 * s 2)

/-- Deviatoric part of principal values. -/
noncomputable def dev (x : V3) : V3 := fun d => x d - (∑ i, x i) / 3

end Verif.Stress
