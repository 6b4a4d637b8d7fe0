import Verif.Model.Plasticity

/-!
The yield conditions the projections are for, stated by the stress of the elastic model.
-/
namespace Verif.Plastic

variable {n : ℕ}

/-- Principal Kirchhoff stresses of the Hencky (StVK with logarithmic strain) model: `2 mu log s_i + lam sum log s_j`. -/
noncomputable def hencky (e : Elastic) (S : Fin n → ℝ) : Fin n → ℝ := fun i => 2 * e.mu * Real.log (S i) + e.lam * ∑ j, Real.log (S j)

/-- Sum of the squares of the differences of two states' logarithmic strains. -/
noncomputable def strainDist (S T : Fin n → ℝ) : ℝ := ∑ i, (Real.log (S i) - Real.log (T i)) ^ 2

/-- The admissible states of the capped von Mises model: bounded deviator, bounded trace of the stress. -/
structure InCap (m : Capped) (e : Elastic) (S : Fin n → ℝ) : Prop where
  pos : ∀ i, 0 < S i
  shear : norm (dev (hencky e S)) ≤ m.yieldStress
  low : -m.k1Compress ≤ tr (hencky e S)
  high : tr (hencky e S) ≤ m.k1Stretch

/-- The Drucker-Prager cone: shear at most the friction slope times the compression. -/
def InCone (tau0 : ℝ) (e : Elastic) (S : Fin n → ℝ) : Prop := norm (dev (hencky e S)) ≤ -tau0 * tr (hencky e S)

/-- Deviator of the neo-Hookean stress with split volume: `mu J^(-2/n) dev (s_i^2)`. -/
noncomputable def shearStress (e : Elastic) (S : Fin n → ℝ) : Fin n → ℝ := fun i => e.mu * (∏ j, S j) ^ (-2 / (n : ℝ)) * dev (fun i => S i ^ 2) i

/-- Its pressure `-kappa / 2 (J^2 - 1)`. -/
noncomputable def pressure (e : Elastic) (S : Fin n → ℝ) : ℝ := -e.kappa / 2 * ((∏ i, S i) ^ 2 - 1)

/-- The yield function of the modified Cam-Clay ellipse at pressure `p` and squared length `s2` of the deviator, `q^2 = (6 - n) / 2 s2`. -/
noncomputable def ellipse (m : CamClay) (n : ℕ) (p0 p s2 : ℝ) : ℝ := (1 + 2 * m.beta) * ((6 - n) / 2 * s2) + m.M ^ 2 * (p + m.beta * p0) * (p - p0)

end Verif.Plastic
