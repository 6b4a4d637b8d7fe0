import Verif.Model.Mpm
import Verif.Model.MatrixUtils
import Mathlib.Analysis.SpecialFunctions.Pow.Real
import Mathlib.Analysis.SpecialFunctions.Trigonometric.Basic

/-!
Model of the stresses with plasticity of `include/zensim/physics/ConstitutiveModel_Vol_dP.hpp`.

Numbers are real and the elementary functions exact.  The singular value decomposition `u`, `s`, `v` of `f` is an argument.  Results that the code computes from a logarithm of zero or by
dividing by zero are `none`.
-/
namespace Verif.Stress

open Verif.Mpm Verif.MatrixUtils

/-! ## `compute_stress_vonmisesfixedcorotated` -/

/-- `Sclamp`, line 59. -/
noncomputable def clamp (s : V3) : V3 := fun d => if 1e-4 > s d then 1e-4 else s d

/-- `tau_trial`, lines 60-63. -/
noncomputable def tauTrial (mu lambda : ℝ) (s : V3) : V3 :=
  let c := clamp s
  let j := c 0 * c 1 * c 2
  fun d => 2 * mu * (c d - 1) * c d + lambda * (j - 1) * j

/-- `s_trial`, line 65. -/
noncomputable def sTrial (tau : V3) : V3 := fun d => tau d - (tau 0 + tau 1 + tau 2) / 3

/-- `s_norm`, line 66. -/
noncomputable def norm3 (x : V3) : ℝ := Real.sqrt (x 0 * x 0 + x 1 * x 1 + x 2 * x 2)

/-- `scaled_tauy`, line 67. -/
noncomputable def tauY (yieldStress : ℝ) : ℝ := Real.sqrt (2 / (6 - 3)) * yieldStress

/-- `tau_new`, lines 69-70. -/
noncomputable def tauNew (yieldStress : ℝ) (tau : V3) : V3 :=
  let alpha := tauY yieldStress / norm3 (sTrial tau)
  fun d => alpha * sTrial tau d + (tau 0 + tau 1 + tau 2) / 3

/-- `b2m4ac`, lines 71 and 73: `J` is one. -/
noncomputable def discriminant (mu lambda : ℝ) (t : V3) (d : Fin 3) : ℝ :=
  let j : ℝ := 1
  mu * mu - 2 * mu * (lambda * (j - 1) * j - t d)

/-- The new `S(d)`, lines 76-78. -/
noncomputable def root (mu lambda : ℝ) (t : V3) : V3 := fun d =>
  let b := discriminant mu lambda t d
  (mu + if b < 0 then 0 else Real.sqrt b) / (2 * mu)

/-- The condition of line 68. -/
def Yields (mu lambda yieldStress : ℝ) (s : V3) : Prop := norm3 (sTrial (tauTrial mu lambda s)) - tauY yieldStress > 0

open Classical in
/-- `S` after line 82. -/
noncomputable def vmS (mu lambda yieldStress : ℝ) (s : V3) : V3 :=
  if Yields mu lambda yieldStress s then root mu lambda (tauNew yieldStress (tauTrial mu lambda s)) else s

open Classical in
/-- `F` after line 82. -/
noncomputable def vmF (mu lambda yieldStress : ℝ) (u : V9) (s : V3) (v f : V9) : V9 :=
  if Yields mu lambda yieldStress s then matDiagMatT3 u (vmS mu lambda yieldStress s) v else f

/-- `PF`: lines 84-112 are the same as 17-45. -/
noncomputable def vmPF (volume mu lambda yieldStress : ℝ) (u : V9) (s : V3) (v f : V9) : V9 :=
  corotatedStress volume mu lambda u (vmS mu lambda yieldStress s) v (vmF mu lambda yieldStress u s v f)

/-! ## `compute_stress_sand` -/

/-- `epsilon`, lines 254-258. -/
noncomputable def epsilon (cohesion : ℝ) (s : V3) : V3 := fun i =>
  let a := if s i > 0 then s i else -s i
  let a := if a > 1e-4 then a else 1e-4
  Real.log a - cohesion

/-- `epsilon_hat`, line 264. -/
noncomputable def epsilonHat (trace : ℝ) (e : V3) : V3 := fun i => e i - trace / 3

/-- `delta_gamma`, lines 282-283. -/
noncomputable def deltaGamma (mu lambda yieldSurface trace norm : ℝ) : ℝ := norm + (3 * lambda + 2 * mu) / (2 * mu) * trace * yieldSurface

open Classical in
/-- `H`, lines 284-292. -/
noncomputable def sandH (mu lambda cohesion yieldSurface : ℝ) (e : V3) (trace : ℝ) : Option V3 :=
  let hat := epsilonHat trace e
  let norm := norm3 hat
  let dg := deltaGamma mu lambda yieldSurface trace norm
  if dg ≤ 0 then some fun i => e i + cohesion
  else if norm = 0 then none
  else some fun i => e i - dg / norm * hat i + cohesion

open Classical in
/-- `New_S` and `logJp` after line 299.  `New_S` stays zero if `mu` is zero and the trace negative. -/
noncomputable def sandS (mu lambda cohesion beta yieldSurface : ℝ) (volCorrection : Bool) (logJp : ℝ) (s : V3) : Option (V3 × ℝ) :=
  let e := epsilon cohesion s
  let sum := e 0 + e 1 + e 2
  let trace := sum + logJp
  if trace ≥ 0 then some (fun _ => Real.exp cohesion, if volCorrection then beta * sum + logJp else logJp)
  else if mu ≠ 0 then (sandH mu lambda cohesion yieldSurface e trace).map fun h => (fun i => Real.exp (h i), 0)
  else some (0, logJp)

/-- `P_hat`, lines 302-311. -/
noncomputable def sandPHat (mu lambda : ℝ) (s : V3) : Option V3 :=
  if s 0 = 0 ∨ s 1 = 0 ∨ s 2 = 0 then none
  else
    let l : V3 := fun i => Real.log (s i)
    let trace := l 0 + l 1 + l 2
    some fun i => (2 * mu * l i + lambda * trace) / s i

/-- `PF` of lines 316-324, from `P` and `F`. -/
noncomputable def pft (volume : ℝ) (p f : V9) : V9 :=
  ![(p 0 * f 0 + p 3 * f 3 + p 6 * f 6) * volume, (p 1 * f 0 + p 4 * f 3 + p 7 * f 6) * volume, (p 2 * f 0 + p 5 * f 3 + p 8 * f 6) * volume,
    (p 0 * f 1 + p 3 * f 4 + p 6 * f 7) * volume, (p 1 * f 1 + p 4 * f 4 + p 7 * f 7) * volume, (p 2 * f 1 + p 5 * f 4 + p 8 * f 7) * volume,
    (p 0 * f 2 + p 3 * f 5 + p 6 * f 8) * volume, (p 1 * f 2 + p 4 * f 5 + p 7 * f 8) * volume, (p 2 * f 2 + p 5 * f 5 + p 8 * f 8) * volume]

/-- `F`, `logJp` and `PF`.  In all branches that continue, `F` is made of the new singular values. -/
noncomputable def sand (volume mu lambda cohesion beta yieldSurface : ℝ) (volCorrection : Bool) (logJp : ℝ) (u : V9) (s : V3) (v : V9) : Option (V9 × ℝ × V9) := do
  let (s', logJp') ← sandS mu lambda cohesion beta yieldSurface volCorrection logJp s
  let f' := matDiagMatT3 u s' v
  let p ← sandPHat mu lambda s'
  some (f', logJp', pft volume (matDiagMatT3 u p v) f')

/-! ## `compute_stress_nacc` -/

/-- Parameters of the model. -/
structure Nacc where
  mu : ℝ
  bm : ℝ
  xi : ℝ
  beta : ℝ
  msqr : ℝ

/-- `p0`, line 122. -/
noncomputable def Nacc.p0 (m : Nacc) (logJp : ℝ) : ℝ := m.bm * 0.00001 + Real.sin (m.xi * if -logJp > 0 then -logJp else 0)

/-- `p_min`, line 123. -/
noncomputable def Nacc.pMin (m : Nacc) (logJp : ℝ) : ℝ := -m.beta * m.p0 logJp

/-- `p_trial`, lines 125 and 134-135. -/
noncomputable def Nacc.pTrial (m : Nacc) (s : V3) : ℝ :=
  let j := s 0 * s 1 * s 2;
  -(m.bm * 0.5 * (j - 1 / j)) * j

/-- `trace_B_hat_trial_divdim`, lines 128-129. -/
noncomputable def meanB (s : V3) : ℝ := (s 0 * s 0 + s 1 * s 1 + s 2 * s 2) / 3

/-- `s_hat_trial`, lines 130-133. -/
noncomputable def Nacc.sHat (m : Nacc) (s : V3) : V3 := fun i => m.mu * (s 0 * s 1 * s 2) ^ (-2 / 3 : ℝ) * (s i * s i - meanB s)

/-- `y_s_half_coeff`, line 137. -/
noncomputable def Nacc.ysCoeff (m : Nacc) : ℝ := 3 / 2 * (1 + 2 * m.beta)

/-- `y_p_half`, line 138. -/
noncomputable def Nacc.yp (m : Nacc) (logJp : ℝ) (s : V3) : ℝ := m.msqr * (m.pTrial s - m.pMin logJp) * (m.pTrial s - m.p0 logJp)

/-- `s_hat_trial_sqrnorm`, lines 139-140. -/
noncomputable def sqrNorm (x : V3) : ℝ := x 0 * x 0 + x 1 * x 1 + x 2 * x 2

/-- `y`, line 141. -/
noncomputable def Nacc.y (m : Nacc) (logJp : ℝ) (s : V3) : ℝ := m.ysCoeff * sqrNorm (m.sHat s) + m.yp logJp s

/-- `B_s_coeff`, lines 172-173. -/
noncomputable def Nacc.bs (m : Nacc) (logJp : ℝ) (s : V3) : ℝ :=
  (s 0 * s 1 * s 2) ^ (2 / 3 : ℝ) / m.mu * Real.sqrt (-m.yp logJp s / m.ysCoeff) / Real.sqrt (sqrNorm (m.sHat s))

open Classical in
/-- `S` after line 217. -/
noncomputable def Nacc.newS (m : Nacc) (logJp : ℝ) (s : V3) : V3 :=
  if m.pTrial s > m.p0 logJp then fun _ => Real.sqrt (-2 * m.p0 logJp / m.bm + 1) ^ (1 / 3 : ℝ)
  else if m.pTrial s < m.pMin logJp then fun _ => Real.sqrt (-2 * m.pMin logJp / m.bm + 1) ^ (1 / 3 : ℝ)
  else if m.y logJp s ≥ 1e-4 then fun i => Real.sqrt (m.sHat s i * m.bs logJp s + meanB s)
  else s

open Classical in
/-- `F` after line 217: kept inside of the yield surface. -/
noncomputable def Nacc.newF (m : Nacc) (logJp : ℝ) (u : V9) (s : V3) (v f : V9) : V9 :=
  if m.pTrial s > m.p0 logJp ∨ m.pTrial s < m.pMin logJp ∨ m.y logJp s ≥ 1e-4 then matDiagMatT3 u (m.newS logJp s) v else f

/-- `PF`, lines 222-238. -/
noncomputable def Nacc.pf (m : Nacc) (volume logJp : ℝ) (u : V9) (s : V3) (v f : V9) : V9 :=
  let s' := m.newS logJp s
  let j := s' 0 * s' 1 * s' 2
  let b := deviatoric3 (mulSelfTranspose3 (m.newF logJp u s v f))
  let dev := m.mu * j ^ (-2 / 3 : ℝ)
  let i := m.bm * 0.5 * (j * j - 1)
  ![(dev * b 0 + i) * volume, dev * b 1 * volume, dev * b 2 * volume, dev * b 3 * volume, (dev * b 4 + i) * volume, dev * b 5 * volume,
    dev * b 6 * volume, dev * b 7 * volume, (dev * b 8 + i) * volume]

end Verif.Stress
