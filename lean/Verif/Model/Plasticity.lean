import Mathlib.Analysis.SpecialFunctions.Pow.Real
import Mathlib.Analysis.SpecialFunctions.Trigonometric.DerivHyp

/-!
Model of the plastic projections in `include/zensim/physics/plasticity_models/`: `SnowPlasticity.hpp` (S), `VonMisesCapped.hpp` (C),
`NonAssociativeDruckerPrager.hpp` (D), `NonAssociativeVonMises.hpp` (V) and `NonAssociativeCamClay.hpp` (K).

Each takes the vector of singular values (here of any length `n`; the code has at most three) and overwrites it.
Numbers are real.  The constants obtained from `sqrtNewtonRaphson` are parameters, and so is the bound of `near_zero`.
`AssociativeVonMises.hpp` (a Newton iteration without an end guarantee) and `AssociativePlasticity.hpp` (a second class of the same name) are not modelled.
-/
namespace Verif.Plastic

variable {n : ℕ}

/-- `sum`, `VecInterface.hpp`. -/
noncomputable def tr (v : Fin n → ℝ) : ℝ := ∑ i, v i

/-- `l2NormSqr`, `VecInterface.hpp` lines 471-477. -/
noncomputable def normSq (v : Fin n → ℝ) : ℝ := ∑ i, v i * v i

/-- `norm`, `VecInterface.hpp` lines 487-499. -/
noncomputable def norm (v : Fin n → ℝ) : ℝ := Real.sqrt (normSq v)

/-- `deviatoric` of a vector, `VecInterface.hpp` lines 662-668, and the same written out in C line 39 and D line 33. -/
noncomputable def dev (v : Fin n → ℝ) : Fin n → ℝ := fun i => v i - tr v / n

/-- The elastic parameters a projection reads. -/
structure Elastic where
  mu : ℝ
  lam : ℝ

/-- S lines 14-18. -/
structure Snow where
  thetaC : ℝ
  thetaS : ℝ
  xi : ℝ

/-- The clamp of S line 29. -/
noncomputable def Snow.clamp (m : Snow) (s : ℝ) : ℝ := max (min s (1 + m.thetaS)) (1 - m.thetaC)

/-- `do_project_sigma`, S lines 24-33: the new singular values and the hardened parameters. -/
noncomputable def Snow.project (m : Snow) (e0 : Elastic) (S : Fin n → ℝ) : (Fin n → ℝ) × Elastic :=
  let J := ∏ i, S i
  let S' := fun i => m.clamp (S i)
  let Jp := J / max (∏ i, S' i) 1e-6
  let e := Real.exp (m.xi * (1 - Jp))
  (S', ⟨e0.mu * e, e0.lam * e⟩)

/-- C lines 18-22. -/
structure Capped where
  k1Compress : ℝ
  k1Stretch : ℝ
  yieldStress : ℝ

open Classical in
/-- The radial return in C lines 37-45 and lines 81-84, 90, 109, 151-153, with yield stress `ys`. -/
noncomputable def radial (ys : ℝ) (e : Elastic) (S : Fin n → ℝ) : Fin n → ℝ :=
  let eps := fun i => Real.log (S i)
  let dn := norm (dev eps)
  let dg := dn - ys / (e.mu + e.mu)
  if dg > 0 then fun i => Real.exp (eps i - dg / dn * dev eps i) else S

open Classical in
/-- `do_project_sigma`, C lines 28-51. -/
noncomputable def Capped.project (m : Capped) (e : Elastic) (S : Fin n → ℝ) : Fin n → ℝ :=
  let m2 := e.mu + e.mu
  let dl := n * e.lam
  let t := tr fun i => Real.log (S i)
  let S1 := radial m.yieldStress e S
  if t > m.k1Stretch / (dl + m2) then fun i => S1 i * Real.exp (m.k1Stretch / (n * dl + n * m2) - t / n)
  else if t < -m.k1Compress / (dl + m2) then fun i => S1 i * Real.exp (-m.k1Compress / (n * dl + n * m2) - t / n)
  else S1

/-- `project_strain` with a strain rate, C lines 67-171, on the singular values (the caps are compiled out). -/
noncomputable def Capped.projectRate (m : Capped) (e : Elastic) (rate c p : ℝ) (S : Fin n → ℝ) : Fin n → ℝ :=
  radial (m.yieldStress * (1 + (rate / c) ^ p)) e S

/-- `tau0` as set by the constructor, D lines 20-24; `coeff` is the Newton root of `2 / 3`. -/
noncomputable def frictionSlope (coeff angle : ℝ) : ℝ :=
  let s := Real.sin (angle / 180 * Real.pi)
  coeff * (s + s) / (3 - s)

open Classical in
/-- `do_project_sigma`, D lines 29-51; `tol` is the bound of `near_zero`. -/
noncomputable def drucker (tol tau0 : ℝ) (e : Elastic) (S : Fin n → ℝ) : Bool × (Fin n → ℝ) :=
  let eps := fun i => Real.log (S i)
  let t := tr eps
  let dn := norm (dev eps)
  if (-tol ≤ dn ∧ dn ≤ tol) ∨ t > 0 then (true, fun _ => 1)
  else
    let m2 := e.mu + e.mu
    let dg := dn + (n * e.lam + m2) / m2 * t * tau0
    if dg ≤ 0 then (false, S)
    else (true, fun i => Real.exp (eps i - dg / dn * dev eps i))

/-- V lines 15-19. -/
structure VonMises where
  tauY : ℝ
  alpha : ℝ
  hardeningCoeff : ℝ

/-- `scaledTauY`, V lines 32-34; `coeff` is the Newton root of `2 / (6 - dim)`. -/
noncomputable def VonMises.bound (m : VonMises) (coeff : ℝ) : ℝ := coeff * (m.tauY + m.hardeningCoeff * m.alpha)

open Classical in
/-- `do_project_sigma`, V lines 25-59. -/
noncomputable def VonMises.project (m : VonMises) (coeff : ℝ) (e : Elastic) (S : Fin n → ℝ) : Bool × (Fin n → ℝ) :=
  let B := fun i => S i * S i
  let scaledMu := e.mu * (∏ i, S i) ^ (-2 / (n : ℝ))
  let s := fun i => scaledMu * dev B i
  let sn := norm s
  let y := sn - m.bound coeff
  if y < 1e-4 then (false, S)
  else
    let z := y / scaledMu
    (true, fun i => Real.sqrt (B i - z / sn * s i))

/-- K lines 18-29. -/
structure CamClay where
  M : ℝ
  beta : ℝ
  xi : ℝ
  hardeningOn : Bool

/-- `kappa`, K line 37. -/
noncomputable def Elastic.kappa (e : Elastic) : ℝ := e.lam + e.mu * 2 / 3

/-- `p0`, K line 39. -/
noncomputable def CamClay.p0 (m : CamClay) (e : Elastic) (logJp : ℝ) : ℝ := e.kappa * (1e-5 + m.xi * Real.sinh (max (-logJp) 0))

open Classical in
/-- The change of `logJp` by the hardening in K lines 86-126, in the order of the code; `r` is the Newton root of `(6 - dim) / 2`. -/
noncomputable def CamClay.harden (m : CamClay) (r : ℝ) (e : Elastic) (p0 pTrial side sn : ℝ) : ℝ :=
  let pMin := m.beta * p0
  let pMax := p0
  let pCenter := p0 * ((1 - m.beta) * 0.5)
  let qTrial := r * sn
  let len := Real.sqrt ((pCenter - pTrial) * (pCenter - pTrial) + -qTrial * -qTrial)
  let d0 := (pCenter - pTrial) / len
  let d1 := -qTrial / len
  let C := m.M * m.M * (pCenter + m.beta * p0) * (pCenter - p0)
  let B := m.M * m.M * d0 * (pCenter + pCenter - p0 + m.beta * p0)
  let A := m.M * m.M * d0 * d0 + (1 + m.beta + m.beta) * d1 * d1
  let deltaSqrt := Real.sqrt (B * B - 4 * A * C)
  let l1 := (-B + deltaSqrt) / (A + A)
  let l2 := (-B - deltaSqrt) / (A + A)
  let p1 := pCenter + l1 * d0
  let p2 := pCenter + l2 * d0
  let pFake := if (pTrial - pCenter) * (p1 - pCenter) > 0 then p1 else p2
  let qNPlus := Real.sqrt (m.M * m.M * (pTrial + pMin) * (pMax - pTrial) / (1 + m.beta + m.beta))
  let zTrial := Real.sqrt (qTrial * side / (e.mu * r) + 1)
  let zNPlus := Real.sqrt (qNPlus * side / (e.mu * r) + 1)
  let dOmega := if pTrial > pFake then -1 * Real.log (zTrial / zNPlus) else Real.log (zTrial / zNPlus)
  if zNPlus > 1e-4 then dOmega else 0

/-- What `NonAssociativeCamClay::do_project_sigma` returns and writes. -/
structure ClayOut (n : ℕ) where
  ret : Bool
  S : Fin n → ℝ
  logJp : ℝ

open Classical in
/-- `do_project_sigma`, K lines 34-129. -/
noncomputable def CamClay.project (m : CamClay) (r : ℝ) (e : Elastic) (S : Fin n → ℝ) (logJp : ℝ) : ClayOut n :=
  let kappa := e.kappa
  let p0 := m.p0 e logJp
  let J := ∏ i, S i
  let B := fun i => S i * S i
  let side := J ^ (2 / (n : ℝ))
  let s := fun i => e.mu / side * dev B i
  let prime := kappa / 2 * (J - 1 / J)
  let pTrial := -prime * J
  let pMin := m.beta * p0
  let pMax := p0
  if pTrial > pMax then
    let Je := Real.sqrt (-(pMax + pMax) / kappa + 1)
    ⟨true, fun _ => Je ^ (1 / (n : ℝ)), if m.hardeningOn then logJp + Real.log (J / Je) else logJp⟩
  else if pTrial < -pMin then
    let Je := Real.sqrt ((pMin + pMin) / kappa + 1)
    ⟨true, fun _ => Je ^ (1 / (n : ℝ)), if m.hardeningOn then logJp + Real.log (J / Je) else logJp⟩
  else
    let ysCoeff := (6 - n) * 0.5 * (1 + 2 * m.beta)
    let yp := m.M * m.M * (pTrial + pMin) * (pTrial - pMax)
    let y := ysCoeff * normSq s + yp
    if y < 1e-4 then ⟨false, S, logJp⟩
    else
      let sn := norm s
      let S' := fun i => Real.sqrt (side / e.mu * Real.sqrt (-yp / ysCoeff) * s i / sn + 1 / n * tr B)
      if p0 > 1e-4 ∧ pTrial < pMax - 1e-4 ∧ pTrial > 1e-4 - pMin then
        ⟨true, S', if m.hardeningOn then logJp + m.harden r e p0 pTrial side sn else logJp⟩
      else ⟨true, S', logJp⟩

end Verif.Plastic
