import Mathlib.Data.Complex.Basic
import Mathlib.Analysis.Real.Sqrt

/-!
Model of the scalar functions in `include/zensim/math/MathUtils.h` (M) and `include/zensim/ZpcMathUtils.hpp` (Z) that are not library calls.

Numbers are real, integers unbounded.  The logarithm quotients are in `Verif.Model.Elastic`; `gcd`, `lcm` and `pow_integral` in `Verif.Model.Rational`.
`newton_solve_for_cubic_equation` (M lines 374-447) is not modelled: it returns nothing from a function that returns `T`, so no call of it compiles.
-/
namespace Verif.MathUtils

/-- What `sqrtNewtonRaphson` returns; `running`: the iteration has not ended within the given number of steps. -/
inductive Out
  | nan
  | val (x : ℝ)
  | running

open Classical in
/-- The loop of `sqrtNewtonRaphson`, M lines 246-250: at each step `xn` is the old value. -/
noncomputable def newtonLoop (n tol : ℝ) : Nat → ℝ → Out
  | 0, _ => .running
  | k + 1, xn =>
    let xnp1 := 0.5 * (xn + n / xn)
    if |xnp1 - xn| > tol then newtonLoop n tol k xnp1 else .val xnp1

open Classical in
/-- `sqrtNewtonRaphson`, M lines 239-251; `eps` is 128 times the machine epsilon. -/
noncomputable def sqrtNewtonRaphson (fuel : Nat) (eps relTol n : ℝ) : Out :=
  if n < -eps then .nan
  else if n < eps then .val 0
  else newtonLoop n (max (n * relTol) eps) fuel 1

/-- `incl_prefix_sum`, Z lines 270-272, 1784-1786: the parameter pack with its indices, a right fold. -/
def inclPrefixSum (I : Int) (args : List Int) : Int := (args.zipIdx.map fun p => if (p.2 : Int) ≤ I then p.1 else 0).foldr (· + ·) 0

/-- `excl_prefix_sum`, Z lines 274-276, 1787-1789. -/
def exclPrefixSum (I : Int) (args : List Int) : Int := (args.zipIdx.map fun p => if (p.2 : Int) < I then p.1 else 0).foldr (· + ·) 0

/-- `excl_suffix_mul`, Z lines 278-280, 1790-1792. -/
def exclSuffixMul (I : Int) (args : List Int) : Int := (args.zipIdx.map fun p => if (p.2 : Int) > I then p.1 else 1).foldr (· * ·) 1

open Classical in
/-- `get_smallest_positive_real_quad_root`, M lines 325-339; `none`: division by zero. -/
noncomputable def quadRoot (tol a b c : ℝ) : Option ℝ :=
  if |a| ≤ tol then if b = 0 then none else some (-c / b)
  else
    let desc := b * b - 4 * a * c
    if desc > 0 then
      let t := (-b - Real.sqrt desc) / (2 * a)
      some (if t < 0 then (-b + Real.sqrt desc) / (2 * a) else t)
    else some (-1)

/-- The numbers computed in M lines 347-363. -/
structure Cardano where
  delta0 : ℂ
  delta1 : ℂ
  C : ℂ
  t1 : ℂ
  t2 : ℂ
  t3 : ℂ

open Classical in
/-- M lines 347-363.  `sq` and `cb` stand for `zs::sqrt(z)` and `zs::pow(z, 1/3)` of complex numbers. -/
noncomputable def cardano (sq cb : ℂ → ℂ) (a b c d : ℝ) : Cardano :=
  let delta0 : ℂ := (b * b - 3 * a * c : ℝ)
  let delta1 : ℂ := (2 * b * b * b - 9 * a * b * c + 27 * a * a * d : ℝ)
  let C := cb ((delta1 + sq (delta1 * delta1 - 4 * delta0 * delta0 * delta0)) / 2)
  let C := if C = 0 then cb ((delta1 - sq (delta1 * delta1 - 4 * delta0 * delta0 * delta0)) / 2) else C
  let u2 : ℂ := (-1 + Real.sqrt 3 * Complex.I) / 2
  let u3 : ℂ := (-1 - Real.sqrt 3 * Complex.I) / 2
  let t1 := (b + C + delta0 / C) / (-3 * a)
  let t2 := (b + u2 * C + delta0 / (u2 * C)) / (-3 * a)
  let t3 := (b + u3 * C + delta0 / (u3 * C)) / (-3 * a)
  ⟨delta0, delta1, C, t1, t2, t3⟩

open Classical in
/-- `get_smallest_positive_real_cubic_root`, M lines 341-372.  If `C` is zero the quotients by it are not numbers, and every comparison fails. -/
noncomputable def cubicRoot (sq cb : ℂ → ℂ) (tol a b c d : ℝ) : Option ℝ :=
  if |a| ≤ tol then quadRoot tol b c d
  else
    let r := cardano sq cb a b c d
    if r.C = 0 then some (-1)
    else
      let t : ℝ := -1
      let t := if |r.t1.im| < tol ∧ r.t1.re > 0 then r.t1.re else t
      let t := if |r.t2.im| < tol ∧ r.t2.re > 0 ∧ (r.t2.re < t ∨ t < 0) then r.t2.re else t
      let t := if |r.t3.im| < tol ∧ r.t3.re > 0 ∧ (r.t3.re < t ∨ t < 0) then r.t3.re else t
      some t

end Verif.MathUtils
