import Mathlib.Analysis.Real.Sqrt
import Mathlib.Data.Fintype.BigOperators

/-!
Model of the iterative solvers `include/zensim/math/linear/ConjugateGradient.hpp` ("G") and `ConjugateResidual.hpp` ("R").

A vector is a function of the number of the scalar (`DofView::get` with `scalar_c`), numbers are real: rounding is not modelled.  The three functions of the system are
arbitrary functions of vectors.  The output to the console is left out, as are the calls of `getchar` (G line 158, R line 149), which wait for a key.
`MinimumResidual.hpp` calls two functions, `compute` and `vecRotation`, that `GivensRotation` does not have; it is not modelled.
-/
namespace Verif.Krylov

abbrev Vec (n : Nat) := Fin n → ℝ

/-- `dotProduct`, G lines 60-69, R lines 59-68 (for `reduce` see C23). -/
def dot {n : Nat} (a b : Vec n) : ℝ := ∑ i, a i * b i

/-- `DofCompwiseOp{LinearCombineOp(m)}`, `LinearOperators.hpp` lines 32-39: m a + b. -/
def comb {n : Nat} (m : ℝ) (a b : Vec n) : Vec n := fun i => m * a i + b i

/-- The functions of `A`. -/
structure System (n : Nat) where
  multiply : Vec n → Vec n
  project : Vec n → Vec n
  precondition : Vec n → Vec n

/-! ## Conjugate gradients -/

structure Cg (n : Nat) where
  x : Vec n
  r : Vec n
  p : Vec n
  zTrk : ℝ

/-- G lines 76-118: x, r, p = q and zTrk before the loop. -/
def cgInit {n : Nat} (S : System n) (x b : Vec n) : Cg n :=
  let temp := S.multiply x
  let r := S.project (fun i => b i - temp i)
  let q := S.precondition r
  ⟨x, r, q, dot r q⟩

open Classical in
/-- G lines 126-157: one iteration; none if a divisor is zero. -/
noncomputable def cgStep {n : Nat} (S : System n) (s : Cg n) : Option (Cg n) :=
  let temp := S.project (S.multiply s.p)
  if dot temp s.p = 0 then none
  else
    let alpha := s.zTrk / dot temp s.p
    let x := comb alpha s.p s.x
    let r := comb (-alpha) temp s.r
    let q := S.precondition r
    let zTrk := dot q r
    if s.zTrk = 0 then none
    else
      let beta := zTrk / s.zTrk
      some ⟨x, r, comb beta s.p q, zTrk⟩

open Classical in
/-- G lines 122-159: the loop with the number of iterations that are left; the number of iterations and the state. -/
noncomputable def cgLoop {n : Nat} (S : System n) (localTol : ℝ) : Nat → Cg n → Option (Nat × Cg n)
  | 0, s => some (0, s)
  | k + 1, s =>
    if Real.sqrt s.zTrk ≤ localTol then some (0, s)
    else (cgStep S s).bind fun s => (cgLoop S localTol k s).map fun y => (y.1 + 1, y.2)

/-- The tolerance, G lines 120-121. -/
noncomputable def cgTol {n : Nat} (tol relTol : ℝ) (s : Cg n) : ℝ := min (relTol * Real.sqrt s.zTrk) tol

/-- `solve`, G lines 71-162 (`maxIters` is not negative): the number of iterations and the new `xinout`. -/
noncomputable def cgSolve {n : Nat} (S : System n) (maxIters : Nat) (tol relTol : ℝ) (x b : Vec n) : Option (Nat × Vec n) :=
  let s := cgInit S x b
  (cgLoop S (cgTol tol relTol s) maxIters s).map fun y => (y.1, y.2.x)

/-! ## Conjugate residuals -/

structure Cr (n : Nat) where
  x : Vec n
  rr : Vec n
  r : Vec n
  p : Vec n
  Ap : Vec n
  rArprev : ℝ

/-- R lines 75-108: before the loop.  The product `Ap` is not projected. -/
def crInit {n : Nat} (S : System n) (x b : Vec n) : Cr n :=
  let Ax := S.multiply x
  let rr := S.project (fun i => b i - Ax i)
  let r := S.precondition rr
  ⟨x, rr, r, r, S.multiply r, 0⟩

open Classical in
/-- R lines 112-147: the loop with the number of iterations that are left. -/
noncomputable def crLoop {n : Nat} (S : System n) (tol : ℝ) : Nat → Cr n → Nat × Cr n
  | 0, s => (0, s)
  | k + 1, s =>
    if dot s.rr s.rr ≤ tol then (0, s)
    else
      let Ar := S.project (S.multiply s.r)
      let rAr := dot s.r Ar
      if rAr = 0 then (0, s)
      else
        let beta := rAr / s.rArprev
        let p := if s.rArprev = 0 then s.p else comb beta s.p s.r
        let Ap := if s.rArprev = 0 then s.Ap else comb beta s.Ap Ar
        let MAp := S.precondition Ap
        let d := dot MAp Ap
        if d = 0 then (0, { s with p := p, Ap := Ap })
        else
          let alpha := rAr / d
          let y := crLoop S tol k ⟨comb alpha p s.x, comb (-alpha) Ap s.rr, comb (-alpha) MAp s.r, p, Ap, rAr⟩
          (y.1 + 1, y.2)

open Classical in
/-- The tolerance, R lines 110-111; it replaces the member `tol`. -/
noncomputable def crTol {n : Nat} (tol : ℝ) (b : Vec n) : ℝ := if tol * dot b b < tol then tol * dot b b else tol

/-- `solve`, R lines 70-151: the number of iterations, the new `xinout` and the new member `tol`. -/
noncomputable def crSolve {n : Nat} (S : System n) (maxIters : Nat) (tol : ℝ) (x b : Vec n) : Nat × Vec n × ℝ :=
  let t := crTol tol b
  let y := crLoop S t maxIters (crInit S x b)
  (y.1, y.2.x, t)

end Verif.Krylov
