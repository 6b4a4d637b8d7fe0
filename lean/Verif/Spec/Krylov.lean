import Verif.Model.Krylov
import Mathlib.LinearAlgebra.FiniteDimensional.Lemmas

/-!
Linear systems that the iterative solvers are made for.
-/
namespace Verif.Krylov

/-- The system of three linear maps. -/
def sys {n : Nat} (A P M : Vec n →ₗ[ℝ] Vec n) : System n := ⟨A, P, M⟩

/-- A is symmetric, P is an orthogonal projection (onto the vectors that can change), A is positive definite on its range, M is symmetric, maps the range to itself and is
positive definite on it. -/
structure Good {n : Nat} (A P M : Vec n →ₗ[ℝ] Vec n) : Prop where
  symA : ∀ u v, dot (A u) v = dot u (A v)
  symP : ∀ u v, dot (P u) v = dot u (P v)
  idemP : ∀ u, P (P u) = P u
  posA : ∀ u, P u = u → u ≠ 0 → 0 < dot u (A u)
  symM : ∀ u v, dot (M u) v = dot u (M v)
  rangeM : ∀ u, P u = u → P (M u) = M u
  posM : ∀ u, P u = u → u ≠ 0 → 0 < dot u (M u)

/-- The function that the solution minimizes. -/
noncomputable def energy {n : Nat} (A : Vec n →ₗ[ℝ] Vec n) (b x : Vec n) : ℝ := dot x (A x) / 2 - dot b x

/-- The residual of the equations that are not fixed. -/
def resid {n : Nat} (A P : Vec n →ₗ[ℝ] Vec n) (b x : Vec n) : Vec n := P (b - A x)

/-- The square of the residual in the norm of M. -/
def resM {n : Nat} (A P M : Vec n →ₗ[ℝ] Vec n) (b x : Vec n) : ℝ := dot (resid A P b x) (M (resid A P b x))

/-- The vectors M r, M P A M r, (M P A)² M r, … (k of them) span the space in which the solver looks for the solution. -/
def krylov {n : Nat} (A P M : Vec n →ₗ[ℝ] Vec n) (r : Vec n) (k : Nat) : Submodule ℝ (Vec n) :=
  Submodule.span ℝ {v | ∃ j < k, v = (fun u => M (P (A u)))^[j] (M r)}

end Verif.Krylov
