import Verif.Model.Friction

/-! What a tangent basis and the maps between displacements and tangent displacements have to satisfy. -/
namespace Verif.Friction

open Verif.Rotation (V cross dot3 nsq3 unit3)

/-- Two columns of length one at a right angle to each other and to `w`. -/
structure Tangent (b : Basis) (w : V 3) : Prop where
  len : ∀ k, ∑ d, b d k * b d k = 1
  ortho : ∑ d, b d 0 * b d 1 = 0
  normal : ∀ k, ∑ d, b d k * w d = 0

/-- Point sets are not degenerate: the cross product is not zero. -/
def Apart (a b : V 3) : Prop := ∃ i, cross a b i ≠ 0

/-- `mesh` takes forces in the tangent plane to forces on the points by which `rel`, seen in the basis, is moved with the same work, and `tt` is the matrix of that. -/
structure Dual {k : ℕ} (b : Basis) (rel : (Fin k → V 3) → V 3) (mesh : V 2 → Fin k → V 3) (tt : Fin 2 → Fin k → V 3) : Prop where
  work : ∀ t dx, ∑ p, ∑ d, mesh t p d * dx p d = ∑ r, t r * ∑ d, b d r * rel dx d
  matrix : ∀ r dx, ∑ p, ∑ c, tt r p c * dx p c = ∑ d, b d r * rel dx d
  balance : ∀ t d, ∑ p, mesh t p d = 0
  rigid : ∀ x, rel (fun _ => x) = 0

end Verif.Friction
