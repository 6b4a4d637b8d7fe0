import Verif.Model.Particles
import Mathlib.LinearAlgebra.Matrix.Defs

/-! Consistent sets of attributes. -/
namespace Verif.Particles

variable {K : Type} [Field K]

/-- There are `n` particles: the positions are vectors, and every attribute has `n` elements of its kind. -/
structure Consistent (d n : Nat) (p : Particles K) : Prop where
  pos : ∃ a, p.lookup "x" = some a ∧ a.kind = .vector
  len : ∀ name a, p.lookup name = some a → a.vals.length = n
  comps : ∀ name a, p.lookup name = some a → ∀ v ∈ a.vals, v.length = a.kind.comps d

/-- The matrix of an element. -/
def toMatrix (v : List K) : Matrix (Fin 3) (Fin 3) K := fun i j => v.getD (3 * i + j) 0

end Verif.Particles
