import Verif.Model.Collider

/-! The placement of the object in space, and contact rules for relative velocities. -/
namespace Verif.Collider
open Verif.Shapes Matrix

variable {n : ℕ}

/-- `φ`: where a point of the material is. -/
def place (s : ℝ) (R : Matrix (Fin n) (Fin n) ℝ) (b X : V n) : V n := s • (R *ᵥ X) + b

/-- What a contact may make of the velocity `u` relative to the object, with unit normal `m`. -/
def Contact : Kind → V n → V n → V n → Prop
  | .sticky, _, _, u' => u' = 0
  | .slip, m, u, u' => dot m u' = 0 ∧ ∃ c : ℝ, u' = u + c • m
  | .separate, m, u, u' => (0 ≤ dot m u → u' = u) ∧ (dot m u < 0 → dot m u' = 0 ∧ ∃ c : ℝ, 0 ≤ c ∧ u' = u + c • m)

end Verif.Collider
