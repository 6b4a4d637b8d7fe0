import Verif.Model.Rotation
import Mathlib.LinearAlgebra.Matrix.Determinant.Basic

/-!
What a rotation is.
-/
namespace Verif.Rotation

/-- An orthogonal matrix of determinant one. -/
def IsRot {n : Nat} (R : M n) : Prop := R * R.transpose = 1 ∧ R.det = 1

/-- The rotations about the axes, by the right hand rule. -/
noncomputable def rotX (a : ℝ) : M 3 := !![1, 0, 0; 0, Real.cos a, -Real.sin a; 0, Real.sin a, Real.cos a]
noncomputable def rotY (a : ℝ) : M 3 := !![Real.cos a, 0, Real.sin a; 0, 1, 0; -Real.sin a, 0, Real.cos a]
noncomputable def rotZ (a : ℝ) : M 3 := !![Real.cos a, -Real.sin a, 0; Real.sin a, Real.cos a, 0; 0, 0, 1]

end Verif.Rotation
