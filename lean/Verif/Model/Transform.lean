import Verif.Model.Givens
import Mathlib.Data.Matrix.Mul
import Mathlib.Data.Fin.SuccPred

/-!
Model of `include/zensim/math/matrix/Transform.hpp`: affine maps as matrices and their decomposition.

Numbers are real; `d` is the dimension of space, the matrices have one row and one column more.  The last index is `Fin.last d`, the others are `castSucc`.
The products `tr * self()` are the matrix product of C75.
-/
namespace Verif.Transform

variable {d : ℕ}

abbrev Mat (d : ℕ) := Matrix (Fin (d + 1)) (Fin (d + 1)) ℝ

/-- `setToTranslation`, lines 19-22. -/
def setToTranslation (v : Fin d → ℝ) : Mat d := fun i j =>
  if i = Fin.last d then Fin.lastCases ((1 : Mat d) i j) (fun k => v k) j else (1 : Mat d) i j

/-- `preTranslate`, lines 25-29. -/
def preTranslate (m : Mat d) (v : Fin d → ℝ) : Mat d := setToTranslation v * m

/-- `postTranslate`, lines 32-36. -/
def postTranslate (m : Mat d) (v : Fin d → ℝ) : Mat d := m * setToTranslation v

/-- `setToScale`, lines 40-43. -/
def setToScale (v : Fin d → ℝ) : Mat d := fun i j => if i = j then Fin.lastCases ((1 : Mat d) i j) (fun k => v k) i else (1 : Mat d) i j

/-- `preScale`, lines 46-49. -/
def preScale (m : Mat d) (v : Fin d → ℝ) : Mat d := fun i j => Fin.lastCases (m (Fin.last d) j) (fun k => m k.castSucc j * v k) i

/-- `postScale`, lines 52-55. -/
def postScale (m : Mat d) (v : Fin d → ℝ) : Mat d := fun i j => Fin.lastCases (m i (Fin.last d)) (fun k => m i k.castSucc * v k) j

/-- The block of a matrix without the last row and column, and its inverse with zeros and a one (lines 60-63 and 101-111). -/
def block (m : Mat d) : Matrix (Fin d) (Fin d) ℝ := fun i j => m i.castSucc j.castSucc
def embed (a : Matrix (Fin d) (Fin d) ℝ) : Mat d := fun i j =>
  Fin.lastCases (Fin.lastCases 1 (fun _ => 0) j) (fun i' => Fin.lastCases 0 (fun j' => a i' j') j) i

/-- `setToRotation`, lines 59-64: the transpose of the rotation. -/
def setToRotation (r : Matrix (Fin d) (Fin d) ℝ) : Mat d := embed fun i j => r j i

/-- `preRotate`, lines 67-71. -/
def preRotate (m : Mat d) (r : Matrix (Fin d) (Fin d) ℝ) : Mat d := setToRotation r * m

/-- `postRotate`, lines 74-78. -/
def postRotate (m : Mat d) (r : Matrix (Fin d) (Fin d) ℝ) : Mat d := m * setToRotation r

/-- The identity with the last column of `H`, lines 95-99. -/
def translationOf (H : Mat d) : Mat d := fun i j => Fin.lastCases ((1 : Mat d) (Fin.last d) j) (fun i' => if j = Fin.last d then H i'.castSucc j else (1 : Mat d) i'.castSucc j) i

/-- `decompose_transform` with three matrices as result, lines 84-114; `polar` is `polar_decomposition`. -/
def decompose (polar : Matrix (Fin d) (Fin d) ℝ → Matrix (Fin d) (Fin d) ℝ × Matrix (Fin d) (Fin d) ℝ) (m : Mat d) (applyOnColumn : Bool) : Mat d × Mat d × Mat d :=
  let H := if applyOnColumn then m else m.transpose
  let T := translationOf H
  let p := polar (block H)
  let R := embed p.1
  let S := embed p.2
  if applyOnColumn then (T, R, S) else (S.transpose, R.transpose, T.transpose)

/-- `decompose_transform` with scale, rotation and translation as arguments, lines 133-156: the values written to `s`, `r` and `t`. -/
def decomposeInto (polar : Matrix (Fin d) (Fin d) ℝ → Matrix (Fin d) (Fin d) ℝ × Matrix (Fin d) (Fin d) ℝ) (m : Mat d) (applyOnColumn : Bool) :
    Matrix (Fin d) (Fin d) ℝ × Matrix (Fin d) (Fin d) ℝ × (Fin d → ℝ) :=
  let H := if applyOnColumn then m else m.transpose
  let p := polar (block H)
  (p.2, p.1, fun i => H i.castSucc (Fin.last d))

/-- `polar_decomposition` in two dimensions (C76). -/
noncomputable def polarTwo (A : Matrix (Fin 2) (Fin 2) ℝ) : Matrix (Fin 2) (Fin 2) ℝ × Matrix (Fin 2) (Fin 2) ℝ :=
  let p := Rot.polarDecomposition2 fun i j => if h : i < 2 ∧ j < 2 then A ⟨i, h.1⟩ ⟨j, h.2⟩ else 0
  (fun i j => p.1 i j, fun i j => p.2 i j)

end Verif.Transform
