import Mathlib.Data.Matrix.Mul
import Mathlib.Data.Fin.VecNotation

/-! The matrix in an array by columns. -/
namespace Verif.MatrixUtils

variable {R : Type*}

def mat3 (x : Fin 9 → R) : Matrix (Fin 3) (Fin 3) R := fun i j => x ⟨3 * j + i, by omega⟩

def mat2 (x : Fin 4 → R) : Matrix (Fin 2) (Fin 2) R := fun i j => x ⟨2 * j + i, by omega⟩

end Verif.MatrixUtils
