import Mathlib.Algebra.Field.Defs
import Mathlib.Data.Fin.VecNotation
import Mathlib.Data.List.FinRange
import Mathlib.Logic.Function.Basic

/-!
Model of `include/zensim/math/matrix/MatrixUtils.h`: operations on matrices in arrays of four or nine numbers.

Each function writes the entries of its output one after the other.  The definitions give the entries for an output that is none of the inputs; `inPlace` is the same function with the output in
the place of an input.
-/
namespace Verif.MatrixUtils

variable {R : Type*} [CommRing R]

/-- The entries are written in order and later ones read what earlier ones have written. -/
def inPlace {n : ℕ} (f : (Fin n → R) → Fin n → R) (x : Fin n → R) : Fin n → R := (List.finRange n).foldl (fun x i => Function.update x i (f x i)) x

/-- `matmul_mat_diag_matT_2D`, lines 11-17. -/
def matDiagMatT2 (mat1 : Fin 4 → R) (diag : Fin 2 → R) (mat2T : Fin 4 → R) : Fin 4 → R :=
  ![mat1 0 * diag 0 * mat2T 0 + mat1 2 * diag 1 * mat2T 2, mat1 1 * diag 0 * mat2T 0 + mat1 3 * diag 1 * mat2T 2, mat1 0 * diag 0 * mat2T 1 + mat1 2 * diag 1 * mat2T 3,
    mat1 1 * diag 0 * mat2T 1 + mat1 3 * diag 1 * mat2T 3]

/-- `matmul_mat_diag_matT_3D`, lines 26-47. -/
def matDiagMatT3 (mat1 : Fin 9 → R) (diag : Fin 3 → R) (mat2T : Fin 9 → R) : Fin 9 → R :=
  ![mat1 0 * diag 0 * mat2T 0 + mat1 3 * diag 1 * mat2T 3 + mat1 6 * diag 2 * mat2T 6, mat1 1 * diag 0 * mat2T 0 + mat1 4 * diag 1 * mat2T 3 + mat1 7 * diag 2 * mat2T 6,
    mat1 2 * diag 0 * mat2T 0 + mat1 5 * diag 1 * mat2T 3 + mat1 8 * diag 2 * mat2T 6, mat1 0 * diag 0 * mat2T 1 + mat1 3 * diag 1 * mat2T 4 + mat1 6 * diag 2 * mat2T 7,
    mat1 1 * diag 0 * mat2T 1 + mat1 4 * diag 1 * mat2T 4 + mat1 7 * diag 2 * mat2T 7, mat1 2 * diag 0 * mat2T 1 + mat1 5 * diag 1 * mat2T 4 + mat1 8 * diag 2 * mat2T 7,
    mat1 0 * diag 0 * mat2T 2 + mat1 3 * diag 1 * mat2T 5 + mat1 6 * diag 2 * mat2T 8, mat1 1 * diag 0 * mat2T 2 + mat1 4 * diag 1 * mat2T 5 + mat1 7 * diag 2 * mat2T 8,
    mat1 2 * diag 0 * mat2T 2 + mat1 5 * diag 1 * mat2T 5 + mat1 8 * diag 2 * mat2T 8]

/-- `matT_mul_vec_3D`, lines 50-54. -/
def matTVec3 (mat : Fin 9 → R) (vec : Fin 3 → R) : Fin 3 → R :=
  ![mat 0 * vec 0 + mat 1 * vec 1 + mat 2 * vec 2, mat 3 * vec 0 + mat 4 * vec 1 + mat 5 * vec 2, mat 6 * vec 0 + mat 7 * vec 1 + mat 8 * vec 2]

/-- `vec_crossMul_vec_3D`, lines 58-62. -/
def crossMul3 (a : Fin 3 → R) (b : Fin 3 → R) : Fin 3 → R :=
  ![a 1 * b 2 + a 2 * b 1, a 2 * b 0 + a 0 * b 2, a 0 * b 1 + a 1 * b 0]

/-- `matrixCofactor2d`, lines 64-69. -/
def cofactor2 (x : Fin 4 → R) : Fin 4 → R :=
  ![x 3, -x 2, -x 1, x 0]

/-- `matrixCofactor3d`, lines 71-83. -/
def cofactor3 (x : Fin 9 → R) : Fin 9 → R :=
  ![x 4 * x 8 - x 7 * x 5, x 7 * x 2 - x 1 * x 8, x 1 * x 5 - x 4 * x 2, x 6 * x 5 - x 3 * x 8, x 0 * x 8 - x 6 * x 2, x 3 * x 2 - x 0 * x 5, x 3 * x 7 - x 6 * x 4,
    x 6 * x 1 - x 0 * x 7, x 0 * x 4 - x 3 * x 1]

/-- `matrixTranspose3d`, lines 113-123. -/
def transpose3 (x : Fin 9 → R) : Fin 9 → R :=
  ![x 0, x 3, x 6, x 1, x 4, x 7, x 2, x 5, x 8]

/-- `matrixTranspose2d`, lines 125-130. -/
def transpose2 (x : Fin 4 → R) : Fin 4 → R :=
  ![x 0, x 2, x 1, x 3]

/-- `matrixMatrixMultiplication3d`, lines 136-146. -/
def mul3 (a : Fin 9 → R) (b : Fin 9 → R) : Fin 9 → R :=
  ![a 0 * b 0 + a 3 * b 1 + a 6 * b 2, a 1 * b 0 + a 4 * b 1 + a 7 * b 2, a 2 * b 0 + a 5 * b 1 + a 8 * b 2, a 0 * b 3 + a 3 * b 4 + a 6 * b 5, a 1 * b 3 + a 4 * b 4 + a 7 * b 5,
    a 2 * b 3 + a 5 * b 4 + a 8 * b 5, a 0 * b 6 + a 3 * b 7 + a 6 * b 8, a 1 * b 6 + a 4 * b 7 + a 7 * b 8, a 2 * b 6 + a 5 * b 7 + a 8 * b 8]

/-- `matrixMatrixMultiplication2d`, lines 148-153. -/
def mul2 (a : Fin 4 → R) (b : Fin 4 → R) : Fin 4 → R :=
  ![a 0 * b 0 + a 2 * b 1, a 1 * b 0 + a 3 * b 1, a 0 * b 2 + a 2 * b 3, a 1 * b 2 + a 3 * b 3]

/-- `matrixDiagonalMatrixMultiplication3d`, lines 156-166. -/
def mulDiag3 (a : Fin 9 → R) (b : Fin 3 → R) : Fin 9 → R :=
  ![a 0 * b 0, a 1 * b 0, a 2 * b 0, a 3 * b 1, a 4 * b 1, a 5 * b 1, a 6 * b 2, a 7 * b 2, a 8 * b 2]

/-- `matrixDiagonalMatrixMultiplication2d`, lines 169-174. -/
def mulDiag2 (a : Fin 4 → R) (b : Fin 2 → R) : Fin 4 → R :=
  ![a 0 * b 0, a 1 * b 0, a 2 * b 1, a 3 * b 1]

/-- `matrixTransposeMatrixMultiplication3d`, lines 177-187. -/
def transposeMul3 (a : Fin 9 → R) (b : Fin 9 → R) : Fin 9 → R :=
  ![a 0 * b 0 + a 1 * b 1 + a 2 * b 2, a 3 * b 0 + a 4 * b 1 + a 5 * b 2, a 6 * b 0 + a 7 * b 1 + a 8 * b 2, a 0 * b 3 + a 1 * b 4 + a 2 * b 5, a 3 * b 3 + a 4 * b 4 + a 5 * b 5,
    a 6 * b 3 + a 7 * b 4 + a 8 * b 5, a 0 * b 6 + a 1 * b 7 + a 2 * b 8, a 3 * b 6 + a 4 * b 7 + a 5 * b 8, a 6 * b 6 + a 7 * b 7 + a 8 * b 8]

/-- `matrixTransposeMatrixMultiplication2d`, lines 190-195. -/
def transposeMul2 (a : Fin 4 → R) (b : Fin 4 → R) : Fin 4 → R :=
  ![a 0 * b 0 + a 1 * b 1, a 2 * b 0 + a 3 * b 1, a 0 * b 2 + a 1 * b 3, a 2 * b 2 + a 3 * b 3]

/-- `matrixVectorMultiplication3d`, lines 198-202. -/
def mulVec3 (x : Fin 9 → R) (v : Fin 3 → R) : Fin 3 → R :=
  ![x 0 * v 0 + x 3 * v 1 + x 6 * v 2, x 1 * v 0 + x 4 * v 1 + x 7 * v 2, x 2 * v 0 + x 5 * v 1 + x 8 * v 2]

/-- `matrixVectorMultiplication2d`, lines 205-208. -/
def mulVec2 (x : Fin 4 → R) (v : Fin 2 → R) : Fin 2 → R :=
  ![x 0 * v 0 + x 2 * v 1, x 1 * v 0 + x 3 * v 1]

/-- `vectorMatrixMultiplication3d`, lines 211-215. -/
def vecMul3 (v : Fin 3 → R) (x : Fin 9 → R) : Fin 3 → R :=
  ![x 0 * v 0 + x 1 * v 1 + x 2 * v 2, x 3 * v 0 + x 4 * v 1 + x 5 * v 2, x 6 * v 0 + x 7 * v 1 + x 8 * v 2]

/-- `vectorMatrixMultiplication2d`, lines 218-221. -/
def vecMul2 (v : Fin 2 → R) (x : Fin 4 → R) : Fin 2 → R :=
  ![x 0 * v 0 + x 1 * v 1, x 2 * v 0 + x 3 * v 1]

/-- `matrixMatrixTransposeMultiplication3d`, lines 224-234. -/
def mulTranspose3 (a : Fin 9 → R) (b : Fin 9 → R) : Fin 9 → R :=
  ![a 0 * b 0 + a 3 * b 3 + a 6 * b 6, a 1 * b 0 + a 4 * b 3 + a 7 * b 6, a 2 * b 0 + a 5 * b 3 + a 8 * b 6, a 0 * b 1 + a 3 * b 4 + a 6 * b 7, a 1 * b 1 + a 4 * b 4 + a 7 * b 7,
    a 2 * b 1 + a 5 * b 4 + a 8 * b 7, a 0 * b 2 + a 3 * b 5 + a 6 * b 8, a 1 * b 2 + a 4 * b 5 + a 7 * b 8, a 2 * b 2 + a 5 * b 5 + a 8 * b 8]

/-- `matrixMatrixTransposeMultiplication2d`, lines 237-242. -/
def mulTranspose2 (a : Fin 4 → R) (b : Fin 4 → R) : Fin 4 → R :=
  ![a 0 * b 0 + a 2 * b 2, a 1 * b 0 + a 3 * b 2, a 0 * b 1 + a 2 * b 3, a 1 * b 1 + a 3 * b 3]

/-- `matrixMatrixTranposeMultiplication3d`, lines 244-256. -/
def mulSelfTranspose3 (x : Fin 9 → R) : Fin 9 → R :=
  ![x 0 * x 0 + x 3 * x 3 + x 6 * x 6, x 1 * x 0 + x 4 * x 3 + x 7 * x 6, x 2 * x 0 + x 5 * x 3 + x 8 * x 6, x 0 * x 1 + x 3 * x 4 + x 6 * x 7, x 1 * x 1 + x 4 * x 4 + x 7 * x 7,
    x 2 * x 1 + x 5 * x 4 + x 8 * x 7, x 0 * x 2 + x 3 * x 5 + x 6 * x 8, x 1 * x 2 + x 4 * x 5 + x 7 * x 8, x 2 * x 2 + x 5 * x 5 + x 8 * x 8]

/-- `matrixDeterminant3d`, lines 104-107. -/
def det3 (x : Fin 9 → R) : R := x 0 * (x 4 * x 8 - x 7 * x 5) + x 3 * (x 7 * x 2 - x 1 * x 8) + x 6 * (x 1 * x 5 - x 4 * x 2)

/-- `matrixDeterminant2d`, lines 109-111. -/
def det2 (x : Fin 4 → R) : R := x 0 * x 3 - x 1 * x 2

/-- `matrixTrace3d`, line 132. -/
def trace3 (x : Fin 9 → R) : R := x 0 + x 4 + x 8

/-- `matrixTrace2d`, line 134. -/
def trace2 (x : Fin 4 → R) : R := x 0 + x 3

/-- `matrixDeviatoric3d`, lines 258-271. -/
def deviatoric3 {K : Type*} [Field K] (x : Fin 9 → K) : Fin 9 → K :=
  let t := (x 0 + x 4 + x 8) / 3
  ![x 0 - t, x 1, x 2, x 3, x 4 - t, x 5, x 6, x 7, x 8 - t]

end Verif.MatrixUtils
