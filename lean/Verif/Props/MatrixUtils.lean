import Verif.Model.MatrixUtils
import Verif.Spec.MatrixUtils
import Mathlib.LinearAlgebra.Matrix.Determinant.Basic
import Mathlib.LinearAlgebra.Matrix.Adjugate
import Mathlib.LinearAlgebra.Matrix.Trace
import Mathlib.LinearAlgebra.CrossProduct
import Mathlib.Tactic.FinCases
import Mathlib.Tactic.Ring
import Mathlib.Tactic.NormNum
import Mathlib.Tactic.FieldSimp

/-! Operations on matrices in arrays. -/
namespace Verif.MatrixUtils

variable {R : Type*} [CommRing R]

/-! ### Products -/

/-- `a b`. -/
theorem mul3_eq (a b : Fin 9 → R) :
    mat3 (mul3 a b) = mat3 a * mat3 b := by
  ext i j
  simp only [Matrix.mul_apply, Matrix.transpose_apply, Matrix.mul_diagonal, Fin.sum_univ_three]
  fin_cases i <;> fin_cases j <;> simp [mat3, mul3] <;> ring

/-- `a b`. -/
theorem mul2_eq (a b : Fin 4 → R) :
    mat2 (mul2 a b) = mat2 a * mat2 b := by
  ext i j
  simp only [Matrix.mul_apply, Matrix.transpose_apply, Matrix.mul_diagonal, Fin.sum_univ_two]
  fin_cases i <;> fin_cases j <;> simp [mat2, mul2] <;> ring

/-- `aᵀ b`. -/
theorem transposeMul3_eq (a b : Fin 9 → R) :
    mat3 (transposeMul3 a b) = (mat3 a).transpose * mat3 b := by
  ext i j
  simp only [Matrix.mul_apply, Matrix.transpose_apply, Matrix.mul_diagonal, Fin.sum_univ_three]
  fin_cases i <;> fin_cases j <;> simp [mat3, transposeMul3] <;> ring

/-- `aᵀ b`. -/
theorem transposeMul2_eq (a b : Fin 4 → R) :
    mat2 (transposeMul2 a b) = (mat2 a).transpose * mat2 b := by
  ext i j
  simp only [Matrix.mul_apply, Matrix.transpose_apply, Matrix.mul_diagonal, Fin.sum_univ_two]
  fin_cases i <;> fin_cases j <;> simp [mat2, transposeMul2] <;> ring

/-- `a bᵀ`. -/
theorem mulTranspose3_eq (a b : Fin 9 → R) :
    mat3 (mulTranspose3 a b) = mat3 a * (mat3 b).transpose := by
  ext i j
  simp only [Matrix.mul_apply, Matrix.transpose_apply, Matrix.mul_diagonal, Fin.sum_univ_three]
  fin_cases i <;> fin_cases j <;> simp [mat3, mulTranspose3] <;> ring

/-- `a bᵀ`. -/
theorem mulTranspose2_eq (a b : Fin 4 → R) :
    mat2 (mulTranspose2 a b) = mat2 a * (mat2 b).transpose := by
  ext i j
  simp only [Matrix.mul_apply, Matrix.transpose_apply, Matrix.mul_diagonal, Fin.sum_univ_two]
  fin_cases i <;> fin_cases j <;> simp [mat2, mulTranspose2] <;> ring

/-- `x xᵀ`. -/
theorem mulSelfTranspose3_eq (x : Fin 9 → R) :
    mat3 (mulSelfTranspose3 x) = mat3 x * (mat3 x).transpose := by
  ext i j
  simp only [Matrix.mul_apply, Matrix.transpose_apply, Matrix.mul_diagonal, Fin.sum_univ_three]
  fin_cases i <;> fin_cases j <;> simp [mat3, mulSelfTranspose3] <;> ring

/-- `a diag(b)`. -/
theorem mulDiag3_eq (a : Fin 9 → R) (b : Fin 3 → R) :
    mat3 (mulDiag3 a b) = mat3 a * Matrix.diagonal b := by
  ext i j
  simp only [Matrix.mul_apply, Matrix.transpose_apply, Matrix.mul_diagonal, Fin.sum_univ_three]
  fin_cases i <;> fin_cases j <;> simp [mat3, mulDiag3] <;> ring

/-- `a diag(b)`. -/
theorem mulDiag2_eq (a : Fin 4 → R) (b : Fin 2 → R) :
    mat2 (mulDiag2 a b) = mat2 a * Matrix.diagonal b := by
  ext i j
  simp only [Matrix.mul_apply, Matrix.transpose_apply, Matrix.mul_diagonal, Fin.sum_univ_two]
  fin_cases i <;> fin_cases j <;> simp [mat2, mulDiag2] <;> ring

/-- `a diag(d) bᵀ`. -/
theorem matDiagMatT3_eq (a : Fin 9 → R) (d : Fin 3 → R) (b : Fin 9 → R) :
    mat3 (matDiagMatT3 a d b) = mat3 a * Matrix.diagonal d * (mat3 b).transpose := by
  ext i j
  simp only [Matrix.mul_apply, Matrix.transpose_apply, Matrix.mul_diagonal, Fin.sum_univ_three]
  fin_cases i <;> fin_cases j <;> simp [mat3, matDiagMatT3] <;> ring

/-- `a diag(d) bᵀ`. -/
theorem matDiagMatT2_eq (a : Fin 4 → R) (d : Fin 2 → R) (b : Fin 4 → R) :
    mat2 (matDiagMatT2 a d b) = mat2 a * Matrix.diagonal d * (mat2 b).transpose := by
  ext i j
  simp only [Matrix.mul_apply, Matrix.transpose_apply, Matrix.mul_diagonal, Fin.sum_univ_two]
  fin_cases i <;> fin_cases j <;> simp [mat2, matDiagMatT2] <;> ring

/-- `x v`. -/
theorem mulVec3_eq (x : Fin 9 → R) (v : Fin 3 → R) :
    mulVec3 x v = (mat3 x).mulVec v := by
  funext i
  simp only [Matrix.mulVec, Matrix.vecMul, dotProduct, Matrix.transpose_apply, Fin.sum_univ_three]
  fin_cases i <;> simp [mat3, mulVec3] <;> ring

/-- `x v`. -/
theorem mulVec2_eq (x : Fin 4 → R) (v : Fin 2 → R) :
    mulVec2 x v = (mat2 x).mulVec v := by
  funext i
  simp only [Matrix.mulVec, Matrix.vecMul, dotProduct, Matrix.transpose_apply, Fin.sum_univ_two]
  fin_cases i <;> simp [mat2, mulVec2] <;> ring

/-- `vᵀ x`. -/
theorem vecMul3_eq (v : Fin 3 → R) (x : Fin 9 → R) :
    vecMul3 v x = Matrix.vecMul v (mat3 x) := by
  funext i
  simp only [Matrix.mulVec, Matrix.vecMul, dotProduct, Matrix.transpose_apply, Fin.sum_univ_three]
  fin_cases i <;> simp [mat3, vecMul3] <;> ring

/-- `vᵀ x`. -/
theorem vecMul2_eq (v : Fin 2 → R) (x : Fin 4 → R) :
    vecMul2 v x = Matrix.vecMul v (mat2 x) := by
  funext i
  simp only [Matrix.mulVec, Matrix.vecMul, dotProduct, Matrix.transpose_apply, Fin.sum_univ_two]
  fin_cases i <;> simp [mat2, vecMul2] <;> ring

/-- `xᵀ v`. -/
theorem matTVec3_eq (x : Fin 9 → R) (v : Fin 3 → R) :
    matTVec3 x v = (mat3 x).transpose.mulVec v := by
  funext i
  simp only [Matrix.mulVec, Matrix.vecMul, dotProduct, Matrix.transpose_apply, Fin.sum_univ_three]
  fin_cases i <;> simp [mat3, matTVec3] <;> ring

/-! ### Transpose, trace, determinant, cofactors -/

/-- The transpose. -/
theorem transpose_eq (x : Fin 9 → R) (y : Fin 4 → R) : mat3 (transpose3 x) = (mat3 x).transpose ∧ mat2 (transpose2 y) = (mat2 y).transpose := by
  constructor
  · ext i j; fin_cases i <;> fin_cases j <;> rfl
  · ext i j; fin_cases i <;> fin_cases j <;> rfl

/-- The trace. -/
theorem trace_eq (x : Fin 9 → R) (y : Fin 4 → R) : trace3 x = (mat3 x).trace ∧ trace2 y = (mat2 y).trace := by
  constructor
  · rw [Matrix.trace, Fin.sum_univ_three]; rfl
  · rw [Matrix.trace, Fin.sum_univ_two]; rfl

/-- The determinant. -/
theorem det_eq (x : Fin 9 → R) (y : Fin 4 → R) : det3 x = (mat3 x).det ∧ det2 y = (mat2 y).det := by
  constructor
  · rw [Matrix.det_fin_three]; simp [mat3, det3]; ring
  · rw [Matrix.det_fin_two]; simp [mat2, det2]; ring

/-- In three dimensions the result is the adjugate: with the matrix it multiplies to the determinant. -/
theorem cofactor3_adjugate (x : Fin 9 → R) : mat3 (cofactor3 x) = (mat3 x).adjugate ∧ mat3 (mul3 x (cofactor3 x)) = det3 x • 1 := by
  have h : mat3 (cofactor3 x) = (mat3 x).adjugate := by
    rw [Matrix.adjugate_fin_three]
    ext i j
    fin_cases i <;> fin_cases j <;> simp [mat3, cofactor3] <;> ring
  refine ⟨h, ?_⟩
  rw [mul3_eq, h, Matrix.mul_adjugate, (det_eq x 0).1]

/-- In the plane it is the matrix of cofactors, the transpose of the adjugate. -/
theorem cofactor2_cofactor (x : Fin 4 → R) : mat2 (cofactor2 x) = (mat2 x).adjugate.transpose ∧ mat2 (transposeMul2 x (cofactor2 x)) = det2 x • 1 := by
  have h : mat2 (cofactor2 x) = (mat2 x).adjugate.transpose := by
    rw [Matrix.adjugate_fin_two]
    ext i j
    fin_cases i <;> fin_cases j <;> simp [mat2, cofactor2]
  refine ⟨h, ?_⟩
  rw [transposeMul2_eq, h, ← Matrix.transpose_mul, Matrix.adjugate_mul, (det_eq 0 x).2, Matrix.transpose_smul, Matrix.transpose_one]

/-- The name says cofactors, but the three-dimensional function does not return the matrix of cofactors, and its result is not that of the plane. -/
theorem cofactor3_violated : ¬ ∀ x : Fin 9 → ℤ, mat3 (cofactor3 x) = (mat3 x).adjugate.transpose := by
  intro h
  have h := congrFun (congrFun (h ![0, 1, 0, 0, 0, 0, 0, 0, 1]) 0) 1
  rw [← (cofactor3_adjugate _).1] at h
  revert h
  simp [mat3, cofactor3]

/-- For a symmetric matrix both are the same; this is how the functions are used. -/
theorem cofactor3_symmetric_partial (x : Fin 9 → R) (h : (mat3 x).transpose = mat3 x) : mat3 (cofactor3 x) = (mat3 x).adjugate.transpose := by
  rw [(cofactor3_adjugate x).1, Matrix.adjugate_transpose, h]

example : ∃ x : Fin 9 → ℤ, (mat3 x).transpose = mat3 x ∧ x 1 ≠ 0 :=
  ⟨![1, 2, 3, 2, 4, 5, 3, 5, 6], by ext i j; fin_cases i <;> fin_cases j <;> rfl, by decide⟩

/-! ### Cross product -/

/-- `vec_crossMul_vec_3D` says `a × b` and has plus signs: it is not even zero for equal arguments. -/
theorem crossMul_violated : (¬ ∀ a b : Fin 3 → ℤ, crossMul3 a b = crossProduct a b) ∧ ∃ a : Fin 3 → ℤ, crossMul3 a a ≠ 0 := by
  have h : crossMul3 (![1, 1, 0] : Fin 3 → ℤ) ![1, 1, 0] ≠ 0 := by
    intro h
    have := congrFun h 2
    revert this
    decide
  refine ⟨fun hc => h ?_, _, h⟩
  rw [hc, cross_self]

/-- What it computes: symmetric in its arguments, and the cross product only where the subtracted products vanish. -/
theorem crossMul_partial (a b : Fin 3 → ℤ) : crossMul3 a b = crossMul3 b a ∧ (crossMul3 a b = crossProduct a b ↔ a 2 * b 1 = 0 ∧ a 0 * b 2 = 0 ∧ a 1 * b 0 = 0) := by
  constructor
  · funext i
    fin_cases i <;> simp [crossMul3] <;> ring
  · rw [cross_apply]
    constructor
    · intro h
      have h0 := congrFun h 0
      have h1 := congrFun h 1
      have h2 := congrFun h 2
      simp [crossMul3] at h0 h1 h2
      refine ⟨?_, ?_, ?_⟩ <;> linarith
    · rintro ⟨h0, h1, h2⟩
      funext i
      fin_cases i <;> simp [crossMul3] <;> linarith

/-! ### Deviatoric part -/

/-- The deviatoric part is the matrix minus a third of its trace, has trace zero and is its own deviatoric part. -/
theorem deviatoric_eq {K : Type*} [Field K] (h3 : (3 : K) ≠ 0) (x : Fin 9 → K) :
    mat3 (deviatoric3 x) = mat3 x - ((mat3 x).trace / 3) • 1 ∧ (mat3 (deviatoric3 x)).trace = 0 ∧ deviatoric3 (deviatoric3 x) = deviatoric3 x := by
  have ht : trace3 (deviatoric3 x) = 0 := by
    simp only [trace3, deviatoric3, Matrix.cons_val_zero, Matrix.cons_val]
    field_simp
    ring
  refine ⟨?_, by rw [← (trace_eq _ 0).1, ht], ?_⟩
  · rw [← (trace_eq _ 0).1]
    ext i j
    fin_cases i <;> fin_cases j <;> simp [mat3, deviatoric3, trace3]
  · have : ∀ y : Fin 9 → K, trace3 y = 0 → deviatoric3 y = y := by
      intro y hy
      have hy' : y 0 + y 4 + y 8 = 0 := hy
      funext i
      simp only [deviatoric3, hy', zero_div, sub_zero]
      fin_cases i <;> rfl
    exact this _ ht

/-! ### Output in the place of an input -/

/-- Multiplication with a diagonal matrix may write to its own input. -/
theorem mulDiag_inPlace (a : Fin 9 → R) (b : Fin 3 → R) (c : Fin 4 → R) (d : Fin 2 → R) :
    inPlace (fun x => mulDiag3 x b) a = mulDiag3 a b ∧ inPlace (fun x => mulDiag2 x d) c = mulDiag2 c d := by
  constructor
  · funext i
    fin_cases i <;> simp [inPlace, List.finRange_succ, mulDiag3, Function.update_apply]
  · funext i
    fin_cases i <;> simp [inPlace, List.finRange_succ, mulDiag2, Function.update_apply]

/-- The transpose and the product may not. -/
theorem inPlace_violated : (¬ ∀ x : Fin 9 → ℤ, inPlace transpose3 x = transpose3 x) ∧ ¬ ∀ a b : Fin 9 → ℤ, inPlace (fun x => mul3 x b) a = mul3 a b := by
  constructor
  · intro h
    have := congrFun (h ![0, 1, 2, 3, 4, 5, 6, 7, 8]) 3
    revert this
    decide +kernel
  · intro h
    have := congrFun (h ![0, 1, 2, 3, 4, 5, 6, 7, 8] ![0, 1, 0, 1, 0, 0, 0, 0, 1]) 3
    revert this
    decide +kernel

end Verif.MatrixUtils
