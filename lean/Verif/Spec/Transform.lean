import Verif.Model.Transform

/-! What a matrix does to a point. -/
namespace Verif.Transform

variable {d : ℕ}

/-- A point as a row, extended by one, times the matrix (the convention of the members of `Transform`). -/
def onRow (m : Mat d) (p : Fin d → ℝ) : Fin d → ℝ := fun j => ∑ i, p i * m i.castSucc j.castSucc + m (Fin.last d) j.castSucc

/-- The matrix times a point as a column, extended by one. -/
def onColumn (m : Mat d) (p : Fin d → ℝ) : Fin d → ℝ := fun i => ∑ j, m i.castSucc j.castSucc * p j + m i.castSucc (Fin.last d)

/-- Matrices of affine maps of rows: last column `0, .., 0, 1`. -/
def AffineRow (m : Mat d) : Prop := (∀ i : Fin d, m i.castSucc (Fin.last d) = 0) ∧ m (Fin.last d) (Fin.last d) = 1

/-- Matrices of affine maps of columns: last row `0, .., 0, 1`. -/
def AffineColumn (m : Mat d) : Prop := (∀ j : Fin d, m (Fin.last d) j.castSucc = 0) ∧ m (Fin.last d) (Fin.last d) = 1

end Verif.Transform
