import Verif.Model.Eikonal
import Mathlib.Data.List.Sort

/-! The first order upwind scheme for distances. -/
namespace Verif.Eikonal

/-- The distance `x` of a cell from the distances `as` of its neighbours along the axes: its slope is one. -/
def Upwind (h : ℝ) (as : List ℝ) (x : ℝ) : Prop := 0 ≤ x ∧ (as.map fun a => max (x - a) 0 ^ 2).sum = h ^ 2

open Classical in
/-- The smallest distances, up to that many, filled with `big`. -/
noncomputable def smallest (dim : Nat) (big : ℝ) (values : List ℝ) : List ℝ := (((values.filter fun v => v ≠ 0).map abs).insertionSort (· ≤ ·) ++ List.replicate dim big).take dim

/-- Next to each other. -/
def Adjacent {d : Nat} (c c' : Fin d → Int) : Prop := ∃ j, (c' j = c j + 1 ∨ c' j = c j - 1) ∧ ∀ a, a ≠ j → c' a = c a

end Verif.Eikonal
