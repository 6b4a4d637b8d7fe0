import Verif.Model.Volumes
import Verif.Spec.Shapes

/-! Moving points, triangles and edges. -/
namespace Verif.Volumes
open Verif.Shapes

/-- Where a point with velocity `d` is at time `t`. -/
def at' {n : ℕ} (p d : V n) (t : ℝ) : V n := p + t • d

/-- Points of a triangle. -/
def tri {n : ℕ} (a b c : V n) : Set (V n) := { x | ∃ u v w : ℝ, 0 ≤ u ∧ 0 ≤ v ∧ 0 ≤ w ∧ u + v + w = 1 ∧ x = u • a + v • b + w • c }

/-- Points of an edge. -/
def seg {n : ℕ} (a b : V n) : Set (V n) := { x | ∃ u v : ℝ, 0 ≤ u ∧ 0 ≤ v ∧ u + v = 1 ∧ x = u • a + v • b }

/-- The smallest box around a finite set of points. -/
def Hull {n : ℕ} (l : List (V n)) : Set (V n) := { x | ∀ i, (∃ p ∈ l, p i ≤ x i) ∧ ∃ p ∈ l, x i ≤ p i }

/-- Sets with two points that differ by at most `dist` in every coordinate. -/
def Near {n : ℕ} (s t : Set (V n)) (dist : ℝ) : Prop := ∃ x ∈ s, ∃ y ∈ t, ∀ i, |x i - y i| ≤ dist

end Verif.Volumes
