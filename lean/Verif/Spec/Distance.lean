import Verif.Model.Distance
import Verif.Spec.Elastic

/-!
What distances between points, edges and triangles are.
-/
namespace Verif.Dist

open Verif.Mat (Store)

/-- Square of the distance of two points. -/
def distSq (n : Nat) (x y : Store ℝ) : ℝ := ∑ i : Fin n, (x i - y i) ^ 2

/-- The points of an edge. -/
def Segment (a b : Store ℝ) : Set (Store ℝ) := {x | ∃ r : ℝ, 0 ≤ r ∧ r ≤ 1 ∧ x = fun i => (1 - r) * a i + r * b i}

/-- The points of an edge without its ends. -/
def Interior (a b : Store ℝ) : Set (Store ℝ) := {x | ∃ r : ℝ, 0 < r ∧ r < 1 ∧ x = fun i => (1 - r) * a i + r * b i}

/-- The points of a triangle. -/
def Triangle (a b c : Store ℝ) : Set (Store ℝ) :=
  {x | ∃ α β γ : ℝ, 0 ≤ α ∧ 0 ≤ β ∧ 0 ≤ γ ∧ α + β + γ = 1 ∧ x = fun i => α * a i + β * b i + γ * c i}

/-- The points of the line through two points. -/
def Line (a b : Store ℝ) : Set (Store ℝ) := {x | ∃ r : ℝ, x = fun i => (1 - r) * a i + r * b i}

/-- The points of the plane through three points. -/
def Plane (a b c : Store ℝ) : Set (Store ℝ) := {x | ∃ α β γ : ℝ, α + β + γ = 1 ∧ x = fun i => α * a i + β * b i + γ * c i}

/-- d is the square of the distance of two sets of points, which is attained. -/
def IsDist (n : Nat) (A B : Set (Store ℝ)) (d : ℝ) : Prop := IsLeast {y | ∃ a ∈ A, ∃ b ∈ B, y = distSq n a b} d

/-- Two sets of points have a common point. -/
def Meet (n : Nat) (A B : Set (Store ℝ)) : Prop := ∃ a ∈ A, ∃ b ∈ B, ∀ i < n, a i = b i

/-- The part of the triangle that a category stands for. -/
def ptPart (t0 t1 t2 : Store ℝ) : Nat → Set (Store ℝ)
  | 0 => {t0}
  | 1 => {t1}
  | 2 => {t2}
  | 3 => Segment t0 t1
  | 4 => Segment t1 t2
  | 5 => Segment t2 t0
  | _ => Triangle t0 t1 t2

/-- The part of an edge that a category stands for. -/
def edgePart (e0 e1 : Store ℝ) : Nat → Set (Store ℝ)
  | 0 => {e0}
  | 1 => {e1}
  | _ => Segment e0 e1

/-- The formula for the distance to the part of the triangle, without looking whether it applies. -/
noncomputable def ptFormula (p t0 t1 t2 : Store ℝ) : Nat → Option ℝ
  | 0 => some (distSq 3 p t0)
  | 1 => some (distSq 3 p t1)
  | 2 => some (distSq 3 p t2)
  | 3 => line3 p t0 t1
  | 4 => line3 p t1 t2
  | 5 => line3 p t2 t0
  | _ => dist2Pt p t0 t1 t2

end Verif.Dist
