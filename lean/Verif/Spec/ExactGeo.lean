import Verif.Model.ExactGeo

/-!
Specification of the geometric predicates: lines, segments, rays, triangles, tetrahedra and bilinear patches as sets of points.
-/
namespace Verif.ExactGeo

/-- Three points on one line. -/
def Collinear (a b c : V3) : Prop := ∃ p d : V3, ∃ r s t : ℚ, a = addMul p r d ∧ b = addMul p s d ∧ c = addMul p t d

/-- A point between two points. -/
def OnSegment (p a b : V3) : Prop := ∃ t : ℚ, 0 ≤ t ∧ t ≤ 1 ∧ p = addMul a t (sub b a)

/-- A point on a ray without its start. -/
def OnRay (p a d : V3) : Prop := ∃ t : ℚ, 0 < t ∧ p = addMul a t d

/-- The mean of three points. -/
def mix (a b c : ℚ) (t1 t2 t3 : V3) : V3 := ⟨a * t1.x + b * t2.x + c * t3.x, a * t1.y + b * t2.y + c * t3.y, a * t1.z + b * t2.z + c * t3.z⟩

/-- The interior of a triangle. -/
def Interior (p t1 t2 t3 : V3) : Prop := ∃ a b c : ℚ, 0 < a ∧ 0 < b ∧ 0 < c ∧ a + b + c = 1 ∧ p = mix a b c t1 t2 t3

/-- The border of a triangle. -/
def Border (p t1 t2 t3 : V3) : Prop :=
  ∃ a b c : ℚ, 0 ≤ a ∧ 0 ≤ b ∧ 0 ≤ c ∧ a + b + c = 1 ∧ (a = 0 ∨ b = 0 ∨ c = 0) ∧ p = mix a b c t1 t2 t3

/-- The edge between the second and the third corner, without the corners. -/
def Edge23 (p t1 t2 t3 : V3) : Prop := ∃ a b c : ℚ, a = 0 ∧ 0 < b ∧ 0 < c ∧ a + b + c = 1 ∧ p = mix a b c t1 t2 t3

/-- The mean of four points. -/
def mix4 (a b c d : ℚ) (v0 v1 v2 v3 : V3) : V3 :=
  ⟨a * v0.x + b * v1.x + c * v2.x + d * v3.x, a * v0.y + b * v1.y + c * v2.y + d * v3.y, a * v0.z + b * v1.z + c * v2.z + d * v3.z⟩

/-- The point of a bilinear patch. -/
def patch (u v : ℚ) (v0 v1 v2 v3 : V3) : V3 := mix4 ((1 - u) * (1 - v)) (u * (1 - v)) (u * v) ((1 - u) * v) v0 v1 v2 v3

end Verif.ExactGeo
