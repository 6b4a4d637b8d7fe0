import Verif.Spec.ExactGeo
import Verif.Model.ExactCcd

/-!
Specification of the continuous collision tests: all points move along straight lines from their first to their second position, and there is a time at which the
moving vertex is on the moving face, or at which the two moving edges have a common point.
-/
namespace Verif.ExactCcd
open Verif.ExactGeo

/-- The position at a time. -/
def at' (t : ℚ) (p q : V3) : V3 := addMul p t (sub q p)

/-- At the time `t` the vertex is on the face, with these barycentric coordinates. -/
def VFTouch (vs fs0 fs1 fs2 ve fe0 fe1 fe2 : V3) (t a b c : ℚ) : Prop :=
  0 ≤ t ∧ t ≤ 1 ∧ 0 ≤ a ∧ 0 ≤ b ∧ 0 ≤ c ∧ a + b + c = 1 ∧ at' t vs ve = mix a b c (at' t fs0 fe0) (at' t fs1 fe1) (at' t fs2 fe2)

/-- At the time `t` the edges have a common point, with these coordinates on the edges. -/
def EETouch (a0 a1 b0 b1 a0b a1b b0b b1b : V3) (t r s : ℚ) : Prop :=
  0 ≤ t ∧ t ≤ 1 ∧ 0 ≤ r ∧ r ≤ 1 ∧ 0 ≤ s ∧ s ≤ 1 ∧ at' r (at' t a0 a0b) (at' t a1 a1b) = at' s (at' t b0 b0b) (at' t b1 b1b)

/-- The loops of lines 328-332, 378-382 and 673-678 end with a point outside of the plane of the three points. -/
def Outside (np : V3 → V3 → V3 → V3) : Prop :=
  ∀ a b c, degenerate a b c = false → det (np a b c) a b c ≠ 0

/-- The surface of the tetrahedron of the corners of a patch. -/
def OnTet (x : V3) (b : Patch) : Prop :=
  ∃ p q r w : ℚ, 0 ≤ p ∧ 0 ≤ q ∧ 0 ≤ r ∧ 0 ≤ w ∧ p + q + r + w = 1 ∧ (p = 0 ∨ q = 0 ∨ r = 0 ∨ w = 0) ∧ x = mix4 p q r w b.v0 b.v1 b.v2 b.v3

/-- The interior of the facet of that tetrahedron opposite to a corner. -/
def InFacet (i : Fin 4) (x : V3) (b : Patch) : Prop :=
  ∃ c : Fin 4 → ℚ, c i = 0 ∧ (∀ j, j ≠ i → 0 < c j) ∧ c 0 + c 1 + c 2 + c 3 = 1 ∧ x = mix4 (c 0) (c 1) (c 2) (c 3) b.v0 b.v1 b.v2 b.v3

/-- The side of the bilinear surface on which a point is. -/
def side (b : Patch) (x : V3) : ℚ := phi x b.v0 b.v1 b.v2 b.v3

end Verif.ExactCcd
