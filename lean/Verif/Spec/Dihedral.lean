import Verif.Model.Dihedral

/-! What the angle between two triangles has to satisfy. -/
namespace Verif.Dihedral

open Verif.Rotation (V M cross dot3 nsq3)

/-- The normal of the triangle `a b c`, of length one. -/
noncomputable def unitNormal (a b c : V 3) : V 3 := (1 / norm (cross (b - a) (c - a))) • cross (b - a) (c - a)

/-- The triangle has an area. -/
def Proper (a b c : V 3) : Prop := ∃ i, cross (b - a) (c - a) i ≠ 0

/-- `x` turned by the angle `t` about an axis of length one at a right angle to it. -/
noncomputable def turn (axis : V 3) (t : ℝ) (x : V 3) : V 3 := Real.cos t • x + Real.sin t • cross axis x

/-- The triangles `v2 v0 v1` and `v3 v1 v0` are folded onto each other. -/
def Folded (v2 v0 v1 v3 : V 3) : Prop := unitNormal v3 v1 v0 = -unitNormal v2 v0 v1

end Verif.Dihedral
