import Mathlib.Algebra.Order.Field.Rat

/-!
Model of the exact geometric predicates, `include/zensim/geometry/Geometry.hpp`, lines 29-689 and 813-825.

Coordinates are rational numbers, of which the doubles are a part.  The adaptive arithmetic of `Predicates.hpp` is replaced by the determinant that it is made
to have the sign of; differences of points are exact.  The loops of lines 326-332 and
376-382 start with a fixed seed and draw points until one is outside of the plane of three points: the point is a parameter, a function of the three points.
The two-dimensional `orient2d` of lines 33-46 also reads a third component of vectors that have two; the components that it uses are modelled in `orient2d`,
the reads in `copy3`.
-/
namespace Verif.ExactGeo

@[ext] structure V3 where
  x : ℚ
  y : ℚ
  z : ℚ
deriving DecidableEq

/-- `operator-` -/
def sub (a b : V3) : V3 := ⟨a.x - b.x, a.y - b.y, a.z - b.z⟩
/-- Addition of a multiple. -/
def addMul (a : V3) (t : ℚ) (b : V3) : V3 := ⟨a.x + t * b.x, a.y + t * b.y, a.z + t * b.z⟩
/-- `cross`, lines 484-491. -/
def cross (a b : V3) : V3 := ⟨a.y * b.z - a.z * b.y, a.z * b.x - a.x * b.z, a.x * b.y - a.y * b.x⟩
/-- `dot`, lines 492-497. -/
def dot (a b : V3) : ℚ := a.x * b.x + a.y * b.y + a.z * b.z

/-- The sign as orientation, lines 39-44 and 58-63. -/
def sgn (r : ℚ) : Int := if r > 0 then 1 else if r < 0 then -1 else 0

/-- The determinant of `orient3d`, `Predicates.hpp` lines 1036-1055. -/
def det (a b c d : V3) : ℚ :=
  (a.z - d.z) * ((b.x - d.x) * (c.y - d.y) - (c.x - d.x) * (b.y - d.y)) + (b.z - d.z) * ((c.x - d.x) * (a.y - d.y) - (a.x - d.x) * (c.y - d.y)) +
    (c.z - d.z) * ((a.x - d.x) * (b.y - d.y) - (b.x - d.x) * (a.y - d.y))

/-- `orient3d`, lines 50-64. -/
def orient3d (a b c d : V3) : Int := sgn (det a b c d)

/-- `orient2d`, lines 33-46, with `Predicates.hpp` lines 560-571. -/
def orient2d (a b c : ℚ × ℚ) : Int := sgn ((a.1 - c.1) * (b.2 - c.2) - (a.2 - c.2) * (b.1 - c.1))

/-- `double a[] = {pa[0], pa[1], pa[2]};`, line 35: `none` where the vector has no such component. -/
def copy3 (p : List ℚ) : Option (List ℚ) := [p[0]?, p[1]?, p[2]?].mapM id

/-- `to_2d`, lines 211-216. -/
def to2d (p : V3) : Nat → ℚ × ℚ
  | 0 => (p.y, p.z)
  | 1 => (p.z, p.x)
  | _ => (p.x, p.y)

/-- `is_triangle_degenerated`, lines 207-230; also `prism::isTriangleDegenerated`, lines 135-153. -/
def degenerate (t1 t2 t3 : V3) : Bool :=
  let c := cross (sub t1 t2) (sub t1 t3)
  if dot c c > 1 / 10 ^ 16 then false else (List.range 3).all fun j => orient2d (to2d t1 j) (to2d t2 j) (to2d t3 j) == 0

/-- `point_on_ray`, lines 244-281. -/
def pointOnRay (s0 e0 dir pt : V3) : Int :=
  if s0 = pt then 2
  else if !degenerate s0 e0 pt then 0
  else if dir.x > 0 ∧ pt.x ≤ s0.x then 0
  else if dir.x < 0 ∧ pt.x ≥ s0.x then 0
  else if dir.x = 0 ∧ pt.x ≠ s0.x then 0
  else if dir.y > 0 ∧ pt.y ≤ s0.y then 0
  else if dir.y ≤ 0 ∧ pt.y ≥ s0.y then 0
  else if dir.y = 0 ∧ pt.y ≠ s0.y then 0
  else if dir.z > 0 ∧ pt.z ≤ s0.z then 0
  else if dir.z ≤ 0 ∧ pt.z ≥ s0.z then 0
  else if dir.z = 0 ∧ pt.z ≠ s0.z then 0
  else 1

/-- `colinear_point_on_segment`, lines 288-295. -/
def inBox (pt s0 s1 : V3) : Bool :=
  (min s0.x s1.x ≤ pt.x ∧ pt.x ≤ max s0.x s1.x) && (min s0.y s1.y ≤ pt.y ∧ pt.y ≤ max s0.y s1.y) && (min s0.z s1.z ≤ pt.z ∧ pt.z ≤ max s0.z s1.z)

/-- `point_on_segment`, lines 299-303. -/
def pointOnSegment (pt s0 s1 : V3) : Bool := if !degenerate pt s0 s1 then false else inBox pt s0 s1

/-- `ray_segment_intersection`, lines 310-351. -/
def raySegment (np : V3 → V3 → V3 → V3) (s0 e0 dir s1 e1 : V3) : Int :=
  if e1 = s1 then pointOnRay s0 e0 dir s1
  else if orient3d s0 e0 s1 e1 ≠ 0 then 0
  else if pointOnSegment s0 s1 e1 then 2
  else if !degenerate s1 s0 e0 then
    let o1 := orient3d (np s1 s0 e0) e1 s0 e0
    if o1 = 0 then pointOnRay s0 e0 dir e1
    else
      let o2 := -1 * orient3d (np s1 s0 e0) s1 s0 e0
      let oo := orient3d (np s1 s0 e0) e1 s0 s1
      if oo = 0 then (if pointOnRay s0 e0 dir s1 > 0 ∨ pointOnRay s0 e0 dir e1 > 0 then 1 else 0)
      else if o1 = oo ∧ o2 = oo then 1 else 0
  else if pointOnRay s0 e0 dir s1 = 1 then 1 else 0

/-- `point_inter_triangle` for triangles that are not degenerate, lines 369-395. -/
def pointTriangle (np : V3 → V3 → V3 → V3) (pt t1 t2 t3 : V3) (halfopen : Bool) : Int :=
  if orient3d pt t1 t2 t3 ≠ 0 then 0
  else
    let o1 := orient3d pt (np t1 t2 t3) t1 t2
    let o2 := orient3d pt (np t1 t2 t3) t2 t3
    let o3 := orient3d pt (np t1 t2 t3) t3 t1
    if halfopen ∧ o2 = 0 ∧ o1 = o3 then 3
    else if o1 = o2 ∧ o1 = o3 then 1
    else if o1 = 0 ∧ o2 * o3 ≥ 0 then 2
    else if o2 = 0 ∧ o1 * o3 ≥ 0 then 2
    else if o3 = 0 ∧ o2 * o1 ≥ 0 then 2
    else 0

/-- The end of `ray_triangle_intersection`, lines 458-481: the point is not on the plane of the triangle. -/
def rayTriangleOff (pt pt1 t1 t2 t3 : V3) (halfopen : Bool) : Int :=
  let o12 := orient3d pt1 pt t1 t2
  let o23 := orient3d pt1 pt t2 t3
  let o31 := orient3d pt1 pt t3 t1
  let os := orient3d t3 pt t1 t2
  if os * o12 < 0 ∨ os * o23 < 0 ∨ os * o31 < 0 then 0
  else if o12 = o23 ∧ o12 = o31 then 1
  else if o12 * o23 ≥ 0 ∧ o31 = 0 then -1
  else if o31 * o23 ≥ 0 ∧ o12 = 0 then -1
  else if o12 = o31 ∧ o23 = 0 then (if halfopen then 3 else -1)
  else 0

/-- `ray_triangle_intersection`, lines 404-482. -/
def rayTriangle (np : V3 → V3 → V3 → V3) (pt pt1 dir t1 t2 t3 : V3) (halfopen : Bool) : Int :=
  let edges : Int :=
    let i1 := raySegment np pt pt1 dir t1 t2
    if i1 = 1 then -1
    else if i1 = 2 then 2
    else
      let i2 := raySegment np pt pt1 dir t1 t3
      if i2 = 1 then -1 else if i2 = 2 then 2 else 0
  if degenerate t1 t2 t3 then edges
  else if orient3d pt t1 t2 t3 = 0 then
    let inter := pointTriangle np pt t1 t2 t3 halfopen
    if inter = 1 ∨ inter = 2 then 2 else if inter = 3 then 3 else if orient3d pt1 t1 t2 t3 = 0 then edges else 0
  else rayTriangleOff pt pt1 t1 t2 t3 halfopen

/-- `func_g`, lines 517-526. -/
def funcG (x p q r : V3) : ℚ := dot (sub x p) (cross (sub q p) (sub r p))

/-- `phi`, lines 565-577. -/
def phi (x v0 v1 v2 v3 : V3) : ℚ := funcG x v0 v1 v2 * funcG x v0 v3 v2 - funcG x v1 v3 v2 * funcG x v0 v1 v3

/-- `get_tet_phi`, lines 579-600. -/
def tetPhi (v0 v1 v2 v3 : V3) : Int × Int :=
  let p02 : V3 := ⟨(v0.x + v2.x) / 2, (v0.y + v2.y) / 2, (v0.z + v2.z) / 2⟩
  if phi p02 v0 v1 v2 v3 > 0 then (1, -1) else (-1, 1)

/-- The facets of `bilinear`, lines 80-92. -/
def facets (v0 v1 v2 v3 : V3) : List (V3 × V3 × V3) :=
  if orient3d v0 v1 v2 v3 ≥ 0 then [(v1, v2, v0), (v3, v0, v2), (v0, v3, v1), (v2, v1, v3)]
  else [(v1, v0, v2), (v3, v2, v0), (v0, v1, v3), (v2, v3, v1)]

/-- `is_point_inside_tet`, lines 818-825. -/
def insideTet (v0 v1 v2 v3 p : V3) : Bool := (facets v0 v1 v2 v3).all fun f => !decide (orient3d p f.1 f.2.1 f.2.2 ≥ 0)

end Verif.ExactGeo
