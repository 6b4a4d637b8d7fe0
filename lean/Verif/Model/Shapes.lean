import Mathlib.Algebra.BigOperators.Group.Finset.Basic
import Mathlib.Analysis.Real.Sqrt
import Mathlib.Data.Fin.VecNotation

/-!
Model of the shapes of `include/zensim/geometry/AnalyticLevelSet.h` and of `include/zensim/geometry/BoundingVolumeInterface.hpp`.  Numbers are real.
-/
namespace Verif.Shapes

/-- `TV`. -/
abbrev V (n : ℕ) := Fin n → ℝ

/-- `length`, the square root of `l2NormSqr`, `VecInterface.hpp`. -/
noncomputable def len {n : ℕ} (x : V n) : ℝ := Real.sqrt (∑ i, x i * x i)

/-! ## Plane -/

/-- Lines 11-45. -/
structure Plane (n : ℕ) where
  origin : V n
  normal : V n

/-- `do_getSignedDistance`, lines 30-32. -/
def Plane.sd {n : ℕ} (p : Plane n) (x : V n) : ℝ := ∑ i, p.normal i * (x i - p.origin i)

/-- `do_getBoundingBox`, lines 41-43. -/
def Plane.box {n : ℕ} (p : Plane n) : V n × V n := (p.origin, p.origin)

/-! ## Cuboid -/

/-- Lines 55-120, and `AABBBox`. -/
structure Cuboid (n : ℕ) where
  min : V n
  max : V n

/-- The constructor of lines 75-78. -/
noncomputable def Cuboid.ofCenter {n : ℕ} (center : V n) (len : ℝ) : Cuboid n := ⟨fun i => center i - len / 2, fun i => center i + len / 2⟩

/-- `getVert`, lines 79-87. -/
def Cuboid.vert {n : ℕ} (c : Cuboid n) (is : Fin n → ℤ) : V n := fun i => if is i = 0 then c.min i else c.max i

/-- `point`, lines 91-92. -/
noncomputable def Cuboid.point {n : ℕ} (c : Cuboid n) (x : V n) : V n := fun i => |x i - (c.min i + c.max i) / 2| - (c.max i - c.min i) / 2

/-- `max()` of a vector, `VecInterface.hpp` lines 514-520. -/
noncomputable def maxEntry {n : ℕ} (x : V (n + 1)) : ℝ := (List.ofFn fun i : Fin n => x i.succ).foldl (fun r v => if v > r then v else r) (x 0)

/-- `do_getSignedDistance`, lines 90-97. -/
noncomputable def Cuboid.sd {n : ℕ} (c : Cuboid (n + 1)) (x : V (n + 1)) : ℝ :=
  let p := c.point x
  let m := maxEntry p
  (if m < 0 then m else 0) + len fun i => if p i < 0 then 0 else p i

/-- `distance` of a box and a point, lines 294-305.  `⊥` stands for the lowest number, with which the maximum begins. -/
noncomputable def Cuboid.distance {n : ℕ} (c : Cuboid (n + 1)) (x : V (n + 1)) : ℝ :=
  let p := c.point x
  let m := (List.ofFn p).foldl (fun (m : WithBot ℝ) (v : ℝ) => if (v : WithBot ℝ) > m then (v : WithBot ℝ) else m) ⊥
  (if m < 0 then m.unbotD 0 else 0) + len fun i => if p i < 0 then 0 else p i

/-! ## Sphere -/

/-- Lines 130-162. -/
structure Sphere (n : ℕ) where
  center : V n
  radius : ℝ

/-- `do_getSignedDistance`, lines 144-146. -/
noncomputable def Sphere.sd {n : ℕ} (s : Sphere n) (x : V n) : ℝ := len (fun i => x i - s.center i) - s.radius

/-- `do_getNormal`, lines 148-152. -/
noncomputable def Sphere.normal {n : ℕ} (s : Sphere n) (x : V n) : V n :=
  let d := fun i => x i - s.center i
  if ∑ i, d i * d i < 1e-7 then 0 else fun i => d i / len d

/-- `do_getBoundingBox`, lines 157-159. -/
def Sphere.box {n : ℕ} (s : Sphere n) : V n × V n := (fun i => s.center i - s.radius, fun i => s.center i + s.radius)

/-! ## Cylinder -/

/-- Lines 172-244. -/
structure Cylinder where
  bottom : V 3
  radius : ℝ
  length : ℝ
  d : Fin 3

/-- `diffR`, lines 189-191: the entries other than `d`, in order. -/
def Cylinder.diffR (c : Cylinder) (x : V 3) : List ℝ := ((List.finRange 3).filter fun k => k ≠ c.d).map fun k => x k - c.bottom k

/-- `disR`, line 192. -/
noncomputable def Cylinder.disR (c : Cylinder) (x : V 3) : ℝ := Real.sqrt ((c.diffR x).map fun v => v * v).sum

/-- `do_getSignedDistance`, lines 188-215. -/
noncomputable def Cylinder.sd (c : Cylinder) (x : V 3) : ℝ :=
  let disR := c.disR x
  if x c.d < c.bottom c.d then
    let disL := c.bottom c.d - x c.d
    if disR > c.radius then Real.sqrt ((disR - c.radius) * (disR - c.radius) + disL * disL) else disL
  else if x c.d > c.bottom c.d + c.length then
    let disL := x c.d - (c.bottom c.d + c.length)
    if disR > c.radius then Real.sqrt ((disR - c.radius) * (disR - c.radius) + disL * disL) else disL
  else if disR > c.radius then disR - c.radius
  else -Min.min (Min.min (c.bottom c.d + c.length - x c.d) (x c.d - c.bottom c.d)) (c.radius - disR)

/-- `do_getBoundingBox`, lines 234-240. -/
def Cylinder.box (c : Cylinder) : V 3 × V 3 :=
  let diffR : V 3 := Function.update (fun _ => c.radius) c.d 0
  let diffL : V 3 := Function.update 0 c.d c.length
  (fun i => c.bottom i - diffR i, fun i => c.bottom i + diffR i + diffL i)

/-! ## `BoundingVolumeInterface` -/

/-- `getUniformCoord`, lines 24-31. -/
noncomputable def uniformCoord {n : ℕ} (box : V n × V n) (pos : V n) : V n := fun d =>
  let l := box.2 d - box.1 d
  let o := pos d - box.1 d
  (if o < 0 then 0 else if o > l then l else o) / l

end Verif.Shapes
