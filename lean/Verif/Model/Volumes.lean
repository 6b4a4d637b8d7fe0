import Verif.Model.Shapes
import Mathlib.Data.EReal.Operations

/-!
Model of the tests of bounding volumes in `include/zensim/geometry/AnalyticLevelSet.h` and of `get_bounding_box` in `include/zensim/geometry/BoundingVolumeInterface.hpp`.
Numbers are real, with infinities and not-a-number where `ray_box_intersect` counts on them.
-/
namespace Verif.Volumes
open Verif.Shapes

/-- `overlaps` of two boxes, lines 262-266: the loop with its early return. -/
noncomputable def overlapsBB {n : ℕ} (a b : Cuboid n) : Bool := (List.finRange n).all fun d => !(decide (b.min d > a.max d) || decide (b.max d < a.min d))

/-- `overlaps` of a point and a box, lines 268-278. -/
noncomputable def overlapsPB {n : ℕ} (p : V n) (b : Cuboid n) : Bool := (List.finRange n).all fun d => !(decide (b.min d > p d) || decide (b.max d < p d))

/-- `merge`, lines 282-290. -/
noncomputable def merge {n : ℕ} (b : Cuboid n) (p : V n) : Cuboid n := ⟨fun d => Min.min (b.min d) (p d), fun d => Max.max (b.max d) (p d)⟩

/-- `get_bounding_box`, `BoundingVolumeInterface.hpp` lines 44-53, made a box by the constructor of lines 70-73. -/
noncomputable def boundingBox {n : ℕ} (a b : V n) : Cuboid n := ⟨fun i => if a i < b i then a i else b i, fun i => if a i > b i then a i else b i⟩

/-- Lines 328-329 and 349-350. -/
def inflate {n : ℕ} (b : Cuboid n) (dist : ℝ) : Cuboid n := ⟨fun i => b.min i - dist, fun i => b.max i + dist⟩

/-- `pt_ccd_broadphase`, lines 313-331. -/
noncomputable def ptBroadphase {n : ℕ} (p t0 t1 t2 dp dt0 dt1 dt2 : V n) (dist toc : ℝ) : Bool :=
  let pbv := boundingBox p (p + toc • dp)
  let tbv := boundingBox t0 (t0 + toc • dt0)
  let tbv := merge tbv t1
  let tbv := merge tbv (t1 + toc • dt1)
  let tbv := merge tbv t2
  let tbv := merge tbv (t2 + toc • dt2)
  overlapsBB (inflate pbv dist) tbv

/-- `ee_ccd_broadphase`, lines 334-352. -/
noncomputable def eeBroadphase {n : ℕ} (ea0 ea1 eb0 eb1 dea0 dea1 deb0 deb1 : V n) (dist toc : ℝ) : Bool :=
  let abv := boundingBox ea0 (ea0 + toc • dea0)
  let bbv := boundingBox eb0 (eb0 + toc • deb0)
  let abv := merge abv ea1
  let abv := merge abv (ea1 + toc • dea1)
  let bbv := merge bbv eb1
  let bbv := merge bbv (eb1 + toc • deb1)
  overlapsBB (inflate abv dist) bbv

/-- `dot`. -/
def dot (a b : V 3) : ℝ := a 0 * b 0 + a 1 * b 1 + a 2 * b 2

/-- `cross`. -/
def cross (a b : V 3) : V 3 := ![a 1 * b 2 - a 2 * b 1, a 2 * b 0 - a 0 * b 2, a 0 * b 1 - a 1 * b 0]

/-- `ray_tri_intersect`, lines 354-384.  `none` is the infinity of line 383; `eps` is ten times the rounding unit. -/
noncomputable def rayTri (eps : ℝ) (ro rd v0 v1 v2 : V 3) : Option ℝ :=
  let u := v1 - v0
  let v := v2 - v0
  let n := cross u v
  let b := dot n rd
  if |b| > eps then
    let a := dot n (v0 - ro)
    let r := a / b
    let ip := ro + r • rd
    let uu := dot u u
    let uv := dot u v
    let vv := dot v v
    let w := ip - v0
    let wu := dot w u
    let wv := dot w v
    let d := uv * uv - uu * vv
    let s := uv * wv - vv * wu
    let t := uv * wu - uu * wv
    let d := 1 / d
    let s := s * d
    let t := t * d
    if -eps ≤ s ∧ s ≤ 1 + eps ∧ -eps ≤ t ∧ s + t ≤ 1 + eps * 2 then some r else none
  else none

/-- `1 / d`, line 395; `nz` is the sign bit, which only a zero needs. -/
noncomputable def inv (d : ℝ) (nz : Bool) : EReal := if d = 0 then (if nz then ⊥ else ⊤) else ((1 / d : ℝ) : EReal)

/-- A product in IEEE arithmetic without rounding; `none` is not-a-number. -/
noncomputable def mul (x : ℝ) (i : EReal) : Option EReal := if x = 0 ∧ (i = ⊤ ∨ i = ⊥) then none else some ((x : EReal) * i)

/-- `a > b`: wrong for not-a-number. -/
def Gt : Option EReal → Option EReal → Prop
  | some a, some b => a > b
  | _, _ => False

/-- Lines 396, 399 (and 401, 406): where the ray enters. -/
noncomputable def enter (box : Cuboid 3) (ro rd : V 3) (nz : Fin 3 → Bool) (k : Fin 3) : Option EReal :=
  mul ((if inv (rd k) (nz k) < 0 then box.max k else box.min k) - ro k) (inv (rd k) (nz k))

/-- Lines 396, 400 (and 402, 407): where the ray leaves. -/
noncomputable def leave (box : Cuboid 3) (ro rd : V 3) (nz : Fin 3 → Bool) (k : Fin 3) : Option EReal :=
  mul ((if inv (rd k) (nz k) < 0 then box.min k else box.max k) - ro k) (inv (rd k) (nz k))

open Classical in
/-- `ray_box_intersect`, lines 389-412. -/
noncomputable def rayBox (ro rd : V 3) (nz : Fin 3 → Bool) (box : Cuboid 3) : Bool :=
  let tmin := enter box ro rd nz 0
  let tmax := leave box ro rd nz 0
  let tymin := enter box ro rd nz 1
  let tymax := leave box ro rd nz 1
  if Gt tmin tymax ∨ Gt tymin tmax then false else
  let tmin := if Gt tymin tmin then tymin else tmin
  let tmax := if Gt tmax tymax then tymax else tmax
  let tzmin := enter box ro rd nz 2
  let tzmax := leave box ro rd nz 2
  if Gt tmin tzmax ∨ Gt tzmin tmax then false else
  let tmax := if Gt tmax tzmax then tzmax else tmax
  match tmax with
  | some m => decide (m ≥ 0)
  | none => false

/-- `overlaps` of two spheres, lines 418-423. -/
noncomputable def overlapsSS {n : ℕ} (a b : Sphere n) : Bool :=
  let radius := a.radius + b.radius
  let disSqr := ∑ i, (a.center i - b.center i) * (a.center i - b.center i)
  decide (disSqr ≤ radius * radius)

/-- `overlaps` of a point and a sphere, lines 424-435. -/
noncomputable def overlapsPS {n : ℕ} (p : V n) (b : Sphere n) : Bool := decide (∑ i, (p i - b.center i) * (p i - b.center i) ≤ b.radius * b.radius)

end Verif.Volumes
