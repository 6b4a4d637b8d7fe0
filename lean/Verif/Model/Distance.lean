import Verif.Model.SmallMat
import Mathlib.Analysis.SpecialFunctions.Log.Basic

/-!
Model of distances between points, edges and triangles, the barrier and the mollifier of contact simulation:
`include/zensim/geometry/SpatialQuery.hpp` ("S") and `include/zensim/geometry/Distance.hpp` ("D").

Numbers are real: rounding is not modelled, in particular not the use of `float` for all number types in `dist_ee_sqr` and `ee_category_and_dist2`.
Vectors are functions of the component, `n` is the number of components.  Where the code divides by a number that can be zero, the result is `none`.
The Hessians and the functions `pFpx` are not modelled.
-/
namespace Verif.Dist

open Verif.Mat (Store)

/-- `operator-` of two vectors. -/
def sub (a b : Store ℝ) : Store ℝ := fun i => a i - b i

open Classical in
/-- x / y; none for y = 0. -/
noncomputable def quot (x y : ℝ) : Option ℝ := if y = 0 then none else some (x / y)

/-! ## Two points, point and edge -/

/-- `dist2_pp`, D lines 227-229. -/
def dist2Pp (n : Nat) (a b : Store ℝ) : ℝ := Mat.l2NormSqr n (sub b a)

/-- `dist_grad_pp`, D lines 240-252: the gradients for a and for b. -/
def gPp (a b : Store ℝ) : Store ℝ × Store ℝ := (fun d => 2 * (a d - b d), fun d => -(2 * (a d - b d)))

open Classical in
/-- `pe_distance_type`, D lines 1114-1119.  For an edge of length zero the quotient is no number, all comparisons are false; the model has 0 / 0 = 0, for
which they are false as well. -/
noncomputable def peType (n : Nat) (p e0 e1 : Store ℝ) : Nat :=
  let e := sub e1 e0
  let ind := Mat.dot n e (sub p e0) / Mat.l2NormSqr n e
  if ind < 0 then 0 else if ind > 1 then 1 else 2

/-- The quotient of D lines 1134-1136 and 1159-1161. -/
noncomputable def line2 (p e0 e1 : Store ℝ) : Option ℝ :=
  let e := sub e1 e0
  let num := e 1 * p 0 - e 0 * p 1 + e1 0 * e0 1 - e1 1 * e0 0
  quot (num * num) (Mat.l2NormSqr 2 e)

/-- The quotient of D lines 1138 and 1163. -/
noncomputable def line3 (p e0 e1 : Store ℝ) : Option ℝ :=
  quot (Mat.l2NormSqr 3 (Mat.cross3 (sub e0 p) (sub e1 p))) (Mat.l2NormSqr 3 (sub e1 e0))

open Classical in
/-- `dist2_pe`, D lines 1124-1140. -/
noncomputable def dist2Pe (n : Nat) (p e0 e1 : Store ℝ) : Option ℝ :=
  if n = 1 then
    let d0 := p 0 - e0 0
    let d1 := p 0 - e1 0
    some (if d0 * d1 < 0 then 0 else min (d0 * d0) (d1 * d1))
  else if n = 2 then line2 p e0 e1
  else if n = 3 then line3 p e0 e1
  else some 0

/-- `dist2_pe_unclassified`, D lines 1145-1170; `big` is the largest number. -/
noncomputable def dist2PeUnclassified (big : ℝ) (n : Nat) (p e0 e1 : Store ℝ) : Option ℝ :=
  match peType n p e0 e1 with
  | 0 => some (dist2Pp n p e0)
  | 1 => some (dist2Pp n p e1)
  | _ => if n = 2 then line2 p e0 e1 else if n = 3 then line3 p e0 e1 else some big

/-! ## Point and triangle, S -/

open Classical in
/-- S lines 33-139: the coefficients s and t of the closest point. -/
noncomputable def ptParams (a00 a01 a11 b0 b1 : ℝ) : Option (ℝ × ℝ) :=
  let det := max (a00 * a11 - a01 * a01) 0
  let s := a01 * b1 - a11 * b0
  let t := a01 * b0 - a00 * b1
  if s + t ≤ det then
    if s < 0 then
      if t < 0 then
        if b0 < 0 then (if -b0 ≥ a00 then some (1, 0) else some (-b0 / a00, 0))
        else if b1 ≥ 0 then some (0, 0)
        else if -b1 ≥ a11 then some (0, 1)
        else some (0, -b1 / a11)
      else
        if b1 ≥ 0 then some (0, 0)
        else if -b1 ≥ a11 then some (0, 1)
        else some (0, -b1 / a11)
    else if t < 0 then
      if b0 ≥ 0 then some (0, 0)
      else if -b0 ≥ a00 then some (1, 0)
      else some (-b0 / a00, 0)
    else if det = 0 then none
    else some (s / det, t / det)
  else
    if s < 0 then
      let tmp0 := a01 + b0
      let tmp1 := a11 + b1
      if tmp1 > tmp0 then
        let numer := tmp1 - tmp0
        let denom := a00 - (a01 + a01) + a11
        if numer ≥ denom then some (1, 0) else some (numer / denom, 1 - numer / denom)
      else if tmp1 ≤ 0 then some (0, 1)
      else if b1 ≥ 0 then some (0, 0)
      else some (0, -b1 / a11)
    else if t < 0 then
      let tmp0 := a01 + b1
      let tmp1 := a00 + b0
      if tmp1 > tmp0 then
        let numer := tmp1 - tmp0
        let denom := a00 - (a01 + a01) + a11
        if numer ≥ denom then some (0, 1) else some (1 - numer / denom, numer / denom)
      else if tmp1 ≤ 0 then some (1, 0)
      else if b0 ≥ 0 then some (0, 0)
      else some (-b0 / a00, 0)
    else
      let numer := a11 + b1 - a01 - b0
      if numer ≤ 0 then some (0, 1)
      else
        let denom := a00 - (a01 + a01) + a11
        if numer ≥ denom then some (1, 0) else some (numer / denom, 1 - numer / denom)

open Classical in
/-- S lines 160-298: the category, s and t. -/
noncomputable def ptCategory (a00 a01 a11 b0 b1 : ℝ) : Option (Nat × ℝ × ℝ) :=
  let det := max (a00 * a11 - a01 * a01) 0
  let s := a01 * b1 - a11 * b0
  let t := a01 * b0 - a00 * b1
  if s + t ≤ det then
    if s < 0 then
      if t < 0 then
        if b0 < 0 then (if -b0 ≥ a00 then some (1, 1, 0) else some (3, -b0 / a00, 0))
        else if b1 ≥ 0 then some (0, 0, 0)
        else if -b1 ≥ a11 then some (2, 0, 1)
        else some (5, 0, -b1 / a11)
      else
        if b1 ≥ 0 then some (0, 0, 0)
        else if -b1 ≥ a11 then some (2, 0, 1)
        else some (5, 0, -b1 / a11)
    else if t < 0 then
      if b0 ≥ 0 then some (0, 0, 0)
      else if -b0 ≥ a00 then some (1, 1, 0)
      else some (3, -b0 / a00, 0)
    else if det = 0 then none
    else some (6, s / det, t / det)
  else
    if s < 0 then
      let tmp0 := a01 + b0
      let tmp1 := a11 + b1
      if tmp1 > tmp0 then
        let numer := tmp1 - tmp0
        let denom := a00 - (a01 + a01) + a11
        if numer ≥ denom then some (1, 1, 0) else some (4, numer / denom, 1 - numer / denom)
      else if tmp1 ≤ 0 then some (2, 0, 1)
      else if b1 ≥ 0 then some (0, 0, 0)
      else some (5, 0, -b1 / a11)
    else if t < 0 then
      let tmp0 := a01 + b1
      let tmp1 := a00 + b0
      if tmp1 > tmp0 then
        let numer := tmp1 - tmp0
        let denom := a00 - (a01 + a01) + a11
        if numer ≥ denom then some (2, 0, 1) else some (4, 1 - numer / denom, numer / denom)
      else if tmp1 ≤ 0 then some (1, 1, 0)
      else if b0 ≥ 0 then some (0, 0, 0)
      else some (3, -b0 / a00, 0)
    else
      let numer := a11 + b1 - a01 - b0
      if numer ≤ 0 then some (2, 0, 1)
      else
        let denom := a00 - (a01 + a01) + a11
        if numer ≥ denom then some (1, 1, 0) else some (4, numer / denom, 1 - numer / denom)

/-- `(p - hitpoint).l2NormSqr()`, S lines 140-141 and 299-300. -/
def hit (n : Nat) (p t0 t1 t2 : Store ℝ) (s t : ℝ) : ℝ :=
  let e0 := sub t1 t0
  let e1 := sub t2 t0
  Mat.l2NormSqr n (sub p fun i => t0 i + s * e0 i + t * e1 i)

/-- `dist_pt_sqr`, S lines 19-142. -/
noncomputable def distPtSqr (n : Nat) (p t0 t1 t2 : Store ℝ) : Option ℝ :=
  let diff := sub t0 p
  let e0 := sub t1 t0
  let e1 := sub t2 t0
  (ptParams (Mat.dot n e0 e0) (Mat.dot n e0 e1) (Mat.dot n e1 e1) (Mat.dot n diff e0) (Mat.dot n diff e1)).map fun x => hit n p t0 t1 t2 x.1 x.2

/-- `pt_category_and_dist2`, S lines 146-301. -/
noncomputable def ptCategoryDist (n : Nat) (p t0 t1 t2 : Store ℝ) : Option (Nat × ℝ) :=
  let diff := sub t0 p
  let e0 := sub t1 t0
  let e1 := sub t2 t0
  (ptCategory (Mat.dot n e0 e0) (Mat.dot n e0 e1) (Mat.dot n e1 e1) (Mat.dot n diff e0) (Mat.dot n diff e1)).map fun x =>
    (x.1, hit n p t0 t1 t2 x.2.1 x.2.2)

/-! ## Point and triangle, D -/

/-- `determinant` of the matrix with the columns a, b, c (see `Mat.determinant_spec`). -/
def detCols (a b c : Store ℝ) : ℝ := Mat.determinant 3 fun k => if k % 3 = 0 then a (k / 3) else if k % 3 = 1 then b (k / 3) else c (k / 3)

/-- The blocks D lines 3903-3907 and so on: `param[k][0]` and `param[k][1]`. -/
noncomputable def edgeParam (basis0 basis2 nVec : Store ℝ) : ℝ × ℝ :=
  let basis1 := Mat.cross3 basis0 nVec
  let detD := detCols basis0 basis1 nVec
  (detCols basis2 basis1 nVec / detD, detCols basis0 basis2 nVec / detD)

open Classical in
/-- `pt_distance_type`, D lines 3874-3936.  For a triangle of area zero all quotients are 0 / 0, which is no number, and all comparisons are false; the model has
0 / 0 = 0, which leads to 6 as well. -/
noncomputable def ptType (p t0 t1 t2 : Store ℝ) : Nat :=
  let nVec := Mat.cross3 (sub t1 t0) (sub t2 t0)
  let p0 := edgeParam (sub t1 t0) (sub p t0) nVec
  if p0.1 > 0 ∧ p0.1 < 1 ∧ p0.2 ≥ 0 then 3
  else
    let p1 := edgeParam (sub t2 t1) (sub p t1) nVec
    if p1.1 > 0 ∧ p1.1 < 1 ∧ p1.2 ≥ 0 then 4
    else
      let p2 := edgeParam (sub t0 t2) (sub p t2) nVec
      if p2.1 > 0 ∧ p2.1 < 1 ∧ p2.2 ≥ 0 then 5
      else if p0.1 ≤ 0 ∧ p2.1 ≥ 1 then 0
      else if p1.1 ≤ 0 ∧ p0.1 ≥ 1 then 1
      else if p2.1 ≤ 0 ∧ p1.1 ≥ 1 then 2
      else 6

/-- `dist2_pt`, D lines 3942-3948. -/
noncomputable def dist2Pt (p t0 t1 t2 : Store ℝ) : Option ℝ :=
  let b := Mat.cross3 (sub t1 t0) (sub t2 t0)
  let aTb := Mat.dot 3 (sub p t0) b
  quot (aTb * aTb) (Mat.l2NormSqr 3 b)

/-- `dist2_pt_unclassified`, D lines 3953-3984. -/
noncomputable def dist2PtUnclassified (p t0 t1 t2 : Store ℝ) : Option ℝ :=
  match ptType p t0 t1 t2 with
  | 0 => some (dist2Pp 3 p t0)
  | 1 => some (dist2Pp 3 p t1)
  | 2 => some (dist2Pp 3 p t2)
  | 3 => dist2Pe 3 p t0 t1
  | 4 => dist2Pe 3 p t1 t2
  | 5 => dist2Pe 3 p t2 t0
  | _ => dist2Pt p t0 t1 t2

/-! ## Two edges, S -/

/-- sN, sD, tN, tD. -/
structure Ee where
  sN : ℝ
  sD : ℝ
  tN : ℝ
  tD : ℝ

open Classical in
/-- S lines 333-373; `D` is a c - b². -/
noncomputable def eeNumbers (eps a b c d e : ℝ) : Ee :=
  let D := a * c - b * b
  let x : Ee :=
    if D < eps then ⟨0, 1, e, c⟩
    else
      let sN := b * e - c * d
      let tN := a * e - b * d
      if sN < 0 then ⟨0, D, e, c⟩ else if sN > D then ⟨D, D, e + b, c⟩ else ⟨sN, D, tN, D⟩
  if x.tN < 0 then
    if -d < 0 then { x with tN := 0, sN := 0 }
    else if -d > a then { x with tN := 0, sN := x.sD }
    else { x with tN := 0, sN := -d, sD := a }
  else if x.tN > x.tD then
    if -d + b < 0 then { x with tN := x.tD, sN := 0 }
    else if -d + b > a then { x with tN := x.tD, sN := x.sD }
    else { x with tN := x.tD, sN := -d + b, sD := a }
  else x

open Classical in
/-- S lines 375-379 and 461-466. -/
noncomputable def eeValue (eps : ℝ) (n : Nat) (u v w : Store ℝ) (x : Ee) : ℝ :=
  let sc := if |x.sN| < eps then 0 else x.sN / x.sD
  let tc := if |x.tN| < eps then 0 else x.tN / x.tD
  Mat.l2NormSqr n fun i => w i + sc * u i - tc * v i

/-- `dist_ee_sqr`, S lines 317-380; `eps` is 128 times the precision of the number type. -/
noncomputable def distEeSqr (eps : ℝ) (n : Nat) (ea0 ea1 eb0 eb1 : Store ℝ) : ℝ :=
  let u := sub ea1 ea0
  let v := sub eb1 eb0
  let w := sub ea0 eb0
  eeValue eps n u v w (eeNumbers eps (Mat.dot n u u) (Mat.dot n u v) (Mat.dot n v v) (Mat.dot n u w) (Mat.dot n v w))

open Classical in
/-- S lines 405-459: the numbers, `uCate` and `vCate`. -/
noncomputable def eeCategories (eps a b c d e : ℝ) : Ee × Nat × Nat :=
  let D := a * c - b * b
  let x : Ee × Nat :=
    if D < eps then (⟨0, 1, e, c⟩, 0)
    else
      let sN := b * e - c * d
      let tN := a * e - b * d
      if sN < 0 then (⟨0, D, e, c⟩, 0) else if sN > D then (⟨D, D, e + b, c⟩, 1) else (⟨sN, D, tN, D⟩, 2)
  if x.1.tN ≤ 0 then
    if -d < 0 then ({ x.1 with tN := 0, sN := 0 }, 0, 0)
    else if -d > a then ({ x.1 with tN := 0, sN := x.1.sD }, 1, 0)
    else ({ x.1 with tN := 0, sN := -d, sD := a }, 2, 0)
  else if x.1.tN ≥ x.1.tD then
    if -d + b < 0 then ({ x.1 with tN := x.1.tD, sN := 0 }, 0, 1)
    else if -d + b > a then ({ x.1 with tN := x.1.tD, sN := x.1.sD }, 1, 1)
    else ({ x.1 with tN := x.1.tD, sN := -d + b, sD := a }, 2, 1)
  else (x.1, x.2, 2)

/-- `ee_category_and_dist2`, S lines 384-467; `eps` is 16 times the precision of the number type. -/
noncomputable def eeCategoryDist (eps : ℝ) (n : Nat) (ea0 ea1 eb0 eb1 : Store ℝ) : Nat × ℝ :=
  let u := sub ea1 ea0
  let v := sub eb1 eb0
  let w := sub ea0 eb0
  let x := eeCategories eps (Mat.dot n u u) (Mat.dot n u v) (Mat.dot n v v) (Mat.dot n u w) (Mat.dot n v w)
  (x.2.1 * 3 + x.2.2, eeValue eps n u v w x.1)

/-! ## Two edges, D -/

open Classical in
/-- `ee_distance_type`, D lines 2316-2381; `tol` is 1e-20. -/
noncomputable def eeType (tol : ℝ) (ea0 ea1 eb0 eb1 : Store ℝ) : Nat :=
  let u := sub ea1 ea0
  let v := sub eb1 eb0
  let w := sub ea0 eb0
  let a := Mat.l2NormSqr 3 u
  let b := Mat.dot 3 u v
  let c := Mat.l2NormSqr 3 v
  let d := Mat.dot 3 u w
  let e := Mat.dot 3 v w
  let D := a * c - b * b
  let sN := b * e - c * d
  let x : ℝ × ℝ × Nat :=
    if sN ≤ 0 then (e, c, 2)
    else if sN ≥ D then (e + b, c, 5)
    else
      let tN := a * e - b * d
      if tN > 0 ∧ tN < D ∧ (Mat.dot 3 (Mat.cross3 u v) w = 0 ∨ Mat.l2NormSqr 3 (Mat.cross3 u v) < tol * a * c) then
        (if sN < D / 2 then (e, c, 2) else (e + b, c, 5))
      else (tN, D, 8)
  if x.1 ≤ 0 then (if -d ≤ 0 then 0 else if -d ≥ a then 3 else 6)
  else if x.1 ≥ x.2.1 then (if -d + b ≤ 0 then 1 else if -d + b ≥ a then 4 else 7)
  else x.2.2

/-- `dist2_ee`, D lines 2386-2392. -/
noncomputable def dist2Ee (ea0 ea1 eb0 eb1 : Store ℝ) : Option ℝ :=
  let b := Mat.cross3 (sub ea1 ea0) (sub eb1 eb0)
  let aTb := Mat.dot 3 (sub eb0 ea0) b
  quot (aTb * aTb) (Mat.l2NormSqr 3 b)

/-- `dist2_ee_unclassified`, D lines 2397-2435. -/
noncomputable def dist2EeUnclassified (tol : ℝ) (ea0 ea1 eb0 eb1 : Store ℝ) : Option ℝ :=
  match eeType tol ea0 ea1 eb0 eb1 with
  | 0 => some (dist2Pp 3 ea0 eb0)
  | 1 => some (dist2Pp 3 ea0 eb1)
  | 2 => dist2Pe 3 ea0 eb0 eb1
  | 3 => some (dist2Pp 3 ea1 eb0)
  | 4 => some (dist2Pp 3 ea1 eb1)
  | 5 => dist2Pe 3 ea1 eb0 eb1
  | 6 => dist2Pe 3 eb0 ea0 ea1
  | 7 => dist2Pe 3 eb1 ea0 ea1
  | _ => dist2Ee ea0 ea1 eb0 eb1

/-! ## Edge and triangle -/

open Classical in
/-- `et_intersected`, D lines 4030-4066. -/
noncomputable def etIntersected (e0 e1 t0 t1 t2 : Store ℝ) : Bool :=
  let col0 := sub t1 t0
  let col1 := sub t2 t0
  let col2 := sub e0 e1
  let n := Mat.cross3 col0 col1
  if Mat.dot 3 n (sub e0 t0) * Mat.dot 3 n (sub e1 t0) > 0 then false
  else
    let det := detCols col0 col1 col2
    if det = 0 then false
    else
      let b := sub e0 t0
      let u := detCols b col1 col2 / det
      let v := detCols col0 b col2 / det
      let t := detCols col0 col1 b / det
      if u ≥ 0 ∧ v ≥ 0 ∧ u + v ≤ 1 ∧ t ≥ 0 ∧ t ≤ 1 then true else false

/-! ## Barrier -/

open Classical in
/-- `barrier`, S lines 502-514. -/
noncomputable def barrier (d2 dHat2 kappa : ℝ) : ℝ :=
  if d2 ≥ dHat2 then 0 else -kappa * (d2 - dHat2) * (d2 - dHat2) * Real.log (d2 / dHat2)

open Classical in
/-- `barrier_gradient`, S lines 516-531. -/
noncomputable def barrierGradient (d2 dHat2 kappa : ℝ) : ℝ :=
  if d2 ≥ dHat2 then 0
  else
    let t2 := d2 - dHat2
    kappa * (t2 * Real.log (d2 / dHat2) * -2 - t2 * t2 / d2)

open Classical in
/-- `barrier_hessian`, S lines 533-548. -/
noncomputable def barrierHessian (d2 dHat2 kappa : ℝ) : ℝ :=
  if d2 ≥ dHat2 then 0
  else
    let t2 := d2 - dHat2
    kappa * ((Real.log (d2 / dHat2) * -2 - t2 * 4 / d2) + t2 / d2 * (t2 / d2))

/-! ## Mollifier -/

/-- `EEM`, `g_EEM`, D lines 2487-2495. -/
noncomputable def eem (input epsX : ℝ) : ℝ :=
  let q := input / epsX
  (-q + 2) * q

noncomputable def gEem (input epsX : ℝ) : ℝ :=
  let o := 1 / epsX
  2 * o * (-o * input + 1)

/-- `cn2_ee`, D lines 2836-2840. -/
def cn2 (ea0 ea1 eb0 eb1 : Store ℝ) : ℝ := Mat.l2NormSqr 3 (Mat.cross3 (sub ea1 ea0) (sub eb1 eb0))

open Classical in
/-- `mollifier_ee`, D lines 2890-2899. -/
noncomputable def mollifier (ea0 ea1 eb0 eb1 : Store ℝ) (eps : ℝ) : ℝ :=
  let c := cn2 ea0 ea1 eb0 eb1
  if c < eps then eem c eps else 1

/-- Vector k of a list of numbers. -/
def point (n : Nat) (x : Store ℝ) (k : Nat) : Store ℝ := fun i => x (k * n + i)

/-! ## Gradients -/

/-- `g_PE2D`, D lines 273-302; `x` lists the arguments. -/
noncomputable def gPe2 (x : Store ℝ) : Store ℝ :=
  let v01 := x 0
  let v02 := x 1
  let v11 := x 2
  let v12 := x 3
  let v21 := x 4
  let v22 := x 5
  let t13 := -v21 + v11
  let t14 := -v22 + v12
  let t23 := 1 / (t13 * t13 + t14 * t14)
  let t25 := ((v11 * v22 + -(v12 * v21)) + t14 * v01) + -(t13 * v02)
  let t24 := t23 * t23
  let t26 := t25 * t25
  let t27 := (v11 * 2 + -(v21 * 2)) * t24 * t26
  let t26 := t26 * ((v12 * 2 + -(v22 * 2)) * t24)
  let g0 := t14 * t23 * t25 * 2
  let g1 := t13 * t23 * t25 * -2
  let t24 := t23 * t25
  let g2 := -t27 - t24 * (-v22 + v02) * 2
  let g3 := -t26 + t24 * (-v21 + v01) * 2
  let g4 := t27 + t24 * (v02 - v12) * 2
  let g5 := t26 - t24 * (v01 - v11) * 2
  Mat.write [g0, g1, g2, g3, g4, g5]

/-- `g_PE3D`, D lines 304-356; `x` lists the arguments. -/
noncomputable def gPe3 (x : Store ℝ) : Store ℝ :=
  let v01 := x 0
  let v02 := x 1
  let v03 := x 2
  let v11 := x 3
  let v12 := x 4
  let v13 := x 5
  let v21 := x 6
  let v22 := x 7
  let v23 := x 8
  let t17 := -v11 + v01
  let t18 := -v12 + v02
  let t19 := -v13 + v03
  let t20 := -v21 + v01
  let t21 := -v22 + v02
  let t22 := -v23 + v03
  let t23 := -v21 + v11
  let t24 := -v22 + v12
  let t25 := -v23 + v13
  let t42 := 1 / ((t23 * t23 + t24 * t24) + t25 * t25)
  let t44 := t17 * t21 + -(t18 * t20)
  let t45 := t17 * t22 + -(t19 * t20)
  let t46 := t18 * t22 + -(t19 * t21)
  let t43 := t42 * t42
  let t50 := (t44 * t44 + t45 * t45) + t46 * t46
  let t51 := (v11 * 2 + -(v21 * 2)) * t43 * t50
  let t52 := (v12 * 2 + -(v22 * 2)) * t43 * t50
  let t43 := (v13 * 2 + -(v23 * 2)) * t43 * t50
  let g0 := t42 * (t24 * t44 * 2 + t25 * t45 * 2)
  let g1 := -t42 * (t23 * t44 * 2 - t25 * t46 * 2)
  let g2 := -t42 * (t23 * t45 * 2 + t24 * t46 * 2)
  let g3 := -t51 - t42 * (t21 * t44 * 2 + t22 * t45 * 2)
  let g4 := -t52 + t42 * (t20 * t44 * 2 - t22 * t46 * 2)
  let g5 := -t43 + t42 * (t20 * t45 * 2 + t21 * t46 * 2)
  let g6 := t51 + t42 * (t18 * t44 * 2 + t19 * t45 * 2)
  let g7 := t52 - t42 * (t17 * t44 * 2 - t19 * t46 * 2)
  let g8 := t43 - t42 * (t17 * t45 * 2 + t18 * t46 * 2)
  Mat.write [g0, g1, g2, g3, g4, g5, g6, g7, g8]

/-- `g_EE`, D lines 1219-1297; `x` lists the arguments. -/
noncomputable def gEe (x : Store ℝ) : Store ℝ :=
  let v01 := x 0
  let v02 := x 1
  let v03 := x 2
  let v11 := x 3
  let v12 := x 4
  let v13 := x 5
  let v21 := x 6
  let v22 := x 7
  let v23 := x 8
  let v31 := x 9
  let v32 := x 10
  let v33 := x 11
  let t11 := -v11 + v01
  let t12 := -v12 + v02
  let t13 := -v13 + v03
  let t14 := -v21 + v01
  let t15 := -v22 + v02
  let t16 := -v23 + v03
  let t17 := -v31 + v21
  let t18 := -v32 + v22
  let t19 := -v33 + v23
  let t32 := t14 * t18
  let t33 := t15 * t17
  let t34 := t14 * t19
  let t35 := t16 * t17
  let t36 := t15 * t19
  let t37 := t16 * t18
  let t44 := t11 * t18 + -(t12 * t17)
  let t45 := t11 * t19 + -(t13 * t17)
  let t46 := t12 * t19 + -(t13 * t18)
  let t75 := 1 / ((t44 * t44 + t45 * t45) + t46 * t46)
  let t77 := (t16 * t44 + t14 * t46) + -(t15 * t45)
  let t76 := t75 * t75
  let t78 := t77 * t77
  let t79 := (t12 * t44 * 2 + t13 * t45 * 2) * t76 * t78
  let t80 := (t11 * t45 * 2 + t12 * t46 * 2) * t76 * t78
  let t81 := (t18 * t44 * 2 + t19 * t45 * 2) * t76 * t78
  let t18 := (t17 * t45 * 2 + t18 * t46 * 2) * t76 * t78
  let t83 := (t11 * t44 * 2 + -(t13 * t46 * 2)) * t76 * t78
  let t19 := (t17 * t44 * 2 + -(t19 * t46 * 2)) * t76 * t78
  let t76 := t75 * t77
  let g0 := -t81 + t76 * ((-t36 + t37) + t46) * 2
  let g1 := t19 - t76 * ((-t34 + t35) + t45) * 2
  let g2 := t18 + t76 * ((-t32 + t33) + t44) * 2
  let g3 := t81 + t76 * (t36 - t37) * 2
  let g4 := -t19 - t76 * (t34 - t35) * 2
  let g5 := -t18 + t76 * (t32 - t33) * 2
  let t17 := t12 * t16 + -(t13 * t15)
  let g6 := t79 - t76 * (t17 + t46) * 2
  let t18 := t11 * t16 + -(t13 * t14)
  let g7 := -t83 + t76 * (t18 + t45) * 2
  let t19 := t11 * t15 + -(t12 * t14)
  let g8 := -t80 - t76 * (t19 + t44) * 2
  let g9 := -t79 + t76 * t17 * 2
  let g10 := t83 - t76 * t18 * 2
  let g11 := t80 + t76 * t19 * 2
  Mat.write [g0, g1, g2, g3, g4, g5, g6, g7, g8, g9, g10, g11]

/-- `g_EECN2`, D lines 2501-2559; `x` lists the arguments. -/
noncomputable def gCn (x : Store ℝ) : Store ℝ :=
  let v01 := x 0
  let v02 := x 1
  let v03 := x 2
  let v11 := x 3
  let v12 := x 4
  let v13 := x 5
  let v21 := x 6
  let v22 := x 7
  let v23 := x 8
  let v31 := x 9
  let v32 := x 10
  let v33 := x 11
  let t8 := -v11 + v01
  let t9 := -v12 + v02
  let t10 := -v13 + v03
  let t11 := -v31 + v21
  let t12 := -v32 + v22
  let t13 := -v33 + v23
  let t23 := t8 * t12 + -(t9 * t11)
  let t24 := t8 * t13 + -(t10 * t11)
  let t25 := t9 * t13 + -(t10 * t12)
  let t26 := t8 * t23 * 2
  let t27 := t9 * t23 * 2
  let t28 := t8 * t24 * 2
  let t29 := t10 * t24 * 2
  let t30 := t9 * t25 * 2
  let t31 := t10 * t25 * 2
  let t32 := t11 * t23 * 2
  let t33 := t12 * t23 * 2
  let t23 := t11 * t24 * 2
  let t10 := t13 * t24 * 2
  let t9 := t12 * t25 * 2
  let t8 := t13 * t25 * 2
  let g0 := t33 + t10
  let g1 := -t32 + t8
  let g2 := -t23 - t9
  let g3 := -t33 - t10
  let g4 := t32 - t8
  let g5 := t23 + t9
  let g6 := -t27 - t29
  let g7 := t26 - t31
  let g8 := t28 + t30
  let g9 := t27 + t29
  let g10 := -t26 + t31
  let g11 := -t28 - t30
  Mat.write [g0, g1, g2, g3, g4, g5, g6, g7, g8, g9, g10, g11]

/-- `g_PT`, D lines 2949-3012; `x` lists the arguments. -/
noncomputable def gPt (x : Store ℝ) : Store ℝ :=
  let v01 := x 0
  let v02 := x 1
  let v03 := x 2
  let v11 := x 3
  let v12 := x 4
  let v13 := x 5
  let v21 := x 6
  let v22 := x 7
  let v23 := x 8
  let v31 := x 9
  let v32 := x 10
  let v33 := x 11
  let t11 := -v11 + v01
  let t12 := -v12 + v02
  let t13 := -v13 + v03
  let t14 := -v21 + v11
  let t15 := -v22 + v12
  let t16 := -v23 + v13
  let t17 := -v31 + v11
  let t18 := -v32 + v12
  let t19 := -v33 + v13
  let t20 := -v31 + v21
  let t21 := -v32 + v22
  let t22 := -v33 + v23
  let t32 := t14 * t18 + -(t15 * t17)
  let t33 := t14 * t19 + -(t16 * t17)
  let t34 := t15 * t19 + -(t16 * t18)
  let t43 := 1 / ((t32 * t32 + t33 * t33) + t34 * t34)
  let t45 := (t13 * t32 + t11 * t34) + -(t12 * t33)
  let t44 := t43 * t43
  let t46 := t45 * t45
  let g0 := t34 * t43 * t45 * 2
  let g1 := t33 * t43 * t45 * -2
  let g2 := t32 * t43 * t45 * 2
  let t45 := t45 * (t43)
  let g3 := -t44 * t46 * (t21 * t32 * 2 + t22 * t33 * 2) - t45 * ((t34 + t12 * t22) - t13 * t21) * 2
  let t43 := t44 * t46
  let g4 := t43 * (t20 * t32 * 2 - t22 * t34 * 2) + t45 * ((t33 + t11 * t22) - t13 * t20) * 2
  let g5 := t43 * (t20 * t33 * 2 + t21 * t34 * 2) - t45 * ((t32 + t11 * t21) - t12 * t20) * 2
  let g6 := t45 * (t12 * t19 - t13 * t18) * 2 + t43 * (t18 * t32 * 2 + t19 * t33 * 2)
  let g7 := t45 * (t11 * t19 - t13 * t17) * -2 - t43 * (t17 * t32 * 2 - t19 * t34 * 2)
  let g8 := t45 * (t11 * t18 - t12 * t17) * 2 - t43 * (t17 * t33 * 2 + t18 * t34 * 2)
  let g9 := t45 * (t12 * t16 - t13 * t15) * -2 - t43 * (t15 * t32 * 2 + t16 * t33 * 2)
  let g10 := t45 * (t11 * t16 - t13 * t14) * 2 + t43 * (t14 * t32 * 2 - t16 * t34 * 2)
  let g11 := t45 * (t11 * t15 - t12 * t14) * -2 + t43 * (t14 * t33 * 2 + t15 * t34 * 2)
  Mat.write [g0, g1, g2, g3, g4, g5, g6, g7, g8, g9, g10, g11]

open Classical in
/-- `mollifier_grad_ee`, D lines 2904-2918. -/
noncomputable def mollifierGrad (x : Store ℝ) (eps : ℝ) : Store ℝ :=
  let c := cn2 (point 3 x 0) (point 3 x 1) (point 3 x 2) (point 3 x 3)
  if c < eps then fun k => gEem c eps * gCn x k else fun _ => 0

end Verif.Dist
