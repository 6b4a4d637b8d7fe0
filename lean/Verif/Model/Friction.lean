import Verif.Model.Rotation

/-!
Model of `include/zensim/geometry/Friction.hpp`: smoothed friction, tangent bases and relative displacements of contacts.

Numbers are real.  A point is a function of its index (`Rotation.V 3`), a basis a matrix with two columns.  The matrices `*_TT` of the code have column `3 b + c` for
component `c` of point `b`; here the two are separate arguments.  A quotient by zero is zero here; the statements exclude it.
-/
namespace Verif.Friction

open Verif.Rotation (V cross dot3 nsq3 unit3)

abbrev Basis := Matrix (Fin 3) (Fin 2) ℝ

open Classical in
/-- `f0_SF`, lines 11-17. -/
noncomputable def f0 (x2 e : ℝ) : ℝ := if x2 ≥ e * e then Real.sqrt x2 else x2 * (-Real.sqrt x2 / 3 + e) / (e * e) + e / 3

open Classical in
/-- `f1_SF_div_rel_dx_norm`, lines 19-25. -/
noncomputable def f1 (x2 e : ℝ) : ℝ := if x2 ≥ e * e then 1 / Real.sqrt x2 else (-Real.sqrt x2 + 2 * e) / (e * e)

/-- `f2_SF_term`, lines 27-30. -/
noncomputable def f2 (_x2 e : ℝ) : ℝ := -1 / (e * e)

def sub (a b : V 3) : V 3 := fun i => a i - b i

/-- The loops that fill a basis from its columns, for instance lines 59-62. -/
def columns (c0 c1 : V 3) : Basis := fun d k => if k = 0 then c0 d else c1 d

/-- `basis * relDXTan`. -/
def mulVec (b : Basis) (t : V 2) : V 3 := fun d => b d 0 * t 0 + b d 1 * t 1

/-! ## Two points -/

open Classical in
/-- `point_point_tangent_basis`, lines 36-64. -/
noncomputable def ppBasis (p0 p1 : V 3) : Basis :=
  let v := sub p1 p0
  let xc : V 3 := ![0, -v 2, v 1]
  let yc : V 3 := ![v 2, 0, -v 0]
  if nsq3 xc > nsq3 yc then columns (unit3 xc) (unit3 (cross v xc)) else columns (unit3 yc) (unit3 (cross v yc))

/-- `point_point_rel_dx`, lines 66-69. -/
def ppRel (dx : Fin 2 → V 3) : V 3 := fun d => dx 0 d - dx 1 d

/-- `point_point_rel_dx_tan_to_mesh`, lines 74-86. -/
def ppMesh (t : V 2) (b : Basis) : Fin 2 → V 3 :=
  let val := mulVec b t
  ![fun d => val d, fun d => -val d]

/-- `point_point_TT`, lines 89-100. -/
def ppTT (b : Basis) (r : Fin 2) : Fin 2 → V 3 := ![fun c => b c r, fun c => -b c r]

/-! ## Point and edge -/

/-- `point_edge_closest_point`, lines 106-111. -/
noncomputable def peClosest (v0 v1 v2 : V 3) : ℝ :=
  let e := sub v2 v1
  dot3 (sub v0 v1) e / nsq3 e

/-- `point_edge_tangent_basis`, lines 115-130. -/
noncomputable def peBasis (v0 v1 v2 : V 3) : Basis :=
  let v12 := sub v2 v1
  columns (unit3 v12) (unit3 (cross v12 (sub v0 v1)))

/-- `point_edge_rel_dx`, lines 133-136. -/
def peRel (dx : Fin 3 → V 3) (y : ℝ) : V 3 := fun d => dx 0 d - (dx 1 d + y * (dx 2 d - dx 1 d))

/-- `point_edge_rel_dx_tan_to_mesh`, lines 141-154. -/
def peMesh (t : V 2) (b : Basis) (y : ℝ) : Fin 3 → V 3 :=
  let val := mulVec b t
  ![fun d => val d, fun d => (y - 1) * val d, fun d => -y * val d]

/-- `point_edge_TT`, lines 158-170. -/
def peTT (b : Basis) (y : ℝ) (r : Fin 2) : Fin 3 → V 3 := ![fun c => b c r, fun c => (y - 1) * b c r, fun c => -y * b c r]

/-! ## Point and triangle -/

/-- `inverse` of a 2 by 2 matrix times a vector, `Vec.h` lines 590-603. -/
noncomputable def solve2 (a00 a01 a10 a11 b0 b1 : ℝ) : V 2 :=
  let invdet := 1 / (a00 * a11 - a01 * a10)
  ![a11 * invdet * b0 + -a01 * invdet * b1, -a10 * invdet * b0 + a00 * invdet * b1]

/-- `point_triangle_closest_point`, lines 176-193. -/
noncomputable def ptClosest (v0 v1 v2 v3 : V 3) : V 2 :=
  let r0 := sub v2 v1
  let r1 := sub v3 v1
  solve2 (dot3 r0 r0) (dot3 r0 r1) (dot3 r1 r0) (dot3 r1 r1) (dot3 r0 (sub v0 v1)) (dot3 r1 (sub v0 v1))

/-- `point_triangle_tangent_basis`, lines 197-213; `v0` is not used. -/
noncomputable def ptBasis (_v0 v1 v2 v3 : V 3) : Basis :=
  let v12 := sub v2 v1
  columns (unit3 v12) (unit3 (cross (cross v12 (sub v3 v1)) v12))

/-- `point_triangle_rel_dx`, lines 215-220. -/
def ptRel (dx : Fin 4 → V 3) (b1 b2 : ℝ) : V 3 := fun d => dx 0 d - (dx 1 d + b1 * (dx 2 d - dx 1 d) + b2 * (dx 3 d - dx 1 d))

/-- `point_triangle_rel_dx_tan_to_mesh`, lines 225-240. -/
def ptMesh (t : V 2) (b : Basis) (b1 b2 : ℝ) : Fin 4 → V 3 :=
  let val := mulVec b t
  ![fun d => val d, fun d => (-1 + b1 + b2) * val d, fun d => -b1 * val d, fun d => -b2 * val d]

/-- `point_triangle_TT`, lines 244-257. -/
def ptTT (b : Basis) (b1 b2 : ℝ) (r : Fin 2) : Fin 4 → V 3 := ![fun c => b c r, fun c => (-1 + b1 + b2) * b c r, fun c => -b1 * b c r, fun c => -b2 * b c r]

/-! ## Two edges -/

/-- `edge_edge_closest_point`, lines 263-283. -/
noncomputable def eeClosest (v0 v1 v2 v3 : V 3) : V 2 :=
  let e20 := sub v0 v2
  let e01 := sub v1 v0
  let e23 := sub v3 v2
  let m01 := -dot3 e23 e01
  solve2 (nsq3 e01) m01 m01 (nsq3 e23) (-dot3 e20 e01) (dot3 e20 e23)

/-- `edge_edge_tangent_basis`, lines 287-303. -/
noncomputable def eeBasis (v0 v1 v2 v3 : V 3) : Basis :=
  let v01 := sub v1 v0
  columns (unit3 v01) (unit3 (cross (cross v01 (sub v3 v2)) v01))

/-- `edge_edge_rel_dx`, lines 305-309. -/
def eeRel (dx : Fin 4 → V 3) (g1 g2 : ℝ) : V 3 := fun d => dx 0 d + g1 * (dx 1 d - dx 0 d) - (dx 2 d + g2 * (dx 3 d - dx 2 d))

/-- `edge_edge_rel_dx_tan_to_mesh`, lines 314-329. -/
def eeMesh (t : V 2) (b : Basis) (g1 g2 : ℝ) : Fin 4 → V 3 :=
  let val := mulVec b t
  ![fun d => (1 - g1) * val d, fun d => g1 * val d, fun d => (g2 - 1) * val d, fun d => -g2 * val d]

/-- `edge_edge_TT`, lines 333-346. -/
def eeTT (b : Basis) (g1 g2 : ℝ) (r : Fin 2) : Fin 4 → V 3 := ![fun c => (1 - g1) * b c r, fun c => g1 * b c r, fun c => (g2 - 1) * b c r, fun c => -g2 * b c r]

end Verif.Friction
