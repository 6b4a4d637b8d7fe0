import Verif.Model.Rotation
import Mathlib.Analysis.SpecialFunctions.Trigonometric.Inverse

/-!
Model of `include/zensim/math/DihedralAngle.hpp`: the angle between two triangles with a common edge, its gradient and its Hessian.

Numbers are real.  The four points are arguments in the order of the code, `v2 v0 v1 v3`; the common edge is `v0 v1`.  The gradient has its twelve entries as four points of three components,
the Hessian as four by four blocks; entry `3 b + c` of the code is entry `c` of block `b`.  A quotient by zero is zero here; the statements exclude it.
-/
namespace Verif.Dihedral

open Verif.Rotation (V M cross dot3 nsq3)

/-- `VecInterface::norm`. -/
noncomputable def norm (a : V 3) : ℝ := Real.sqrt (nsq3 a)

/-- `dihedral_angle`, lines 18-28. -/
noncomputable def angle (v2 v0 v1 v3 : V 3) : ℝ :=
  let n1 := cross (v0 - v2) (v1 - v2)
  let n2 := cross (v1 - v3) (v0 - v3)
  let DA := Real.arccos (max (-1) (min 1 (dot3 n1 n2 / Real.sqrt (nsq3 n1 * nsq3 n2))))
  if dot3 (cross n2 n1) (v0 - v1) < 0 then -DA else DA

/-- `dihedral_angle_gradient`, lines 39-69. -/
noncomputable def gradient (v2 v0 v1 v3 : V 3) : Fin 4 → V 3 :=
  let e0 := v1 - v0
  let e1 := v2 - v0
  let e2 := v3 - v0
  let e3 := v2 - v1
  let e4 := v3 - v1
  let n1 := cross e0 e1
  let n2 := cross e2 e0
  let n1SqNorm := nsq3 n1
  let n2SqNorm := nsq3 n2
  let e0norm := norm e0
  let dv2 := (-e0norm / n1SqNorm) • n1
  let dv0 := (-dot3 e0 e3 / (e0norm * n1SqNorm)) • n1 - (dot3 e0 e4 / (e0norm * n2SqNorm)) • n2
  let dv1 := (dot3 e0 e1 / (e0norm * n1SqNorm)) • n1 + (dot3 e0 e2 / (e0norm * n2SqNorm)) • n2
  let dv3 := (-e0norm / n2SqNorm) • n2
  ![dv2, dv0, dv1, dv3]

/-- `compute_mHat`, lines 95-100. -/
noncomputable def mHat (xp xe0 xe1 : V 3) : V 3 :=
  let e := xe1 - xe0
  let m := xe0 + (dot3 (xp - xe0) e / nsq3 e) • e - xp
  fun i => m i / norm m

/-- `dyadic_prod`. -/
def dyadic (a b : V 3) : M 3 := fun i j => a i * b j

/-- A matrix divided by a number, entry by entry. -/
noncomputable def divide (m : M 3) (k : ℝ) : M 3 := fun i j => m i j / k

/-- `dihedral_angle_hessian`, lines 80-179. -/
noncomputable def hessian (v2 v0 v1 v3 : V 3) : Fin 4 → Fin 4 → M 3 :=
  let e0 := v1 - v0
  let e1 := v2 - v0
  let e2 := v3 - v0
  let e3 := v2 - v1
  let e4 := v3 - v1
  let n1 := cross e0 e1
  let n2 := cross e2 e0
  let n1norm := norm n1
  let n2norm := norm n2
  let mHat1 := mHat v1 v0 v2
  let mHat2 := mHat v1 v0 v3
  let mHat3 := mHat v0 v1 v2
  let mHat4 := mHat v0 v1 v3
  let mHat01 := mHat v2 v0 v1
  let mHat02 := mHat v3 v0 v1
  let cosalpha1 := dot3 e0 e1 / (norm e0 * norm e1)
  let cosalpha2 := dot3 e0 e2 / (norm e0 * norm e2)
  let cosalpha3 := -dot3 e0 e3 / (norm e0 * norm e3)
  let cosalpha4 := -dot3 e0 e4 / (norm e0 * norm e4)
  let h1 := n1norm / norm e1
  let h2 := n2norm / norm e2
  let h3 := n1norm / norm e3
  let h4 := n2norm / norm e4
  let h01 := n1norm / norm e0
  let h02 := n2norm / norm e0
  let N1_01 := dyadic n1 fun i => mHat01 i / (h01 * h01 * n1norm)
  let N2_02 := dyadic n2 fun i => mHat02 i / (h02 * h02 * n2norm)
  let N1_3 := dyadic n1 fun i => mHat3 i / (h01 * h3 * n1norm)
  let N1_1 := dyadic n1 fun i => mHat1 i / (h01 * h1 * n1norm)
  let N2_4 := dyadic n2 fun i => mHat4 i / (h02 * h4 * n2norm)
  let N2_2 := dyadic n2 fun i => mHat2 i / (h02 * h2 * n2norm)
  let M3_01_1 := dyadic ((cosalpha3 / (h3 * h01 * n1norm)) • mHat01) n1
  let M1_01_1 := dyadic ((cosalpha1 / (h1 * h01 * n1norm)) • mHat01) n1
  let M1_1_1 := dyadic ((cosalpha1 / (h1 * h1 * n1norm)) • mHat1) n1
  let M3_3_1 := dyadic ((cosalpha3 / (h3 * h3 * n1norm)) • mHat3) n1
  let M3_1_1 := dyadic ((cosalpha3 / (h3 * h1 * n1norm)) • mHat1) n1
  let M1_3_1 := dyadic ((cosalpha1 / (h1 * h3 * n1norm)) • mHat3) n1
  let M4_02_2 := dyadic ((cosalpha4 / (h4 * h02 * n2norm)) • mHat02) n2
  let M2_02_2 := dyadic ((cosalpha2 / (h2 * h02 * n2norm)) • mHat02) n2
  let M4_4_2 := dyadic ((cosalpha4 / (h4 * h4 * n2norm)) • mHat4) n2
  let M2_4_2 := dyadic ((cosalpha2 / (h2 * h4 * n2norm)) • mHat4) n2
  let M4_2_2 := dyadic ((cosalpha4 / (h4 * h2 * n2norm)) • mHat2) n2
  let M2_2_2 := dyadic ((cosalpha2 / (h2 * h2 * n2norm)) • mHat2) n2
  let B1 := divide (dyadic n1 mHat01) (norm e0 * norm e0 * n1norm)
  let B2 := divide (dyadic n2 mHat02) (norm e0 * norm e0 * n2norm)
  let H00 := -(N1_01 + N1_01.transpose)
  let H10 := M3_01_1 - N1_3
  let H20 := M1_01_1 - N1_1
  let H11 := M3_3_1 + M3_3_1.transpose - B1 + M4_4_2 + M4_4_2.transpose - B2
  let H12 := M3_1_1 + M1_3_1.transpose + B1 + M4_2_2 + M2_4_2.transpose + B2
  let H13 := M4_02_2 - N2_4
  let H22 := M1_1_1 + M1_1_1.transpose - B1 + M2_2_2 + M2_2_2.transpose - B2
  let H23 := M2_02_2 - N2_2
  let H33 := -(N2_02 + N2_02.transpose)
  ![![H00, H10.transpose, H20.transpose, 0], ![H10, H11, H12, H13], ![H20, H12.transpose, H22, H23], ![0, H13.transpose, H23.transpose, H33]]

end Verif.Dihedral
