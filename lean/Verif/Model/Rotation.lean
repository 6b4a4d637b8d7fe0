import Mathlib.Analysis.SpecialFunctions.Trigonometric.Inverse
import Mathlib.Analysis.SpecialFunctions.Complex.Arg
import Mathlib.LinearAlgebra.Matrix.Notation

/-!
Model of `include/zensim/math/Rotation.hpp`: rotations of two and three dimensions.

Numbers are real, `g_pi` is π, sine and cosine and their inverses are exact.  A vector is a function of its index, a matrix one of row and column.  The
function `sq` stands for `math::sqrtNewtonRaphson` (C82), `eps` for the constant of `math::near_zero`.
-/
namespace Verif.Rotation

abbrev V (n : Nat) := Fin n → ℝ
abbrev M (n : Nat) := Matrix (Fin n) (Fin n) ℝ

/-- `VecInterface::l2NormSqr`, dimension 2, 3 and 4 (C75). -/
def nsq2 (a : V 2) : ℝ := a 0 * a 0 + a 1 * a 1
def nsq3 (a : V 3) : ℝ := a 0 * a 0 + a 1 * a 1 + a 2 * a 2
def nsq4 (a : V 4) : ℝ := a 0 * a 0 + a 1 * a 1 + a 2 * a 2 + a 3 * a 3

/-- `VecInterface::normalized`. -/
noncomputable def unit2 (a : V 2) : V 2 := fun i => a i / Real.sqrt (nsq2 a)
noncomputable def unit3 (a : V 3) : V 3 := fun i => a i / Real.sqrt (nsq3 a)
noncomputable def unit4 (a : V 4) : V 4 := fun i => a i / Real.sqrt (nsq4 a)

/-- `VecInterface::cross`, `VecInterface.hpp` lines 945-956. -/
def cross (a b : V 3) : V 3 := ![a 1 * b 2 - a 2 * b 1, a 2 * b 0 - a 0 * b 2, a 0 * b 1 - a 1 * b 0]

/-- `VecInterface::dot`. -/
def dot3 (a b : V 3) : ℝ := a 0 * b 0 + a 1 * b 1 + a 2 * b 2

/-- `VecInterface::orthogonal`, `VecInterface.hpp` lines 567-589. -/
noncomputable def orthogonal (a : V 3) : V 3 :=
  let x := |a 0|
  let y := |a 1|
  let z := |a 2|
  cross a (if x < y then if x < z then ![1, 0, 0] else ![0, 0, 1] else if y < z then ![0, 1, 0] else ![0, 0, 1])

/-- `math::near_zero`, `ZpcMathUtils.hpp` lines 290-294. -/
def NearZero (eps v : ℝ) : Prop := v ≥ -eps ∧ v ≤ eps

noncomputable instance (eps v : ℝ) : Decidable (NearZero eps v) := by unfold NearZero; infer_instance

/-- `angle_unit_e`, line 11. -/
inductive AngleUnit | radian | degree

/-- The conversion of the arguments, lines 54, 96-100. -/
noncomputable def toRad : AngleUnit → ℝ → ℝ
  | .radian, a => a
  | .degree, a => a * (Real.pi / 180)

/-- The conversion of the results, lines 84-87, 179-184. -/
noncomputable def fromRad : AngleUnit → ℝ → ℝ
  | .radian, a => a
  | .degree, a => a * 180 / Real.pi

/-- `zs::atan2(y, x)`. -/
noncomputable def atan2 (y x : ℝ) : ℝ := Complex.arg ⟨x, y⟩

/-- The constructor from an angle in two dimensions, lines 38-46; also lines 190-197. -/
noncomputable def ofAngle (theta : ℝ) : M 2 := !![Real.cos theta, -Real.sin theta; Real.sin theta, Real.cos theta]

/-- The constructor from axis and angle, lines 48-60. -/
noncomputable def ofAxis (u : AngleUnit) (p' : V 3) (alpha' : ℝ) : M 3 :=
  let alpha := toRad u alpha'
  let p := unit3 p'
  let P : M 3 := !![0, p 2, -p 1; -p 2, 0, p 0; p 1, -p 0, 0]
  Real.cos alpha • (1 : M 3) + (1 - Real.cos alpha) • (Matrix.of fun i j => p i * p j) - Real.sin alpha • P

/-- `extractAxisRotation`, lines 61-88. -/
noncomputable def extractAxis (sq : ℝ → ℝ) (eps : ℝ) (u : AngleUnit) (R : M 3) : V 3 × ℝ :=
  let cosAlpha := 0.5 * (R 0 0 + R 1 1 + R 2 2 - 1)
  let alpha := Real.arccos cosAlpha
  if NearZero eps (cosAlpha - 1) then (![0, 1, 0], 0)
  else if NearZero eps (cosAlpha + 1) then
    let p0 := sq ((R 0 0 + 1) * 0.5)
    if NearZero eps p0 then
      let p1 := sq ((R 1 1 + 1) * 0.5)
      let p2 := sq ((R 2 2 + 1) * 0.5)
      (![p0, p1, if R 1 2 < 0 then -p2 else p2], fromRad u alpha)
    else (![p0, R 0 1 * 0.5 / p0, R 0 2 * 0.5 / p0], fromRad u alpha)
  else
    let sinAlpha := sq (1 - cosAlpha * cosAlpha)
    (![(R 2 1 - R 1 2) * 0.5 / sinAlpha, (R 0 2 - R 2 0) * 0.5 / sinAlpha, (R 1 0 - R 0 1) * 0.5 / sinAlpha], fromRad u alpha)

/-- `euler_angle_convention_e`, line 7. -/
inductive Convention | roe | ypr

/-- The constructor from three angles, lines 90-140. -/
noncomputable def ofEuler (u : AngleUnit) (c : Convention) (psi' theta' phi' : ℝ) : M 3 :=
  let sinPsi := Real.sin (toRad u psi')
  let cosPsi := Real.cos (toRad u psi')
  let sinTheta := Real.sin (toRad u theta')
  let cosTheta := Real.cos (toRad u theta')
  let sinPhi := Real.sin (toRad u phi')
  let cosPhi := Real.cos (toRad u phi')
  match c with
  | .roe =>
    let cosPsi_cosTheta := cosPsi * cosTheta
    let sinPsi_cosTheta := sinPsi * cosTheta
    !![cosPsi_cosTheta * cosPhi - sinPsi * sinPhi, -cosPsi_cosTheta * sinPhi - sinPsi * cosPhi, cosPsi * sinTheta;
      sinPsi_cosTheta * cosPhi + cosPsi * sinPhi, -sinPsi_cosTheta * sinPhi + cosPsi * cosPhi, sinPsi * sinTheta;
      -sinTheta * cosPhi, sinTheta * sinPhi, cosTheta]
  | .ypr =>
    let sinPhi_sinTheta := sinPhi * sinTheta
    let cosPhi_sinTheta := cosPhi * sinTheta
    !![cosTheta * cosPsi, cosTheta * sinPsi, -sinTheta;
      sinPhi_sinTheta * cosPsi - cosPhi * sinPsi, sinPhi_sinTheta * sinPsi + cosPhi * cosPsi, sinPhi * cosTheta;
      cosPhi_sinTheta * cosPsi + sinPhi * sinPsi, cosPhi_sinTheta * sinPsi - sinPhi * cosPsi, cosPhi * cosTheta]

/-- `extractAngles`, lines 141-185: psi, theta, phi. -/
noncomputable def extractAngles (eps : ℝ) (u : AngleUnit) (c : Convention) (R : M 3) : ℝ × ℝ × ℝ :=
  let a : ℝ × ℝ × ℝ :=
    match c with
    | .roe =>
      let cosTheta := R 2 2
      if NearZero eps (cosTheta - 1) then (atan2 (R 1 0) (R 0 0), 0, 0)
      else if NearZero eps (cosTheta + 1) then (atan2 (-R 1 0) (-R 0 0), Real.pi, 0)
      else (atan2 (R 1 2) (R 0 2), Real.arccos cosTheta, atan2 (R 2 1) (-R 2 0))
    | .ypr =>
      let sinTheta := -R 0 2
      if NearZero eps (sinTheta - 1) then (atan2 (R 2 1) (R 2 0), Real.pi / 2, 0)
      else if NearZero eps (sinTheta + 1) then (atan2 (-R 2 1) (-R 2 0), -(Real.pi / 2), 0)
      else (atan2 (R 0 1) (R 0 0), Real.arcsin sinTheta, atan2 (R 1 2) (R 2 2))
  (fromRad u a.1, fromRad u a.2.1, fromRad u a.2.2)

/-- `quaternion2matrix`, lines 304-334 (used in lines 198-202). -/
def ofQuat (q : V 4) : M 3 :=
  let tx := 2 * q 0
  let ty := 2 * q 1
  let tz := 2 * q 2
  let twx := tx * q 3
  let twy := ty * q 3
  let twz := tz * q 3
  let txx := tx * q 0
  let txy := ty * q 0
  let txz := tz * q 0
  let tyy := ty * q 1
  let tyz := tz * q 1
  let tzz := tz * q 2
  !![1 - (tyy + tzz), txy - twz, txz + twy;
    txy + twz, 1 - (txx + tzz), tyz - twx;
    txz - twy, tyz + twx, 1 - (txx + tyy)]

/-- `quaternionMultiply`, lines 241-265. -/
def quatMul (q1 q2 : V 4) : V 4 :=
  let w1 := q1 3
  let x1 := q1 0
  let y1 := q1 1
  let z1 := q1 2
  let w2 := q2 3
  let x2 := q2 0
  let y2 := q2 1
  let z2 := q2 2
  ![w1 * x2 + x1 * w2 + y1 * z2 - z1 * y2, w1 * y2 - x1 * z2 + y1 * w2 + z1 * x2, w1 * z2 + x1 * y2 - y1 * x2 + z1 * w2,
    w1 * w2 - x1 * x2 - y1 * y2 - z1 * z2]

/-- `quaternionConjugateMultiply`, lines 267-291. -/
def quatConjMul (q1 q2 : V 4) : V 4 :=
  let w1 := q1 3
  let x1 := -q1 0
  let y1 := -q1 1
  let z1 := -q1 2
  let w2 := q2 3
  let x2 := q2 0
  let y2 := q2 1
  let z2 := q2 2
  ![w1 * x2 + x1 * w2 + y1 * z2 - z1 * y2, w1 * y2 - x1 * z2 + y1 * w2 + z1 * x2, w1 * z2 + x1 * y2 - y1 * x2 + z1 * w2,
    w1 * w2 - x1 * x2 - y1 * y2 - z1 * z2]

/-- The constructor from two vectors in two dimensions, lines 204-217. -/
noncomputable def between2 (a b : V 2) : M 2 :=
  let aa := unit2 a
  let bb := unit2 b
  !![aa 0 * bb 0 + aa 1 * bb 1, -(aa 0 * bb 1 - bb 0 * aa 1); aa 0 * bb 1 - bb 0 * aa 1, aa 0 * bb 0 + aa 1 * bb 1]

open Classical in
/-- The constructor from two vectors in three dimensions, lines 218-238. -/
noncomputable def between3 (a b : V 3) : M 3 :=
  let kCosTheta := dot3 a b
  let k := Real.sqrt (nsq3 a * nsq3 b)
  let q : V 4 :=
    if kCosTheta / k = -1 then
      let c := unit3 (orthogonal a)
      ![c 0, c 1, c 2, 0]
    else
      let c := cross a b
      unit4 ![c 0, c 1, c 2, kCosTheta + k]
  ofQuat q

/-- `AngularVelocity::cross`, lines 348-351 and 366-369. -/
def angular2 (omega : ℝ) (x : V 2) : V 2 := ![-omega * x 1, omega * x 0]
def angular3 (omega x : V 3) : V 3 := cross omega x

end Verif.Rotation
