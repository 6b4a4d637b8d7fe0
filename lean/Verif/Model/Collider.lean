import Verif.Model.Shapes
import Mathlib.Data.Matrix.Mul

/-!
Model of `include/zensim/geometry/Collider.h` for a level set given by its three functions.  Numbers are real.
-/
namespace Verif.Collider
open Verif.Shapes Matrix

/-- `collider_e`, line 8. -/
inductive Kind | sticky | slip | separate
  deriving DecidableEq

/-- `AngularVelocity::cross` in the plane, `Rotation.hpp` lines 349-351. -/
def cross2 (omega : ℝ) (x : V 2) : V 2 := ![-omega * x 1, omega * x 0]

/-- `AngularVelocity::cross` in space, `Rotation.hpp` lines 367-369, with `cross` of `VecInterface.hpp`. -/
def cross3 (w x : V 3) : V 3 := ![w 1 * x 2 - w 2 * x 1, w 2 * x 0 - w 0 * x 2, w 0 * x 1 - w 1 * x 0]

/-- The members, lines 182-193; `sd`, `normal` and `vel` are the functions of the level set, `cross` is `omega.cross`. -/
structure Collider (n : ℕ) where
  sd : V n → ℝ
  normal : V n → V n
  vel : V n → V n
  type : Kind
  s : ℝ
  dsdt : ℝ
  R : Matrix (Fin n) (Fin n) ℝ
  cross : V n → V n
  b : V n
  dbdt : V n

variable {n : ℕ}

/-- `dot`. -/
def dot (a b : V n) : ℝ := ∑ i, a i * b i

/-- `X`, the point in material space; lines 26-28, 33-35, 40-42, 59-61, 92-94, 126-128, 158-160. -/
noncomputable def Collider.mat (c : Collider n) (x : V n) : V n := (1 / c.s) • (c.Rᵀ *ᵥ (x - c.b))

/-- `queryInside`, lines 25-30. -/
def Collider.Inside (c : Collider n) (x : V n) : Prop := c.sd (c.mat x) < 0

/-- `getVelocity`, lines 32-38. -/
noncomputable def Collider.getVelocity (c : Collider n) (x : V n) : V n :=
  c.cross (x - c.b) + (c.dsdt * (1 / c.s)) • (x - c.b) + (c.s • c.R) *ᵥ c.vel (c.mat x) + c.dbdt

/-- `getNormal`, lines 39-44. -/
noncomputable def Collider.getNormal (c : Collider n) (x : V n) : V n := c.R *ᵥ c.normal (c.mat x)

/-- `resolveCollisionWithNormal`, lines 46-78: the result, the velocity and the normal afterwards. -/
noncomputable def Collider.resolveN (c : Collider n) (x v normal : V n) (erosion : ℝ) : Bool × V n × V n :=
  let xb := x - c.b
  let X := c.mat x
  if c.sd X < -erosion then
    let normal := c.R *ᵥ c.normal X
    let vo := c.cross xb + (c.dsdt * (1 / c.s)) • xb + (c.s • c.R) *ᵥ c.vel X + c.dbdt
    if c.type = .sticky then (true, vo, normal)
    else
      let v := v - vo
      let proj := dot normal v
      let v := if (c.type = .separate ∧ proj < 0) ∨ c.type = .slip then v - proj • normal else v
      (true, v + vo, normal)
  else (false, v, normal)

/-- `resolveCollision`, lines 80-110. -/
noncomputable def Collider.resolve (c : Collider n) (x v : V n) (erosion : ℝ) : Bool × V n :=
  let xb := x - c.b
  let X := c.mat x
  if c.sd X < -erosion then
    let vo := c.cross xb + (c.dsdt * (1 / c.s)) • xb + (c.s • c.R) *ᵥ c.vel X + c.dbdt
    if c.type = .sticky then (true, vo)
    else
      let v := v - vo
      let m := c.R *ᵥ c.normal X
      let proj := dot m v
      let v := if (c.type = .separate ∧ proj < 0) ∨ c.type = .slip then v - proj • m else v
      (true, v + vo)
  else (false, v)

/-- `resolveCollisionWithNormal` with a velocity of the material, lines 112-144. -/
noncomputable def Collider.resolveVN (c : Collider n) (x v V' normal : V n) (erosion : ℝ) : Bool × V n × V n :=
  let xb := x - c.b
  let X := c.mat x
  if c.sd X < -erosion then
    let normal := c.R *ᵥ c.normal X
    let vo := c.cross xb + (c.dsdt * (1 / c.s)) • xb + (c.s • c.R) *ᵥ V' + c.dbdt
    if c.type = .sticky then (true, vo, normal)
    else
      let v := v - vo
      let proj := dot normal v
      let v := if (c.type = .separate ∧ proj < 0) ∨ c.type = .slip then v - proj • normal else v
      (true, v + vo, normal)
  else (false, v, normal)

/-- `resolveCollision` with a velocity of the material, lines 146-175. -/
noncomputable def Collider.resolveV (c : Collider n) (x v V' : V n) (erosion : ℝ) : Bool × V n :=
  let xb := x - c.b
  let X := c.mat x
  if c.sd X < -erosion then
    let vo := c.cross xb + (c.dsdt * (1 / c.s)) • xb + (c.s • c.R) *ᵥ V' + c.dbdt
    if c.type = .sticky then (true, vo)
    else
      let v := v - vo
      let m := c.R *ᵥ c.normal X
      let proj := dot m v
      let v := if (c.type = .separate ∧ proj < 0) ∨ c.type = .slip then v - proj • m else v
      (true, v + vo)
  else (false, v)

end Verif.Collider
