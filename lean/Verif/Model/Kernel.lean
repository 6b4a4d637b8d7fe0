import Mathlib.Algebra.Order.Floor.Defs
import Mathlib.Algebra.Field.Defs

/-!
Model of the interpolation weights of `include/zensim/math/curve/InterpolationKernel.hpp` (line numbers refer to this file).

* Numbers are those of a field with a floor function, so that there is no rounding; the rational numbers are one, and the real numbers.
  `sqrt` is a parameter.
* `Ti` is a signed integer with `w` bits; a conversion of a number that does not fit is the outcome `none` (undefined behaviour).
* The functions are modelled for one axis (`i`); all pads are computed, of which the code returns the first `order + 1`.
-/
namespace Verif.Kernel

variable {K : Type} [Field K] [LinearOrder K] [FloorRing K]

/-- `lower_trunc(x, wrapt<Ti>{})`, `include/zensim/ZpcMathUtils.hpp` lines 1810-1814. -/
def lowerTrunc (w : Nat) (x : K) : Option Int :=
  if -2 ^ (w - 1) ≤ ⌊x⌋ ∧ ⌊x⌋ < 2 ^ (w - 1) then some ⌊x⌋ else none

/-- `base_node<interpolation_degree>(x)`, lines 46-55. -/
def baseNode (w : Nat) (degree : Nat) (x : K) : Option Int := lowerTrunc w (x - 1 / 2 * (degree : K))

/-- Weights, their derivatives and second derivatives: the entries of row `i` of the pads. -/
structure Pads (K : Type) where
  w : List K
  dw : List K
  ddw : List K

/-- `linear_bspline_weights`, lines 57-89. -/
def linear (w : Nat) (x : K) : Option (Pads K) :=
  (baseNode w 0 x).map fun b : Int =>
    let dx := x - (b : K)
    { w := [1 - dx, dx]
      dw := [-1, 1]
      ddw := [0, 0] }

/-- `quadratic_bspline_weights`, lines 91-128. -/
def quadratic (w : Nat) (x : K) : Option (Pads K) :=
  (baseNode w 1 x).map fun b : Int =>
    let d0 := x - (b : K)
    let d1 := d0 - 1
    let zz := 1 / 2 + d1
    { w := [1 / 2 * (3 / 2 - d0) * (3 / 2 - d0), 3 / 4 - d1 * d1, 1 / 2 * zz * zz]
      dw := [d0 - 3 / 2, -(d1 + d1), zz]
      ddw := [1, -2, 1] }

/-- `cubic_bspline_weights`, lines 130-178. -/
def cubic (w : Nat) (x : K) : Option (Pads K) :=
  (baseNode w 2 x).map fun b : Int =>
    let d0 := x - (b : K)
    let z := 2 - d0
    let z3 := z * z * z
    let d1 := d0 - 1
    let d2 := 1 - d1
    let d3 := 1 + d2
    let zzzz := 2 - d3
    { w := [z3 / 6, (1 / 2 * d1 - 1) * d1 * d1 + 2 / 3, (1 / 2 * d2 - 1) * d2 * d2 + 2 / 3, zzzz * zzzz * zzzz / 6]
      dw := [-1 / 2 * z * z, (3 / 2 * d1 - 2) * d1, (-3 / 2 * d2 + 2) * d2, 1 / 2 * zzzz * zzzz]
      ddw := [2 - d0, -2 + 3 * (d0 - 1), -2 + 3 * (2 - d0), -1 + d0] }

/-- The distance `r` to the node `off`, lines 196, 224 and 255. -/
def distance (x : K) (b : Int) (off : Nat) : K := |x - ((b : K) + (off : K))|

/-- `delta_2point_weights`, lines 180-205. -/
def delta2 (w : Nat) (x : K) : Option (List K) :=
  (baseNode w 0 x).map fun b : Int => (List.range 2).map fun off =>
    let r := distance x b off
    if r < 1 then 1 - r else 0

/-- `delta_3point_weights`, lines 207-236. -/
def delta3 (sqrt : K → K) (w : Nat) (x : K) : Option (List K) :=
  (baseNode w 1 x).map fun b : Int => (List.range 3).map fun off =>
    let r := distance x b off
    if r ≤ 1 / 2 then 1 / 3 * (1 + sqrt (-3 * r * r + 1))
    else if 1 / 2 < r ∧ r < 3 / 2 then 1 / 6 * (5 - 3 * r - sqrt (-3 * (1 - r) * (1 - r) + 1))
    else 0

/-- `delta_4point_weights`, lines 238-267. -/
def delta4 (sqrt : K → K) (w : Nat) (x : K) : Option (List K) :=
  (baseNode w 2 x).map fun b : Int => (List.range 4).map fun off =>
    let r := distance x b off
    if r ≤ 1 then 1 / 8 * (3 - 2 * r + sqrt (1 + 4 * r - 4 * r * r))
    else if 1 < r ∧ r < 2 then 1 / 8 * (5 - 2 * r - sqrt (-7 + 12 * r - 4 * r * r))
    else 0

/-- `bspline_weight(p, dx_inv)`, lines 11-21. -/
def bsplineWeight (w : Nat) (p dxInv : K) : Option (List K) :=
  (lowerTrunc w (p * dxInv + 1 / 2)).map fun b : Int =>
    let d := p * dxInv - ((b : K) - 1)
    let d1 := d - 1
    let d2 := 1 / 2 + d1
    [1 / 2 * (3 / 2 - d) * (3 / 2 - d), 3 / 4 - d1 * d1, 1 / 2 * d2 * d2]

end Verif.Kernel
