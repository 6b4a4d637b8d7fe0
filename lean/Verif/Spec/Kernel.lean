import Mathlib.Algebra.Field.Defs
import Mathlib.Order.Defs.LinearOrder

/-!
The weights that belong to an interpolation: B-splines, by the recursion of Cox and de Boor, and the conditions on discrete delta functions.
-/
namespace Verif.Kernel

variable {K : Type} [Field K] [LinearOrder K]

/-- The cardinal B-spline of degree `n` around zero. -/
def bspline : Nat → K → K
  | 0, x => if -(1 / 2) ≤ x ∧ x < 1 / 2 then 1 else 0
  | n + 1, x => (((n + 2 : K) / 2 + x) * bspline n (x + 1 / 2) + ((n + 2 : K) / 2 - x) * bspline n (x - 1 / 2)) / (n + 1 : K)

/-- Its derivative, a difference of B-splines of the degree below. -/
def slope : Nat → K → K
  | 0, _ => 0
  | n + 1, x => bspline n (x + 1 / 2) - bspline n (x - 1 / 2)

/-- Its second derivative. -/
def curvature : Nat → K → K
  | 0, _ => 0
  | n + 1, x => slope n (x + 1 / 2) - slope n (x - 1 / 2)

/-- The entry for the node `n` of a row that starts at node `b`; nodes outside have none. -/
def entry (b : Int) (row : List K) (n : Int) : K := if b ≤ n then row.getD (n - b).toNat 0 else 0

/-- `Σ row[k] * (b + k) ^ j`. -/
def moment (j : Nat) (b : Int) : List K → K
  | [] => 0
  | a :: row => a * (b : K) ^ j + moment j (b + 1) row

/-- A square root of the non-negative numbers. -/
structure IsSqrt (sqrt : K → K) : Prop where
  nonneg : ∀ a, 0 ≤ a → 0 ≤ sqrt a
  square : ∀ a, 0 ≤ a → sqrt a * sqrt a = a

end Verif.Kernel
