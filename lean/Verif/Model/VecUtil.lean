import Mathlib.Data.Rat.Defs
import Mathlib.Algebra.Order.Ring.Rat

/-!
Vectors given by pointers, `/repo/include/zensim/math/matrix/Utility.h`.

Numbers are rational numbers. A pointer to three numbers is the array of the cells of memory and the position of the first one; writing and reading
happen one after the other as in the code, so that the result may overlap the arguments. Accesses outside of memory are not modelled: memory is a
function of the position. `abs` is taken to be the absolute value of the number.
-/
namespace Verif.VecUtil

/-- Memory. -/
abbrev Mem := Nat → ℚ

/-- `p[k] = x`. -/
def store (m : Mem) (p : Nat) (x : ℚ) : Mem := fun q => if q = p then x else m q

/-- `sgn`, lines 6-10: `-1e-10` and `1e-10`. -/
def sgn (n : ℚ) : Int := if n < -(1 / 10000000000) then -1 else if n > 1 / 10000000000 then 1 else 0

/-- `orthogonalVector`, lines 12-25. The absolute values are read first; the components are read when they are assigned. -/
def orthogonalVector (m : Mem) (input output : Nat) : Mem :=
  let ax := |m input|
  let ay := |m (input + 1)|
  let az := |m (input + 2)|
  let set (m : Mem) (k : Nat) (f : Mem → ℚ) : Mem := store m (output + k) (f m)
  if ax < ay then
    if ax < az then set (set (set m 0 fun _ => 0) 1 fun m => m (input + 2)) 2 fun m => -m (input + 1)
    else set (set (set m 0 fun m => m (input + 1)) 1 fun m => -m input) 2 fun _ => 0
  else
    if ay < az then set (set (set m 0 fun m => -m (input + 2)) 1 fun _ => 0) 2 fun m => m input
    else set (set (set m 0 fun m => m (input + 1)) 1 fun m => -m input) 2 fun _ => 0

/-- `cross`, lines 27-37: the components are references, read at every use. -/
def cross (m : Mem) (a b output : Nat) : Mem :=
  let m1 := store m output (m (a + 1) * m (b + 2) - m (b + 1) * m (a + 2))
  let m2 := store m1 (output + 1) (m1 b * m1 (a + 2) - m1 a * m1 (b + 2))
  store m2 (output + 2) (m2 a * m2 (b + 1) - m2 b * m2 (a + 1))

/-- `vectorCopy`, lines 39-44. -/
def vectorCopy (m : Mem) (scale : ℚ) (v res : Nat) : Mem :=
  let m1 := store m res (m v * scale)
  let m2 := store m1 (res + 1) (m1 (v + 1) * scale)
  store m2 (res + 2) (m2 (v + 2) * scale)

end Verif.VecUtil
