import Mathlib.Analysis.SpecialFunctions.Complex.Arg
import Mathlib.Analysis.SpecialFunctions.Complex.Log
import Mathlib.Analysis.SpecialFunctions.Pow.Real
import Mathlib.Analysis.Real.Sqrt

/-!
Model of `complex<T>`, `include/zensim/math/Complex.hpp` ("C"), of its functions in `include/zensim/math/MathUtils.h` ("M") lines 24-214, and of
the two polynomial solvers in M lines 324-372.

Numbers are real numbers (arithmetic: the elements of any field); rounding is not modelled.  Every statement of an operator is one line of the
`let` chain, in the order of the code.  Division by zero is not modelled as such: the theorems exclude it.
-/
namespace Verif.Cx

@[ext] structure Cx (K : Type) where
  re : K
  im : K
deriving DecidableEq

section Arithmetic

variable {K : Type} [Field K]

/-- `operator+=(const T&)`, C lines 62-65. -/
def addR (z : Cx K) (t : K) : Cx K := ⟨z.re + t, z.im⟩

/-- `operator-=(const T&)`, C lines 66-69. -/
def subR (z : Cx K) (t : K) : Cx K := ⟨z.re - t, z.im⟩

/-- `operator*=(const T&)`, C lines 70-74. -/
def mulR (z : Cx K) (t : K) : Cx K := ⟨z.re * t, z.im * t⟩

/-- `operator/=(const T&)`, C lines 75-79. -/
def divR (z : Cx K) (t : K) : Cx K := ⟨z.re / t, z.im / t⟩

/-- `operator+=(const complex<U>&)`, C lines 86-90, for different objects, and `operator+`, lines 114-119. -/
def add (z o : Cx K) : Cx K := ⟨z.re + o.re, z.im + o.im⟩

/-- `operator-=`, C lines 91-95, and `operator-`, lines 131-136. -/
def sub (z o : Cx K) : Cx K := ⟨z.re - o.re, z.im - o.im⟩

/-- `operator*=`, C lines 96-100, and `operator*`, lines 148-153: the second statement reads the new `_real`. -/
def mul (z o : Cx K) : Cx K :=
  let z : Cx K := { z with re := z.re * o.re - z.im * o.im }
  let z : Cx K := { z with im := z.re * o.im + z.im * o.re }
  z

/-- `z *= z`: `o` changes as well. -/
def mulSelf (z : Cx K) : Cx K :=
  let z : Cx K := { z with re := z.re * z.re - z.im * z.im }
  let z : Cx K := { z with im := z.re * z.im + z.im * z.re }
  z

/-- `operator/=`, C lines 101-107, and `operator/`, lines 165-170. -/
def div (z o : Cx K) : Cx K :=
  let r := z.re * o.re + z.im * o.im
  let n := o.re * o.re + o.im * o.im
  let z : Cx K := { z with im := (z.im * o.re - z.re * o.im) / n }
  let z : Cx K := { z with re := r / n }
  z

/-- `z /= z`. -/
def divSelf (z : Cx K) : Cx K :=
  let r := z.re * z.re + z.im * z.im
  let n := z.re * z.re + z.im * z.im
  let z : Cx K := { z with im := (z.im * z.re - z.re * z.im) / n }
  let z : Cx K := { z with re := r / n }
  z

/-- `z -= z`. -/
def subSelf (z : Cx K) : Cx K :=
  let z : Cx K := { z with re := z.re - z.re }
  let z : Cx K := { z with im := z.im - z.im }
  z

/-- Unary `operator-`, C lines 183-185. -/
def neg (z : Cx K) : Cx K := ⟨-z.re, -z.im⟩

/-- `complex(r)`, C line 44. -/
def ofR (r : K) : Cx K := ⟨r, 0⟩

/-- `operator+(const T&, const complex<T>&)`, C lines 125-129. -/
def rAdd (x : K) (z : Cx K) : Cx K := addR z x

/-- `operator-(const T&, const complex<T>&)`, C lines 142-146. -/
def rSub (x : K) (z : Cx K) : Cx K := addR (neg z) x

/-- `operator*(const T&, const complex<T>&)`, C lines 159-163. -/
def rMul (x : K) (z : Cx K) : Cx K := mulR z x

/-- `operator/(const T&, const complex<T>&)`, C lines 176-180. -/
def rDiv (x : K) (z : Cx K) : Cx K := div (ofR x) z

/-- `operator==`, C lines 187-190, and with a number, lines 191-196. -/
def eq [DecidableEq K] (z o : Cx K) : Bool := z.re == o.re && z.im == o.im

def eqR [DecidableEq K] (z : Cx K) (t : K) : Bool := z.re == t && z.im == 0

/-- `operator!=`, C lines 198-201. -/
def ne [DecidableEq K] (z o : Cx K) : Bool := z.re != o.re || z.im != o.im

/-- `norm`, C lines 217-219. -/
def norm (z : Cx K) : K := z.re * z.re + z.im * z.im

/-- `conj`, C lines 220-222. -/
def conj (z : Cx K) : Cx K := ⟨z.re, -z.im⟩

end Arithmetic

noncomputable section Functions

/-- `zs::atan2(y, x)`, which is the function of the C library: the angle of the vector `(x, y)`. -/
def atan2 (y x : ℝ) : ℝ := Complex.arg ⟨x, y⟩

/-- `abs`, M lines 25-33. -/
def abs (z : Cx ℝ) : ℝ :=
  let s := max |z.re| |z.im|
  if s = 0 then s else s * Real.sqrt (z.re / s * (z.re / s) + z.im / s * (z.im / s))

/-- `arg`, M lines 35-37. -/
def arg (z : Cx ℝ) : ℝ := atan2 z.im z.re

/-- `polar`, M lines 38-41. -/
def polar (rho theta : ℝ) : Cx ℝ := ⟨rho * Real.cos theta, rho * Real.sin theta⟩

/-- `cos`, M lines 44-48. -/
def cos (z : Cx ℝ) : Cx ℝ := ⟨Real.cos z.re * Real.cosh z.im, -Real.sin z.re * Real.sinh z.im⟩

/-- `cosh`, M lines 49-53. -/
def cosh (z : Cx ℝ) : Cx ℝ := ⟨Real.cosh z.re * Real.cos z.im, Real.sinh z.re * Real.sin z.im⟩

/-- `exp`, M lines 56-58. -/
def exp (z : Cx ℝ) : Cx ℝ := polar (Real.exp z.re) z.im

/-- `log`, M lines 62-64; `zs::log(0)` is not modelled. -/
def log (z : Cx ℝ) : Cx ℝ := ⟨Real.log (abs z), arg z⟩

/-- `log10`, M lines 65-67. -/
def log10 (z : Cx ℝ) : Cx ℝ := divR (log z) (Real.log 10)

/-- `sin`, M lines 70-74. -/
def sin (z : Cx ℝ) : Cx ℝ := ⟨Real.sin z.re * Real.cosh z.im, Real.cos z.re * Real.sinh z.im⟩

/-- `sinh`, M lines 77-81. -/
def sinh (z : Cx ℝ) : Cx ℝ := ⟨Real.sinh z.re * Real.cos z.im, Real.cosh z.re * Real.sin z.im⟩

/-- `sqrt`, M lines 85-96. -/
def sqrt (z : Cx ℝ) : Cx ℝ :=
  if z.re = 0 then
    let t := Real.sqrt (|z.im| / 2)
    ⟨t, if z.im < 0 then -t else t⟩
  else
    let t := Real.sqrt (2 * (abs z + |z.re|))
    let u := t / 2
    if z.re > 0 then ⟨u, z.im / t⟩ else ⟨|z.im| / t, if z.im < 0 then -u else u⟩

/-- `tan`, M lines 99-101. -/
def tan (z : Cx ℝ) : Cx ℝ := div (sin z) (cos z)

/-- `tanh`, M lines 104-106. -/
def tanh (z : Cx ℝ) : Cx ℝ := div (sinh z) (cosh z)

/-- `pow(const complex<T>&, const T&)`, M lines 139-145. -/
def powR (x : Cx ℝ) (y : ℝ) : Cx ℝ :=
  if x.im = 0 ∧ x.re > 0 then ofR (x.re ^ y)
  else
    let t := log x
    polar (Real.exp (y * t.re)) (y * t.im)

/-- `pow(const complex<T>&, const complex<T>&)`, M lines 135-137. -/
def pow (x y : Cx ℝ) : Cx ℝ := if x = ⟨0, 0⟩ then ofR 0 else exp (mul y (log x))

/-- `atan`, M lines 171-182. -/
def atan (z : Cx ℝ) : Cx ℝ :=
  let r2 := z.re * z.re
  let x := 1 - r2 - z.im * z.im
  let num := z.im + 1
  let den := z.im - 1
  let num := r2 + num * num
  let den := r2 + den * den
  ⟨1 / 2 * atan2 (2 * z.re) x, 1 / 4 * Real.log (num / den)⟩

/-- `acosh`, M lines 186-189. -/
def acosh (z : Cx ℝ) : Cx ℝ := rMul 2 (log (add (sqrt (rMul (1 / 2) (addR z 1))) (sqrt (rMul (1 / 2) (subR z 1)))))

/-- `asinh`, M lines 193-198. -/
def asinh (z : Cx ℝ) : Cx ℝ :=
  let t : Cx ℝ := ⟨(z.re - z.im) * (z.re + z.im) + 1, 2 * z.re * z.im⟩
  log (add (sqrt t) z)

/-- `atanh`, M lines 202-214. -/
def atanh (z : Cx ℝ) : Cx ℝ :=
  let i2 := z.im * z.im
  let x := 1 - i2 - z.re * z.re
  let num := 1 + z.re
  let den := 1 - z.re
  let num := i2 + num * num
  let den := i2 + den * den
  ⟨1 / 4 * (Real.log num - Real.log den), 1 / 2 * atan2 (2 * z.im) x⟩

/-- `get_smallest_positive_real_quad_root`, M lines 325-339. -/
def quadRoot (a b c tol : ℝ) : ℝ :=
  if |a| ≤ tol then -c / b
  else
    let desc := b * b - 4 * a * c
    if desc > 0 then
      let t := (-b - Real.sqrt desc) / (2 * a)
      if t < 0 then (-b + Real.sqrt desc) / (2 * a) else t
    else -1

/-- `get_smallest_positive_real_cubic_root`, M lines 341-372. -/
def cubicRoot (a b c d tol : ℝ) : ℝ :=
  if |a| ≤ tol then quadRoot b c d tol
  else
    let i : Cx ℝ := ⟨0, 1⟩
    let delta0 : Cx ℝ := ⟨b * b - 3 * a * c, 0⟩
    let delta1 : Cx ℝ := ⟨2 * b * b * b - 9 * a * b * c + 27 * a * a * d, 0⟩
    let root := sqrt (sub (mul delta1 delta1) (mul (mul (rMul 4 delta0) delta0) delta0))
    let C := powR (divR (add delta1 root) 2) (1 / 3)
    let C := if abs C = 0 then powR (divR (sub delta1 root) 2) (1 / 3) else C
    let u2 := divR (rAdd (-1) (rMul (Real.sqrt 3) i)) 2
    let u3 := divR (rSub (-1) (rMul (Real.sqrt 3) i)) 2
    let t1 := divR (add (rAdd b C) (div delta0 C)) (-3 * a)
    let t2 := divR (add (rAdd b (mul u2 C)) (div delta0 (mul u2 C))) (-3 * a)
    let t3 := divR (add (rAdd b (mul u3 C)) (div delta0 (mul u3 C))) (-3 * a)
    let t : ℝ := -1
    let t := if |t1.im| < tol ∧ t1.re > 0 then t1.re else t
    let t := if |t2.im| < tol ∧ t2.re > 0 ∧ (t2.re < t ∨ t < 0) then t2.re else t
    if |t3.im| < tol ∧ t3.re > 0 ∧ (t3.re < t ∨ t < 0) then t3.re else t

end Functions

end Verif.Cx
