/-!
Model of the integer helpers `gcd`, `lcm`, `pow_integral` (`include/zensim/ZpcMathUtils.hpp`) and of
`struct rational` (`include/zensim/math/Rational.hpp`).

Simplification: `int_type` (i64) is modelled by unbounded `Int`, i.e. executions in which no
intermediate value leaves the 64-bit range.  `/` and `%` are C's truncated division
(`Int.tdiv`, `Int.tmod`); division by zero is the distinct outcome `none`.
-/
namespace Verif.Rational

/-- `math::gcd`, ZpcMathUtils.hpp 312-320: `while (v != 0) { r = u % v; u = v; v = r; } return u;` -/
def gcd (u v : Int) : Int :=
  if _h : v = 0 then u else gcd v (u.tmod v)
termination_by v.natAbs
decreasing_by
  rw [Int.natAbs_tmod]
  exact Nat.mod_lt _ (by omega)

/-- C division; dividing by zero has no defined result. -/
def cdiv (a b : Int) : Option Int := if b = 0 then none else some (a.tdiv b)

/-- C remainder; same convention as `cdiv`. -/
def cmod (a b : Int) : Option Int := if b = 0 then none else some (a.tmod b)

/-- `math::lcm`, ZpcMathUtils.hpp 321-324: `(u / gcd(u, v)) * v`. -/
def lcm (u v : Int) : Option Int := do
  let q ← cdiv u (gcd u v)
  return q * v

/-- `detail::pow_integral_recursive`, ZpcMathUtils.hpp 355-361 (over integers). -/
def powRec (base val : Int) (exp : Nat) : Int :=
  if exp > 1 then
    if exp % 2 = 1 then powRec (base * base) (val * base) (exp / 2)
    else powRec (base * base) val (exp / 2)
  else if exp = 1 then val * base else val
termination_by exp
decreasing_by all_goals omega

/-- `pow_integral`, ZpcMathUtils.hpp 363-379.  `maxExp` is `numeric_limits<Tn>::max()` and `inf` is
`deduce_numeric_infinity<R>()`. -/
def powIntegral (maxExp inf : Int) (base exp : Int) : Int :=
  if exp = 3 then base * base * base
  else if exp = 2 then base * base
  else if exp = 1 then base
  else if exp = 0 then 1
  else if exp = maxExp then inf
  else if exp < 0 then 0
  else powRec base 1 exp.toNat

/-- `struct rational`, Rational.hpp 86-341 (fields at 340). -/
structure Q where
  num : Int
  den : Int
deriving DecidableEq, Repr

/-- `canonicalize`, Rational.hpp 105-122. -/
def canonicalize (x : Q) : Option Q :=
  if x.den = 0 then some x
  else if x.num = 0 then some ⟨0, 1⟩
  else do
    let g := gcd x.num x.den
    let n ← cdiv x.num g
    let d ← cdiv x.den g
    return if d < 0 then ⟨-n, -d⟩ else ⟨n, d⟩

/-- Constructor `rational(n, d)`, Rational.hpp 90. -/
def mk (n d : Int) : Option Q := canonicalize ⟨n, d⟩

/-- `get_sign`, Rational.hpp 104. -/
def getSign (x : Q) : Int := if x.num > 0 then 1 else if x.num < 0 then -1 else 0

/-- `operator+=` / `operator+`, Rational.hpp 141-172, 232-235. -/
def add (x y : Q) : Option Q := do
  let g := gcd x.den y.den
  let den ← cdiv x.den g
  let num := x.num * (← cdiv y.den g) + y.num * den
  let g := gcd num g
  return ⟨← cdiv num g, den * (← cdiv y.den g)⟩

/-- `operator-=` / `operator-`, Rational.hpp 174-189, 236-239. -/
def sub (x y : Q) : Option Q := do
  let g := gcd x.den y.den
  let den ← cdiv x.den g
  let num := x.num * (← cdiv y.den g) - y.num * den
  let g := gcd num g
  return ⟨← cdiv num g, den * (← cdiv y.den g)⟩

/-- `operator*=` / `operator*`, Rational.hpp 191-202, 240-243. -/
def mul (x y : Q) : Option Q := do
  let g1 := gcd x.num y.den
  let g2 := gcd y.num x.den
  return ⟨(← cdiv x.num g1) * (← cdiv y.num g2), (← cdiv x.den g2) * (← cdiv y.den g1)⟩

/-- `operator/=` / `operator/`, Rational.hpp 204-229, 244-247.  The diagnostic print for a zero divisor
(213-215) does not change the control flow and is omitted. -/
def div (x y : Q) : Option Q :=
  if x.num = 0 then some x
  else do
    let g1 := gcd x.num y.num
    let g2 := gcd y.den x.den
    let num := (← cdiv x.num g1) * (← cdiv y.den g2)
    let den := (← cdiv x.den g2) * (← cdiv y.num g1)
    return if den < 0 then ⟨-num, -den⟩ else ⟨num, den⟩

/-- Unary `operator-`, Rational.hpp 231. -/
def neg (x : Q) : Option Q := mk (-x.num) x.den

/-- `operator==`, Rational.hpp 329-331. -/
def eq (x y : Q) : Bool := x.num == y.num && x.den == y.den

/-- The anonymous struct `{n, d, q, r}` used in `operator<`, Rational.hpp 263-268. -/
structure CF where
  d : Int
  q : Int
  r : Int
deriving DecidableEq, Repr

/-- `while (r < 0) { r += d; --q; }`, Rational.hpp 276-283.  `none`: not finished within `fuel`
iterations. -/
def norm : Nat → CF → Option CF
  | 0, _ => none
  | fuel + 1, c => if c.r < 0 then norm fuel ⟨c.d, c.q - 1, c.r + c.d⟩ else some c

/-- The main loop of `operator<`, Rational.hpp 286-327.  (`n` is only used to compute the next `q`
and `r`, so the struct field is not kept.)  `none`: not finished within `fuel` iterations or division
by zero. -/
def ltLoop : Nat → CF → CF → Bool → Option Bool
  | 0, _, _, _ => none
  | fuel + 1, ts, rs, reverse =>
    if ts.q ≠ rs.q then
      some (if reverse then decide (ts.q > rs.q) else decide (ts.q < rs.q))
    else
      let reverse := !reverse
      if ts.r = 0 ∨ rs.r = 0 then
        if ts.r = rs.r then some false
        else some (decide (ts.r ≠ 0) != reverse)
      else do
        let ts' : CF := ⟨ts.r, ← cdiv ts.d ts.r, ← cmod ts.d ts.r⟩
        let rs' : CF := ⟨rs.r, ← cdiv rs.d rs.r, ← cmod rs.d rs.r⟩
        ltLoop fuel ts' rs' reverse

/-- `operator<`, Rational.hpp 250-328, with at most `fuel` iterations of each loop. -/
def lt (fuel : Nat) (x y : Q) : Option Bool := do
  let ts ← norm fuel ⟨x.den, ← cdiv x.num x.den, ← cmod x.num x.den⟩
  let rs ← norm fuel ⟨y.den, ← cdiv y.num y.den, ← cmod y.num y.den⟩
  ltLoop fuel ts rs false

/-- `operator>`, Rational.hpp 335-338. -/
def gt (fuel : Nat) (x y : Q) : Option Bool :=
  if eq x y then some false else (lt fuel x y).map (!·)

end Verif.Rational
