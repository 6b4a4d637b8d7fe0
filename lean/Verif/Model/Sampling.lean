import Verif.Model.Rotation

/-!
Model of sampling: `include/zensim/math/probability/Probability.cpp` ("P") and `include/zensim/math/RandomNumber.hpp` ("R").

Numbers are real.  `rand() / RAND_MAX` is an argument between 0 and 1; the numbers that `std::uniform_real_distribution(0, 1)` takes from the
generator are a stream `src` with a position, and those of `(a, b)` are stretched to the interval.  A loop gets a bound for its rounds and is `none` if
it has not stopped within it.  The generator itself (`std::mt19937`) and the distributions of the standard library are not modelled.
-/
namespace Verif.Sampling

/-! ## Probability.cpp -/

/-- `PDF(int lambda, int k)`, P lines 10-14. -/
noncomputable def poissonPdf (lam : ℤ) (k : ℕ) : ℝ :=
  (List.range k).foldl (fun (pdf : ℝ) (i : ℕ) => pdf * ((lam : ℝ) / ((i : ℝ) + 1))) 1 * Real.exp (-1 * lam)

/-- `PDF(double u, double o, int x)`, P lines 16-20. -/
noncomputable def normalPdf (u o : ℝ) (x : ℕ) : ℝ :=
  1 / Real.sqrt (2 * Real.pi) / o * Real.exp (-(x - u) * (x - u) / 2 / o / o)

/-- `anti_normal_PDF`, P lines 21-25. -/
noncomputable def antiNormalPdf (u o : ℝ) (x : ℕ) : ℝ :=
  1 - 1 / Real.sqrt (2 * Real.pi) / o * Real.exp (-(x - u) * (x - u) / 2 / o / o)

open Classical in
/-- `while (val >= cdf) { x++; cdf += pdf(x); } return x;`, P lines 31-35, 41-45 and 51-55. -/
noncomputable def search (pdf : ℕ → ℝ) (val : ℝ) : ℕ → ℕ → ℝ → Option ℕ
  | 0, _, _ => none
  | n + 1, x, cdf => if val ≥ cdf then search pdf val n (x + 1) (cdf + pdf (x + 1)) else some x

/-- The conversion of a `double` to an `int`. -/
noncomputable def toInt (x : ℝ) : ℤ := if 0 ≤ x then ⌊x⌋ else ⌈x⌉

/-- `rand_p`, P lines 27-36: `PDF(lambda, x)` is the function of line 10, and converts `lambda` to an `int`. -/
noncomputable def randP (lam u : ℝ) (fuel : ℕ) : Option ℕ := search (poissonPdf (toInt lam)) u fuel 0 (Real.exp (-1 * lam))

/-- `rand_normal`, P lines 37-46. -/
noncomputable def randNormal (u o val : ℝ) (fuel : ℕ) : Option ℕ := search (normalPdf u o) val fuel 0 0

/-- `rand_anti_normal`, P lines 47-56. -/
noncomputable def randAntiNormal (u o val : ℝ) (fuel : ℕ) : Option ℕ := search (antiNormalPdf u o) val fuel 0 0

/-! ## RandomNumber.hpp -/

/-- `randReal(a, b)`, R lines 44-47, of the number `u` from the generator. -/
def randReal (a b u : ℝ) : ℝ := u * (b - a) + a

/-- One round of the loop of `randInBox`, R line 64. -/
def boxStep (src : ℕ → ℝ) (lo hi : ℕ → ℝ) (s : List ℝ × ℕ) (i : ℕ) : List ℝ × ℕ := (s.1 ++ [randReal (lo i) (hi i) (src s.2)], s.2 + 1)

/-- `randInBox`, R lines 61-66: the vector and the position in the stream. -/
def randInBox (dim : ℕ) (src : ℕ → ℝ) (lo hi : ℕ → ℝ) (pos : ℕ) : List ℝ × ℕ := (List.range dim).foldl (boxStep src lo hi) ([], pos)

open Classical in
/-- `do { ... } while (again);` -/
noncomputable def doWhile {β : Type} (round : ℕ → β × ℕ) (again : β → Prop) : ℕ → ℕ → Option (β × ℕ)
  | 0, _ => none
  | n + 1, pos => if again (round pos).1 then doWhile round again n (round pos).2 else some (round pos)

/-- One round of the loop of `randomBarycentricWeights`, R line 76: the weights, the sum and the position. -/
def weightStep (src : ℕ → ℝ) (s : (List ℝ × ℝ) × ℕ) (_ : ℕ) : (List ℝ × ℝ) × ℕ := ((s.1.1 ++ [src s.2], s.1.2 + src s.2), s.2 + 1)

/-- `randomBarycentricWeights`, R lines 71-80. -/
noncomputable def weights (dim : ℕ) (src : ℕ → ℝ) (fuel pos : ℕ) : Option (List ℝ × ℕ) :=
  (doWhile (fun p => (List.range (dim - 1)).foldl (weightStep src) (([], 0), p)) (fun s => s.2 > 1) fuel pos).map
    fun r => (r.1.1 ++ [1 - r.1.2], r.2)

/-- `(r - center).l2NormSqr()`, R line 89. -/
def distSqr (center : ℕ → ℝ) (r : List ℝ) : ℝ := ((List.range r.length).map fun i => (r.getD i 0 - center i) * (r.getD i 0 - center i)).sum

/-- `randInBall`, R lines 85-91. -/
noncomputable def randInBall (dim : ℕ) (src : ℕ → ℝ) (center : ℕ → ℝ) (radius : ℝ) (fuel pos : ℕ) : Option (List ℝ × ℕ) :=
  doWhile (randInBox dim src (fun i => center i - radius) fun i => center i + radius) (fun r => distSqr center r > radius * radius) fuel pos

/-- `randRotation` in two dimensions, R lines 96-101. -/
noncomputable def randRotation2 (u : ℝ) : Rotation.M 2 :=
  let theta := randReal 0 (2 * Real.pi) u
  !![Real.cos theta, -Real.sin theta; Real.sin theta, Real.cos theta]

/-- `randRotation` in three dimensions, R lines 106-111, for the four numbers from the normal distribution. -/
noncomputable def randRotation3 (q : Rotation.V 4) : Rotation.M 3 := Rotation.ofQuat (Rotation.unit4 q)

end Verif.Sampling
