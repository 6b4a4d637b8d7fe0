import Verif.Model.Sample
import Verif.Spec.Kernel
import Verif.Spec.SparseGrid
import Mathlib.Algebra.BigOperators.Finprod

/-!
What sampling a grid is to give: the value at a position of the function that interpolates the values of the integer points, and conditions on it.
-/
namespace Verif.Sample

open Verif.Grid Verif.Kernel

variable {K : Type} [Field K] [LinearOrder K]

/-- `Σ_n φ(x₀ - n₀) φ(x₁ - n₁) … v(n)`, over all integer points `n`. -/
noncomputable def interp (φ : K → K) : List K → (List Int → K) → K
  | [], v => v []
  | x :: X, v => ∑ᶠ n : Int, φ (x - n) * interp φ X fun c => v (n :: c)

/-- The same with the derivative `φ'` along axis `i`. -/
noncomputable def interpSlope (φ φ' : K → K) : Nat → List K → (List Int → K) → K
  | _, [], _ => 0
  | 0, x :: X, v => ∑ᶠ n : Int, φ' (x - n) * interp φ X fun c => v (n :: c)
  | i + 1, x :: X, v => ∑ᶠ n : Int, φ (x - n) * interpSlope φ φ' i X fun c => v (n :: c)

/-- The integer point `corner + o`. -/
def at' (corner : List Int) (o : List Nat) : List Int := List.zipWith (fun (b : Int) (k : Nat) => b + (k : Int)) corner o

/-- The degree of the B-spline that belongs to a kernel. -/
def Kind.spline : Kind → Option Nat
  | linear | delta2 => some 1
  | quadratic => some 2
  | cubic => some 3
  | delta3 | delta4 => none

/-- The kernels with derivatives. -/
def Kind.smooth : Kind → Bool
  | linear | quadratic | cubic => true
  | delta2 | delta3 | delta4 => false

/-- The function `a₀ + Σ aᵢ yᵢ`. -/
def affine (a₀ : K) (a y : List K) : K := a₀ + (List.zipWith (· * ·) a y).sum

variable [FloorRing K]

/-- The integer points around `x` that a kernel uses in one direction. -/
def Near1 (kt : Kind) (x : K) (n : Int) : Prop := ⌊x - 1 / 2 * (kt.degree : K)⌋ ≤ n ∧ n < ⌊x - 1 / 2 * (kt.degree : K)⌋ + kt.width

/-- The integer points around `X` that a kernel uses. -/
def Near (kt : Kind) (X : List K) (c : List Int) : Prop := List.Forall₂ (Near1 kt) X c

/-- All these points have coordinates of 32 bits. -/
def InRange (kt : Kind) (X : List K) : Prop := ∀ x ∈ X, ∀ n, Near1 kt x n → -2 ^ 31 ≤ n ∧ n < 2 ^ 31

/-- The grid has the value `F` at each of its points: the stored value or the background. -/
def Represents (g : SparseGrid.SGrid K) (chn : Nat) (F : List Int → K) : Prop :=
  ∀ c : Coord, c.length = g.dim → ∃ b, SparseGrid.Look g chn c b (F (c.map BitVec.toInt))

/-- The position of the faces along axis `f`, of the cells around integer points: half a cell before the point. -/
def facePos (f : Nat) (X : List K) : List K := X.modify f (· - 1 / 2)

end Verif.Sample
