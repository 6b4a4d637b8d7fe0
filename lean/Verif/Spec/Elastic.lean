import Verif.Model.Elastic
import Verif.Proof.Givens
import Mathlib.Analysis.Calculus.Deriv.Basic

/-! Specification for C78: derivatives of energies and stresses. -/
namespace Verif.Elastic

open Matrix
open Verif.Mat (Store upd)
open Verif.Rot (Mx mx IsRot)

/-- A decomposition of F into rotations and singular values. -/
structure IsSvd (n : Nat) (F : Mx) (d : Svd) : Prop where
  rotU : IsRot (mx n d.U)
  rotV : IsRot (mx n d.V)
  eq : mx n F = mx n d.U * diagonal (fun i : Fin n => d.S i) * (mx n d.V)ᵀ

/-- Component i of `d` is the derivative of `f` in component i. -/
def IsPartials (n : Nat) (f : Store ℝ → ℝ) (S : Store ℝ) (d : Store ℝ) : Prop :=
  ∀ i < n, HasDerivAt (fun y => f (upd S i y)) (d i) (S i)

open Classical in
/-- The coefficient for the plane of i and i + 1: the difference quotient of the first derivatives, or its limit if the two singular values are equal. -/
def IsTwist (m : Iso) (n : Nat) (S : Store ℝ) (i : Nat) : Prop :=
  let j := (i + 1) % n
  m.bij n S i = if S i = S j then (m.d2psi n S i i - m.d2psi n S i j) / 2 else (m.dpsi n S i - m.dpsi n S j) / (2 * (S i - S j))

/-- The sum of the products of the entries. -/
def inner (n : Nat) (A B : Mx) : ℝ := ∑ i : Fin n, ∑ j : Fin n, A i j * B i j

/-- The matrices F + t G. -/
def line (F G : Mx) (t : ℝ) : Mx := fun i j => F i j + t * G i j

/-- The derivative of `f` at F in any direction is the inner product with P. -/
def IsGradient (n : Nat) (f : Mx → ℝ) (F P : Mx) : Prop := ∀ G, HasDerivAt (fun t => f (line F G t)) (inner n P G) 0

/-- The derivative of P at F in any direction is what H gives, where the entries of a matrix are numbered column by column. -/
def IsDerivative (n : Nat) (P : Mx → Mx) (F H : Mx) : Prop :=
  ∀ G, ∀ i < n, ∀ j < n, HasDerivAt (fun t => P (line F G t) i j) (∑ r : Fin n, ∑ s : Fin n, H (j * n + i) (s * n + r) * G r s) 0

end Verif.Elastic
