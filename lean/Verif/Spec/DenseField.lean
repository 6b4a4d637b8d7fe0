import Mathlib.Data.List.Range
import Mathlib.Algebra.BigOperators.Group.List.Basic

/-!
Arrays with several indices, last index fastest.
-/
namespace Verif.DenseField

/-- All tuples of indices for a shape in dictionary order. -/
def tuples : List Nat → List (List Nat)
  | [] => [[]]
  | n :: ns => (List.range n).flatMap fun i => (tuples ns).map (i :: ·)

/-- The tuple of indices is within the shape; fewer indices than the shape has are allowed. -/
def Within : List Nat → List Nat → Prop
  | _, [] => True
  | [], _ :: _ => False
  | n :: ns, i :: is => i < n ∧ Within ns is

/-- How many elements come before those whose tuples begin with the given indices. -/
def place : List Nat → List Nat → Nat
  | n :: ns, i :: is => i * ns.prod + place ns is
  | _, _ => 0

end Verif.DenseField
