import Mathlib.Algebra.BigOperators.Group.Finset.Basic
import Verif.Model.MaxFlow

/-!
Flows in networks (net flow formulation).
-/
namespace Verif.MaxFlow

/-- The capacity from `u` to `v`: the sum of the stored entries. -/
def cap (g : Net) (vals : Nat → Int) (u v : Nat) : Int := (((g.row u).filter fun i => g.ind i == v).map vals).sum

/-- What leaves `u`. -/
def outflow (n : Nat) (f : Nat → Nat → Int) (u : Nat) : Int := ∑ v ∈ Finset.range n, f u v

/-- `f` is a flow from `s` to `t` within the capacities `c`. -/
structure Flow (n : Nat) (c : Nat → Nat → Int) (s t : Nat) (f : Nat → Nat → Int) : Prop where
  skew : ∀ u < n, ∀ v < n, f v u = - f u v
  le : ∀ u < n, ∀ v < n, f u v ≤ c u v
  keep : ∀ u < n, u ≠ s → u ≠ t → outflow n f u = 0

end Verif.MaxFlow
