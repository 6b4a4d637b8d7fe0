import Verif.Model.Lbvs
import Verif.Spec.Volumes

/-! What a sort of pairs and a list of boxes promise. -/
namespace Verif.Lbvs
open Verif.Shapes

/-- The pairs are permuted, and the keys ascend. -/
def Sorts (sorter : List (ℝ × ℕ) → List (ℝ × ℕ)) : Prop := ∀ l, (sorter l).Perm l ∧ (sorter l).Pairwise fun a b => a.1 ≤ b.1

variable {n : ℕ}

/-- The structure holds these boxes: every box once, in the order of the lower ends along the axis. -/
structure Holds (l : LBvs n) (prims : List (Cuboid (n + 1))) : Prop where
  perm : l.auxIndices.Perm (List.range prims.length)
  boxes : l.bvs.map some = l.auxIndices.map fun i => prims[i]?
  keys : l.sts = l.bvs.map fun b => b.min l.axis
  sorted : l.bvs.Pairwise fun a b => a.min l.axis ≤ b.min l.axis

/-- Boxes that are not empty. -/
def Valid (b : Cuboid n) : Prop := ∀ i, b.min i ≤ b.max i

/-- Two boxes have a common point. -/
def Touch (a b : Cuboid n) : Prop := ∃ x : V n, (∀ i, a.min i ≤ x i ∧ x i ≤ a.max i) ∧ ∀ i, b.min i ≤ x i ∧ x i ≤ b.max i

/-- The extent of all boxes along an axis, between any two of their points. -/
def Extent (prims : List (Cuboid (n + 1))) (d : Fin (n + 1)) (e : ℝ) : Prop :=
  (∀ a ∈ prims, ∀ b ∈ prims, b.max d - a.min d ≤ e) ∧ ∃ a ∈ prims, ∃ b ∈ prims, b.max d - a.min d = e

end Verif.Lbvs
