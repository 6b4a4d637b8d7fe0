import Verif.Model.Bvh
/-! Specification for the spatial hash (C52): cells and overlap. -/
namespace Verif.SpatialHash
open Verif.Bvh (Box)

/-- The cell with coordinates `k` belongs to the box: it lies between the box's corners rounded down and up.  A box
whose rounded extent in a dimension other than the first is empty counts as one cell thick. -/
def Covers {m : Nat} {T : Type} (scale : T → Rat) (b : Box (m + 1) T) (k : Fin (m + 1) → Int) : Prop :=
  ∀ d, (scale (b.lo d)).floor ≤ k d ∧ (k d < (scale (b.hi d)).ceil ∨ d ≠ 0 ∧ k d = (scale (b.lo d)).floor)

/-- The box is not turned inside out. -/
def Valid {dim : Nat} {T : Type} [LE T] (b : Box dim T) : Prop := ∀ d, b.lo d ≤ b.hi d

/-- The boxes have a common point. -/
def Meet {dim : Nat} {T : Type} [LE T] (a b : Box dim T) : Prop :=
  ∃ x : Fin dim → T, ∀ d, (a.lo d ≤ x d ∧ x d ≤ a.hi d) ∧ b.lo d ≤ x d ∧ x d ≤ b.hi d

end Verif.SpatialHash
