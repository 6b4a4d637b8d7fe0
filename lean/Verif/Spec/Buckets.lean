import Verif.Model.Buckets

/-! The cell of a point, by the inequalities that define it. -/
namespace Verif.Buckets

variable {K : Type} [Field K] [LinearOrder K] [FloorRing K] {d : Nat}

/-- The point, moved by the displacement, is in the cell of this width. -/
def InCell (dx disp : K) (x : Fin d → K) (k : Key d) : Prop := ∀ a, (k a : K) ≤ x a / dx + disp ∧ x a / dx + disp < k a + 1

/-- The cell is in the block with this number. -/
def InBlock (blockLen : Int) (c k : Key d) : Prop := ∀ a, k a * blockLen ≤ c a ∧ c a < (k a + 1) * blockLen

/-- Closer than the radius along every axis. -/
def boxRange (r : K) (x y : Fin 3 → K) : Bool := decide (∀ a, |x a - y a| < r)

/-- Closer than the radius. -/
def ballRange (r : K) (x y : Fin 3 → K) : Bool := decide ((x 0 - y 0) ^ 2 + (x 1 - y 1) ^ 2 + (x 2 - y 2) ^ 2 < r * r)

end Verif.Buckets
