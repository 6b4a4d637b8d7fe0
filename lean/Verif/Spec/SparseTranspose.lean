import Verif.Spec.Sparse
/-! What a transposed and an ordered sparse matrix is. -/
namespace Verif.Sparse

variable {V : Type}

/-- The subscripts of each line ascend. -/
def Ascending (m : Mat V) (rm : Bool) : Prop :=
  ∀ o, o < m.outer rm → ∀ p q, m.ptrs.getD o 0 ≤ p → p < q → q < m.ptrs.getD (o + 1) 0 → m.inds.getD p 0 < m.inds.getD q 0

/-- The lines make up the whole of the arrays. -/
def Full (m : Mat V) (rm : Bool) : Prop := m.ptrs.getD 0 0 = 0 ∧ m.ptrs.getD (m.outer rm) 0 = m.inds.length

/-- The transposed matrix, with transposed values. -/
def transposed (tr : V → V) (A : Nat → Nat → Option V) (i j : Nat) : Option V := (A j i).map tr

end Verif.Sparse
