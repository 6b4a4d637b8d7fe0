import Verif.Model.Sparse
/-! What a compressed sparse matrix stands for. -/
namespace Verif.Sparse

variable {V : Type}

/-- `m`, stored by rows (`rm`) or columns, is well formed and stores exactly the partial matrix `A`: the entry at
row `i` and column `j` is stored once, with value `A i j`, if `A i j` is defined, and not at all otherwise. -/
structure Csr (m : Mat V) (rm : Bool) (A : Nat → Nat → Option V) : Prop where
  len : m.ptrs.length = m.outer rm + 1
  mono : ∀ o, o < m.outer rm → m.ptrs.getD o 0 ≤ m.ptrs.getD (o + 1) 0
  last : ∀ o, o ≤ m.outer rm → m.ptrs.getD o 0 ≤ m.inds.length
  vals : m.vals.length = m.inds.length
  bound : ∀ o, o < m.outer rm → ∀ p, m.ptrs.getD o 0 ≤ p → p < m.ptrs.getD (o + 1) 0 → m.inds.getD p 0 < m.inner rm
  distinct : ∀ o, o < m.outer rm → ∀ p q, m.ptrs.getD o 0 ≤ p → p < m.ptrs.getD (o + 1) 0 →
    m.ptrs.getD o 0 ≤ q → q < m.ptrs.getD (o + 1) 0 → m.inds.getD p 0 = m.inds.getD q 0 → p = q
  entry : ∀ o, o < m.outer rm → ∀ t, t < m.inner rm → ∀ a, (if rm then A o t else A t o) = some a ↔
    ∃ p, m.ptrs.getD o 0 ≤ p ∧ p < m.ptrs.getD (o + 1) 0 ∧ m.inds.getD p 0 = t ∧ m.vals[p]? = some a

end Verif.Sparse
