import Verif.Spec.Bvh
/-! Specification of radix trees. -/
namespace Verif.Bvh.Tree

/-- The tree splits the codes of its leaves, which are numbered from `i`, at the highest digit where they differ; leaves with equal
codes are split off one after the other. -/
def RadixTree (code : Nat → Nat) : Tree → Nat → Prop
  | leaf _, _ => True
  | node l r, i =>
    ((∃ c k, (∀ a, i ≤ a → a < i + l.prims.length → code a / 2 ^ k = 2 * c) ∧
        (∀ a, i + l.prims.length ≤ a → a < i + l.prims.length + r.prims.length → code a / 2 ^ k = 2 * c + 1)) ∨
      (l.prims.length = 1 ∧ ∀ a, i ≤ a → a < i + l.prims.length + r.prims.length → code a = code i)) ∧
    RadixTree code l i ∧ RadixTree code r (i + l.prims.length)

end Verif.Bvh.Tree
