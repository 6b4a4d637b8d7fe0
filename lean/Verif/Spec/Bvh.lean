import Verif.Model.Bvh
/-! Specification of bounding volume hierarchies: binary trees and how they are laid out. -/
namespace Verif.Bvh

/-- A binary tree with primitives at its leaves. -/
inductive Tree where
  | leaf (p : Nat)
  | node (l r : Tree)
deriving DecidableEq, Repr

namespace Tree

def size : Tree → Nat
  | leaf _ => 1
  | node l r => l.size + r.size + 1

/-- The primitives from left to right. -/
def prims : Tree → List Nat
  | leaf p => [p]
  | node l r => l.prims ++ r.prims

/-- Number of nodes on the path of left children that starts here, without the leaf at its end. -/
def spine : Tree → Nat
  | leaf _ => 0
  | node l _ => l.spine + 1

/-- The subtree whose root is the `v`-th node if a node comes before its left subtree and that before its right subtree. -/
def sub : Tree → Nat → Option Tree
  | t, 0 => some t
  | leaf _, _ + 1 => none
  | node l r, v + 1 => if v < l.size then l.sub v else r.sub (v - l.size)

/-- The positions of the leaves in that order. -/
def leafPos : Tree → Nat → List Nat
  | leaf _, v => [v]
  | node l r, v => l.leafPos (v + 1) ++ r.leafPos (v + 1 + l.size)

/-- The box of a tree over boxes of primitives. -/
def box {B : Type} (prim : Nat → B) (merge : B → B → B) : Tree → B
  | leaf p => prim p
  | node l r => merge (l.box prim merge) (r.box prim merge)

end Tree

variable {B : Type}

/-- The arrays describe the tree. -/
structure Layout (t : Bvh B) (tr : Tree) : Prop where
  size : t.numNodes = tr.size
  big : 2 < tr.size
  leafInds : t.leafInds = tr.leafPos 0
  levels : ∀ v u, tr.sub v = some u → t.levels[v]? = some u.spine
  prim : ∀ v p, tr.sub v = some (.leaf p) → t.aux[v]? = some (p : Int)
  escape : ∀ v l r, tr.sub v = some (.node l r) →
    t.aux[v]? = some (if v + (Tree.node l r).size = tr.size then -1 else ((v + (Tree.node l r).size : Nat) : Int))
  root : t.parents[0]? = some (-1)
  parentL : ∀ v l r, tr.sub v = some (.node l r) → t.parents[v + 1]? = some (v : Int)
  parentR : ∀ v l r, tr.sub v = some (.node l r) → t.parents[v + 1 + l.size]? = some (v : Int)

/-- What calls with the elements of a list do if a call returning `true` is the last one. -/
def calls {S A : Type} (f : S → A → S × Bool) : S → List A → S
  | s, [] => s
  | s, a :: l => if (f s a).2 then (f s a).1 else calls f (f s a).1 l

/-- Boxes have a point in common. -/
def Meet {dim : Nat} {T : Type} [LE T] (a b : Box dim T) : Prop := ∃ x : Fin dim → T, ∀ d, a.lo d ≤ x d ∧ x d ≤ a.hi d ∧ b.lo d ≤ x d ∧ x d ≤ b.hi d

/-- `a` contains `b`. -/
def Contains {dim : Nat} {T : Type} [LE T] (a b : Box dim T) : Prop := ∀ d, a.lo d ≤ b.lo d ∧ b.hi d ≤ a.hi d

/-- The boxes of the leaves are those of the primitives, and the box of every other node contains those of its children. -/
structure Boxed {dim : Nat} {T : Type} [LE T] (t : Bvh (Box dim T)) (tr : Tree) (prim : Nat → Box dim T) : Prop where
  leaf : ∀ v p, tr.sub v = some (.leaf p) → t.bvs[v]? = some (prim p)
  node : ∀ v l r, tr.sub v = some (.node l r) → ∃ b bl br, t.bvs[v]? = some b ∧ t.bvs[v + 1]? = some bl ∧
    t.bvs[v + 1 + l.size]? = some br ∧ Contains b bl ∧ Contains b br

/-- The hierarchy is ready for queries about the `n` boxes `prim 0, .., prim (n-1)`. -/
inductive Ready {dim : Nat} {T : Type} [LE T] (t : Bvh (Box dim T)) (n : Nat) (prim : Nat → Box dim T) : Prop
  | few : t.leafInds.length = n → n ≤ 2 → t.bvs = (List.range n).map prim → Ready t n prim
  | tree (tr : Tree) : Layout t tr → Boxed t tr prim → tr.prims.Perm (List.range n) → Ready t n prim

end Verif.Bvh
