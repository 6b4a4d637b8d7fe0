/-!
Model of `BvttFront` and its view, `include/zensim/container/Bvtt.hpp`: pairs of a primitive and a node of a hierarchy.

Indices do not wrap around; an index outside of an array is `none`.  The two vectors are resized together, so that one `size` stands for both; the lists have one entry for every cell of the
allocation.  The loops over the pairs can run in any order: an iteration is one atomic addition and writes to cells that no other iteration touches.
-/
namespace Verif.Bvtt

/-- Lines 64-67.  `offsets` is the size of `_offsets`; nothing reads or writes its elements. -/
structure Front where
  prims : List Nat
  nodes : List Nat
  size : Nat
  offsets : Nat
  cnt : Nat

/-- `numNodes`, line 51. -/
def Front.numNodes (f : Front) : Nat := f.offsets - 1

/-- The constructor, lines 39-45, with what is in the memory. -/
def mk' (numNodes estimated : Nat) (junk : Nat → Nat) : Front := ⟨(List.range estimated).map junk, (List.range estimated).map junk, estimated, numNodes + 1, 0⟩

/-- `_numFrontNodes` of the view, lines 122-123. -/
def Front.cap (f : Front) : Nat := min f.prims.length f.nodes.length

/-- `setCounter`, line 53. -/
def setCounter (f : Front) (n : Nat) : Front := { f with cnt := n }

/-- `Vector::resize` of a larger size, `Vector.hpp` lines 228-256 and 407-413; only `size` cells are copied to a new allocation. -/
def grow (cells : List Nat) (size newSize : Nat) (junk : Nat → Nat) : List Nat :=
  if newSize > cells.length then
    let g := cells.length + cells.length / 2
    (List.range (if newSize > g then newSize else g)).map fun i => if i < size then cells.getD i 0 else junk i
  else cells

/-- `reserve`, lines 55-60. -/
def reserve (f : Front) (newSize : Nat) (junk : Nat → Nat) : Front :=
  if newSize > f.size then { f with prims := grow f.prims f.size newSize junk, nodes := grow f.nodes f.size newSize junk, size := newSize } else f

/-- `push_back`, lines 140-146. -/
def push (f : Front) (p n : Nat) : Front :=
  let no := f.cnt
  let f := { f with cnt := f.cnt + 1 }
  if no < f.cap then { f with prims := f.prims.set no p, nodes := f.nodes.set no n } else f

/-- Calls of `push_back`, in the order of their atomic additions. -/
def pushAll (f : Front) (l : List (Nat × Nat)) : Front := l.foldl (fun f e => push f e.1 e.2) f

/-- `assign`, lines 149-157. -/
def assign (f : Front) (no p n : Nat) : Front := if no < f.cap then { f with prims := f.prims.set no p, nodes := f.nodes.set no n } else f

/-- `assign` of a node, lines 160-167. -/
def assignNode (f : Front) (no n : Nat) : Front := if no < f.cap then { f with nodes := f.nodes.set no n } else f

/-- `prim`, lines 169-172; `none` is the largest number. -/
def Front.prim (f : Front) (i : Nat) : Option Nat := if i < f.cap then f.prims[i]? else none

/-- `node`, lines 173-176. -/
def Front.node (f : Front) (i : Nat) : Option Nat := if i < f.cap then f.nodes[i]? else none

/-- An element of an array of counters. -/
def upd (c : Nat → Nat) (k v : Nat) : Nat → Nat := fun j => if j = k then v else c j

/-- Lines 84-86, in the order of the additions. -/
def countNodes (f : Front) : List Nat → (Nat → Nat) → Option (Nat → Nat)
  | [], c => some c
  | i :: is, c => (f.node i).bind fun k => if k < f.numNodes then countNodes f is (upd c k (c k + 1)) else none

/-- Line 88 (for the scan see C22). -/
def offsets (c : Nat → Nat) (k : Nat) : Nat := ((List.range k).map c).sum

/-- Lines 93-101. -/
def scatter (f : Front) (off : Nat → Nat) : List Nat → (Nat → Nat) → List Nat → List Nat → Option (List Nat × List Nat)
  | [], _, ps, ns => some (ps, ns)
  | i :: is, c, ps, ns =>
    (f.node i).bind fun k => (f.prim i).bind fun p =>
    if k < f.numNodes then
      let loc := off k + c k
      if loc < ps.length ∧ loc < ns.length then scatter f off is (upd c k (c k + 1)) (ps.set loc p) (ns.set loc k) else none
    else none

/-- Copy of a vector, `Vector.hpp` lines 164-181: the same capacity, the first `size` cells. -/
def copyCells (cells : List Nat) (size : Nat) (junk : Nat → Nat) : List Nat := (List.range cells.length).map fun i => if i < size then cells.getD i 0 else junk i

/-- `reorder`, lines 71-105; `o1` and `o2` are the orders of the two loops. -/
def reorder (f : Front) (junk : Nat → Nat) (o1 o2 : List Nat) : Option Front :=
  (countNodes f o1 fun _ => 0).bind fun counts =>
  (scatter f (offsets counts) o2 (fun _ => 0) (copyCells f.prims f.size junk) (copyCells f.nodes f.size junk)).map fun r => { f with prims := r.1, nodes := r.2 }

end Verif.Bvtt
