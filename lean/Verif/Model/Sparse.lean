/-!
Model of the compressed sparse matrix and of the access to its entries, `include/zensim/math/matrix/SparseMatrix.hpp`
(all line numbers refer to this file unless another one is named): the data members 385-388, `operator()`
818-834, the linear `locate` 880-902, the binary `locate` 904-936, `exist` 937-963.  The searches of
`SpmatViewLite`, `include/zensim/py_interop/SpmatView.hpp` lines 52-129, are the same text.

Simplifications: `index_type` is `int` and `size_type` is `unsigned` (the defaults); row and column numbers
are natural numbers (no negative subscripts).  The offsets in `_ptrs` are natural numbers below `2 ^ 32`; the
binary searches compute with 32-bit words.  Reading an array out of bounds is a separate outcome.
-/
namespace Verif.Sparse

/-- The data members, lines 385-388.  The storage order is a template parameter (line 16) and is passed
separately: `rm` is `RowMajor`. -/
structure Mat (V : Type) where
  rows : Nat
  cols : Nat
  ptrs : List Nat
  inds : List Nat
  vals : List V

variable {V : Type}

/-- `outerSize`, lines 85-90. -/
def Mat.outer (m : Mat V) (rm : Bool) : Nat := if rm then m.rows else m.cols

/-- `innerSize`, lines 91-96. -/
def Mat.inner (m : Mat V) (rm : Bool) : Nat := if rm then m.cols else m.rows

/-- The loop of lines 830-832 from `offset` on; `n` is `ed - offset` (the loop runs until they are equal).
The outer `none` is a read out of bounds; the inner `none` is the end of the loop. -/
def scan (m : Mat V) (target : Nat) : Nat → Nat → Option (Option V)
  | 0, _ => some none
  | n + 1, o => m.inds[o]?.bind fun c => if c = target then m.vals[o]?.map some else scan m target n (o + 1)

/-- `operator()(i, j)`, lines 818-834; `dflt` is `value_type{}`.  `none` is an access out of bounds, which also
stands for a line that ends before it starts. -/
def Mat.get (m : Mat V) (rm : Bool) (dflt : V) (i j : Nat) : Option V :=
  let line := if rm then i else j
  let target := if rm then j else i
  m.ptrs[line]?.bind fun st => m.ptrs[line + 1]?.bind fun ed =>
    if st ≤ ed then (scan m target (ed - st) st).map (·.getD dflt) else none

/-- The loop of lines 889-895. -/
def locateLoop (inds : List Nat) (target : Nat) : Nat → Nat → Option (Option Nat)
  | 0, _ => some none
  | n + 1, o => inds[o]?.bind fun c => if target = c then some (some o) else locateLoop inds target n (o + 1)

/-- `locate(i, j)`, lines 880-902; the inner `none` is the largest `size_type`. -/
def Mat.locate (m : Mat V) (rm : Bool) (i j : Nat) : Option (Option Nat) :=
  let line := if rm then i else j
  let target := if rm then j else i
  m.ptrs[line]?.bind fun st => m.ptrs[line + 1]?.bind fun ed =>
    if st ≤ ed then locateLoop m.inds target (ed - st) st else none

/-- How a binary search ends.  `running`: the model stopped before the search did. -/
inductive Found
  | at (p : BitVec 32)
  | absent
  | outOfBounds
  | running
deriving DecidableEq, Repr

/-- The loop of lines 913-928 (the two branches for the storage orders differ in the target only). `read` is
`_inds[·]`; the first number bounds the number of rounds. -/
def search (read : Nat → Option Nat) (target : Nat) : Nat → BitVec 32 → BitVec 32 → Found
  | 0, _, _ => .running
  | n + 1, st, ed =>
    if st ≤ ed then
      let mid := st + (ed - st) / 2
      match read mid.toNat with
      | none => .outOfBounds
      | some c =>
        if target = c then .at mid
        else if target < c then search read target n st (mid - 1)
        else search read target n (mid + 1) ed
    else .absent

/-- `locate(i, j, true_c)`, lines 904-936.  `none`: `_ptrs` is too short. -/
def Mat.locateBinary (m : Mat V) (rm : Bool) (i j : Nat) : Option Found :=
  let line := if rm then i else j
  let target := if rm then j else i
  m.ptrs[line]?.bind fun st => m.ptrs[line + 1]?.map fun ed =>
    search (m.inds[·]?) target 64 (BitVec.ofNat 32 st) (BitVec.ofNat 32 ed - 1)

/-- The loop of lines 946-961, which ends by `break` when the target is found, and the result of line 962.
`none` is a read out of bounds, or that the model stopped. -/
def existLoop (read : Nat → Option Nat) (target : Nat) : Nat → BitVec 32 → BitVec 32 → Option Bool
  | 0, _, _ => none
  | n + 1, st, ed =>
    if st ≤ ed then
      let mid := st + (ed - st) / 2
      (read mid.toNat).bind fun c =>
        if target = c then some (decide (st ≤ ed))
        else if target < c then existLoop read target n st (mid - 1)
        else existLoop read target n (mid + 1) ed
    else some (decide (st ≤ ed))

/-- `exist(i, j, true_c)`, lines 937-963. -/
def Mat.exist (m : Mat V) (rm : Bool) (i j : Nat) : Option Bool :=
  let line := if rm then i else j
  let target := if rm then j else i
  m.ptrs[line]?.bind fun st => m.ptrs[line + 1]?.bind fun ed =>
    existLoop (m.inds[·]?) target 64 (BitVec.ofNat 32 st) (BitVec.ofNat 32 ed - 1)

end Verif.Sparse
