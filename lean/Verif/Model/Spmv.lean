import Verif.Model.Sparse
import Verif.Model.Phase
/-!
Model of the sparse matrix-vector products, `include/zensim/math/matrix/SparseMatrixOperations.hpp` (line numbers
refer to this file unless another one is named), and of the semirings they use, `include/zensim/ZpcFunctional.hpp`.

A kernel launch `policy(range(n), ..)` is an arbitrary interleaving of `n` tasks, which covers every distribution of
the iterations over threads.  An atomic operation is one step.  Simplification: a task evaluates what it reads from the
matrix and from the input vector, which no task writes, before its first atomic operation.  Numbers are exact: the
theorems hold for any operations with the algebraic laws stated there, floating-point rounding is not modelled.
-/
namespace Verif.Spmv
open Verif.Sparse Verif.Phase

/-- The operations of a product: entries `V`, inputs `X`, partial sums `W`, output components `T`.
`comps` is the number of components of an output (`TOut::extent`, 1 for numbers), `cast w d` is component `d` of `w`
converted to the output type, `atomic` is the effect of the atomic operation on the output. -/
structure Ops (V X W T : Type) where
  comps : Nat
  ident : W
  add : W → W → W
  mul : V → X → W
  cast : W → Nat → T
  atomic : T → T → T

variable {V X W T : Type}

/-- An atomic operation on component `idx` of the output (row times number of components plus component). -/
structure Op (T : Type) where
  idx : Nat
  val : T

/-- The atomic operations that add `w` to row `row`, lines 24-26, 30, 67-71, 150-157, 200-207. -/
def Ops.emit (s : Ops V X W T) (row : Nat) (w : W) : List (Op T) :=
  (List.range s.comps).map fun d => ⟨row * s.comps + d, s.cast w d⟩

/-- `mask[row]`, lines 244, 304; `none` for the kernels without mask. -/
def masked (mask : Option (List Bool)) (row : Nat) : Option Bool :=
  match mask with
  | none => some false
  | some l => l[row]?

/-- The kernels for row-major matrices: `_spmv_classic_row_major` 8-33, `_spmv_row_major` 138-161,
`_spmv_mask_row_major` 240-266. `none` is a read out of bounds. -/
def rowTask (s : Ops V X W T) (m : Mat V) (x : List X) (mask : Option (List Bool)) (row : Nat) : Option (List (Op T)) :=
  (masked mask row).bind fun skip =>
    if skip then some []
    else
      m.ptrs[row]?.bind fun bg => m.ptrs[row + 1]?.bind fun ed =>
        ((List.range' bg (ed - bg)).foldlM (fun sum i =>
          m.vals[i]?.bind fun a => m.inds[i]?.bind fun c => x[c]?.map fun v => s.add sum (s.mul a v)) s.ident).map
          (s.emit row)

/-- The kernels for column-major matrices: `_spmv_classic_col_major` 56-74, `_spmv_col_major` 187-212,
`_spmv_mask_col_major` 294-321. -/
def colTask (s : Ops V X W T) (m : Mat V) (x : List X) (mask : Option (List Bool)) (col : Nat) : Option (List (Op T)) :=
  m.ptrs[col]?.bind fun bg => m.ptrs[col + 1]?.bind fun ed => x[col]?.bind fun v =>
    ((List.range' bg (ed - bg)).mapM fun i =>
      m.vals[i]?.bind fun a => m.inds[i]?.bind fun row =>
        (masked mask row).map fun skip => if skip then [] else s.emit row (s.mul a v)).map List.flatten

/-- One atomic operation; `none` is an output row out of bounds. -/
def apply (s : Ops V X W T) (out : List T) (o : Op T) : Option (List T) :=
  out[o.idx]?.map fun t => out.set o.idx (s.atomic t o.val)

/-- How a call ends: an exception, an access out of bounds, or an output vector. -/
inductive Res (T : Type)
  | throws
  | bad
  | ok (out : List T)

/-- Launch of `n` tasks. -/
inductive Launch (s : Ops V X W T) (n : Nat) (task : Nat → Option (List (Op T))) (out : List T) : Res T → Prop
  | task : (List.range n).mapM task = none → Launch s n task out .bad
  | write (ts : List (List (Op T))) (sched : List (Op T)) : (List.range n).mapM task = some ts →
      Interleave n (fun t => ts.getD t []) sched → sched.foldlM (apply s) out = none → Launch s n task out .bad
  | ok (ts : List (List (Op T))) (sched : List (Op T)) (out' : List T) : (List.range n).mapM task = some ts →
      Interleave n (fun t => ts.getD t []) sched → sched.foldlM (apply s) out = some out' → Launch s n task out (.ok out')

/-- `range_size(inV) != ncols || range_size(outV) != nrows`, lines 42, 83, 172, 223, 278, 333. -/
def sizes (s : Ops V X W T) (m : Mat V) (x : List X) (out : List T) : Prop :=
  x.length = m.cols ∧ out.length = m.rows * s.comps

/-- `spmv_classic`, row-major 34-53, column-major 75-94. The output is not cleared. -/
def Classic (s : Ops V X W T) (m : Mat V) (rm : Bool) (x : List X) (out : List T) (r : Res T) : Prop :=
  (sizes s m x out ∧
    Launch s (if rm then m.rows else m.cols) ((if rm then rowTask else colTask) s m x none) out r) ∨
  ¬ sizes s m x out ∧ r = .throws

/-- `_spmv_set_output_identity`, lines 130-136: every row once, so the result does not depend on the order. -/
def clear (s : Ops V X W T) (m : Mat V) : List T := (List.replicate m.rows ((List.range s.comps).map (s.cast s.ident))).flatten

/-- `spmv`, row-major 162-184, column-major 213-235: both launch `range(nrows)`. -/
def Spmv (s : Ops V X W T) (m : Mat V) (rm : Bool) (x : List X) (out : List T) (r : Res T) : Prop :=
  (sizes s m x out ∧
    Launch s m.rows ((if rm then rowTask else colTask) s m x none) (clear s m) r) ∨
  ¬ sizes s m x out ∧ r = .throws

/-- `spmv_mask`, row-major 267-291, column-major 322-346. -/
def SpmvMask (s : Ops V X W T) (m : Mat V) (rm : Bool) (x : List X) (mask : List Bool) (out : List T) (r : Res T) :
    Prop :=
  (sizes s m x out ∧
    Launch s (if rm then m.rows else m.cols) ((if rm then rowTask else colTask) s m x (some mask)) (clear s m) r) ∨
  ¬ sizes s m x out ∧ r = .throws

/-! ### Semirings -/

/-- Sums and products of exact numbers with the sum kept in the output type, as in `spmv_classic` (lines 27-30,
64-71). -/
def Ops.classic [Add T] [Mul T] [OfNat T 0] : Ops T T T T where
  comps := 1
  ident := 0
  add a b := a + b
  mul a b := a * b
  cast w _ := w
  atomic a b := a + b

/-- The same for 3 × 3 blocks of a matrix with vectors of 3 components. -/
def Ops.block : Ops (Fin 3 → Fin 3 → Int) (Fin 3 → Int) (Fin 3 → Int) Int where
  comps := 3
  ident := fun _ => 0
  add a b := fun d => a d + b d
  mul a x := fun d => a d 0 * x 0 + a d 1 * x 1 + a d 2 * x 2
  cast w d := if h : d < 3 then w ⟨d, h⟩ else 0
  atomic a b := a + b

/-- Conversion of a number to `int`: towards zero. -/
def trunc (q : Rat) : Int := q.num.tdiv q.den

/-- The semiring `plus_times` for floating-point outputs, ZpcFunctional.hpp 365-368: `identity()` of the monoid
`plus` is declared `auto` and returns `0` (ZpcFunctional.hpp 168), so that `value_type` of the semiring is `int`
(ZpcFunctional.hpp 320), which is the result type of `add` and `multiply` (ZpcFunctional.hpp 327-335). -/
def Ops.plusTimes : Ops Rat Rat Int Rat where
  comps := 1
  ident := 0
  add a b := a + b
  mul a x := trunc (a * x)
  cast w _ := w
  atomic a b := a + b

/-- The semiring `plus_times` for outputs of type `int` (without overflow). -/
def Ops.plusTimesInt : Ops Int Int Int Int where
  comps := 1
  ident := 0
  add a b := a + b
  mul a x := a * x
  cast w _ := w
  atomic a b := a + b

/-- The semiring `boolean`, ZpcFunctional.hpp 370-373. -/
def Ops.boolean : Ops Bool Bool Bool Bool where
  comps := 1
  ident := false
  add a b := a || b
  mul a x := a && x
  cast w _ := w
  atomic a b := a || b

/-- The semiring `min_plus` for unsigned 32-bit numbers, ZpcFunctional.hpp 375-391: `multiplier_for` gives the
identity if one of the factors is the identity. -/
def Ops.minPlus : Ops (BitVec 32) (BitVec 32) (BitVec 32) (BitVec 32) where
  comps := 1
  ident := BitVec.allOnes 32
  add a b := if a < b then a else b
  mul a x := if a = BitVec.allOnes 32 ∨ x = BitVec.allOnes 32 then BitVec.allOnes 32 else a + x
  cast w _ := w
  atomic a b := if a < b then a else b

end Verif.Spmv
