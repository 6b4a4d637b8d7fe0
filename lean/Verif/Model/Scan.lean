import Verif.Model.Phase
/-!
Model of scans and reductions: sequential policy
(`include/zensim/execution/ExecutionPolicy.hpp` 245-274) and OpenMP policy
(`include/zensim/omp/execution/ExecutionPolicy.hpp` 264-475).

`T` is the number of threads of the parallel region, `n` the number of elements.  Every assignment
`l := e` of the region is one atomic action.  Simplification: the private variables `res` and `tmp`
(`tmp = res` is the first statement after the barrier and `res` is not used afterwards) share one
register per thread.  Timers and profiling are omitted.
-/
namespace Verif.Scan
open Verif.Phase

/-- Memory locations: input range, output range, private register of a thread, `localRes`. -/
inductive Loc
  | src (i : Nat)
  | out (i : Nat)
  | reg (t : Nat)
  | loc (t : Nat)
deriving DecidableEq, Repr

abbrev Mem (α : Type) := Loc → α

/-- The statement `l = e`. -/
def assign {α : Type} (l : Loc) (e : Mem α → α) : Mem α → Mem α := fun s => upd s l (e s)

/-- `nwork = (dist + nths - 1) / nths`, omp ExecutionPolicy.hpp 292, 368, 448. -/
def nwork (n T : Nat) : Nat := (n + T - 1) / T

/-- `st = nwork * tid`, omp ExecutionPolicy.hpp 293. -/
def st (n T t : Nat) : Nat := nwork n T * t

/-- `ed = st + nwork; if (ed > dist) ed = dist;`, omp ExecutionPolicy.hpp 294-295. -/
def ed (n T t : Nat) : Nat := if st n T t + nwork n T > n then n else st n T t + nwork n T

/-- The sequence `1, 2, 4, ...` below `T` of `for (stride = 1; stride < nths; stride *= 2)`. -/
def strides (T stride : Nat) : List Nat :=
  if h : 0 < stride ∧ stride < T then stride :: strides T (stride * 2) else []
termination_by T - stride
decreasing_by omega

/-- Where the input is read: separate input range, or in place (`d_first == first`). -/
def rd (inPlace : Bool) (i : Nat) : Loc := if inPlace then .out i else .src i

/-- First phase of `inclusive_scan_impl`, omp ExecutionPolicy.hpp 297-306. -/
def inclLocal {α : Type} (op : α → α → α) (inPlace : Bool) (n T t : Nat) : List (Mem α → Mem α) :=
  if st n T t < ed n T t then
    [assign (.reg t) (fun s => s (rd inPlace (st n T t))),
     assign (.out (st n T t)) (fun s => s (.reg t))] ++
    (List.range (ed n T t - (st n T t + 1))).flatMap (fun k =>
      [assign (.reg t) (fun s => op (s (.reg t)) (s (rd inPlace (st n T t + 1 + k)))),
       assign (.out (st n T t + 1 + k)) (fun s => s (.reg t))]) ++
    [assign (.loc t) (fun s => s (.reg t))]
  else []

/-- First phase of `exclusive_scan_impl`, omp ExecutionPolicy.hpp 373-382. -/
def exclLocal {α : Type} (op : α → α → α) (init : α) (inPlace : Bool) (n T t : Nat) :
    List (Mem α → Mem α) :=
  if st n T t < ed n T t then
    [assign (.out (st n T t)) (fun _ => init),
     assign (.reg t) (fun s => s (rd inPlace (st n T t)))] ++
    (List.range (ed n T t - (st n T t + 1))).flatMap (fun k =>
      [assign (.out (st n T t + 1 + k)) (fun s => s (.reg t)),
       assign (.reg t) (fun s => op (s (.reg t)) (s (rd inPlace (st n T t + 1 + k))))]) ++
    [assign (.loc t) (fun s => s (.reg t))]
  else []

/-- `if (tid >= stride && st < ed) tmp = binary_op(tmp, localRes[tid - stride]);`,
omp ExecutionPolicy.hpp 311, 387. -/
def gather {α : Type} (op : α → α → α) (n T w t : Nat) : List (Mem α → Mem α) :=
  if t ≥ w ∧ st n T t < ed n T t then
    [assign (.reg t) (fun s => op (s (.reg t)) (s (.loc (t - w))))]
  else []

/-- `if (tid >= stride && st < ed) localRes[tid] = tmp;`, omp ExecutionPolicy.hpp 313, 389. -/
def publish {α : Type} (n T w t : Nat) : List (Mem α → Mem α) :=
  if t ≥ w ∧ st n T t < ed n T t then [assign (.loc t) (fun s => s (.reg t))] else []

/-- Last phase of both scans, omp ExecutionPolicy.hpp 317-321, 393-397. -/
def addPrefix {α : Type} (op : α → α → α) (n T t : Nat) : List (Mem α → Mem α) :=
  if t ≠ 0 ∧ st n T t < ed n T t then
    [assign (.reg t) (fun s => s (.loc (t - 1)))] ++
    (List.range (ed n T t - st n T t)).map (fun k =>
      assign (.out (st n T t + k)) (fun s => op (s (.out (st n T t + k))) (s (.reg t))))
  else []

/-- The stride loop of both scans, omp ExecutionPolicy.hpp 310-315, 386-391. -/
def strideLoop {α : Type} (op : α → α → α) (n T : Nat) : List (Nat → List (Mem α → Mem α)) :=
  (strides T 1).flatMap fun w => [gather op n T w, publish n T w]

/-- `inclusive_scan_impl`, omp ExecutionPolicy.hpp 264-326. -/
def inclusiveScan {α : Type} (op : α → α → α) (inPlace : Bool) (n T : Nat) :
    List (Nat → List (Mem α → Mem α)) :=
  inclLocal op inPlace n T :: (strideLoop op n T ++ [addPrefix op n T])

/-- `exclusive_scan_impl`, omp ExecutionPolicy.hpp 340-401. -/
def exclusiveScan {α : Type} (op : α → α → α) (init : α) (inPlace : Bool) (n T : Nat) :
    List (Nat → List (Mem α → Mem α)) :=
  exclLocal op init inPlace n T :: (strideLoop op n T ++ [addPrefix op n T])

/-- First phase of `reduce_impl`, omp ExecutionPolicy.hpp 453-457. -/
def redLocal {α : Type} (op : α → α → α) (init : α) (n T t : Nat) : List (Mem α → Mem α) :=
  assign (.reg t) (fun _ => init) ::
    ((List.range (ed n T t - st n T t)).map (fun k =>
      assign (.reg t) (fun s => op (s (.reg t)) (s (.src (st n T t + k))))) ++
    [assign (.loc t) (fun s => s (.reg t))])

/-- `if (tid + stride < nths) tmp = binary_op(tmp, localRes[tid + stride]);`,
omp ExecutionPolicy.hpp 462. -/
def redGather {α : Type} (op : α → α → α) (T w t : Nat) : List (Mem α → Mem α) :=
  if t + w < T then [assign (.reg t) (fun s => op (s (.reg t)) (s (.loc (t + w))))] else []

/-- `if (tid + stride < nths) localRes[tid] = tmp;`, omp ExecutionPolicy.hpp 464. -/
def redPublish {α : Type} (T w t : Nat) : List (Mem α → Mem α) :=
  if t + w < T then [assign (.loc t) (fun s => s (.reg t))] else []

/-- `if (tid == 0) *d_first = tmp;`, omp ExecutionPolicy.hpp 468. -/
def redStore {α : Type} (t : Nat) : List (Mem α → Mem α) :=
  if t = 0 then [assign (.out 0) (fun s => s (.reg 0))] else []

/-- `reduce_impl`, omp ExecutionPolicy.hpp 420-473. -/
def reducePar {α : Type} (op : α → α → α) (init : α) (n T : Nat) :
    List (Nat → List (Mem α → Mem α)) :=
  redLocal op init n T ::
    ((strides T 1).flatMap (fun w => [redGather op T w, redPublish T w]) ++ [fun t => redStore t])

/-! ### Sequential policy (one thread, register 0 holds `prev` / `init`) -/

/-- `inclusive_scan`, ExecutionPolicy.hpp 245-253. -/
def seqInclusive {α : Type} (op : α → α → α) (inPlace : Bool) (n : Nat) : List (Mem α → Mem α) :=
  if n = 0 then [] else
    [assign (.out 0) (fun s => s (rd inPlace 0)), assign (.reg 0) (fun s => s (.out 0))] ++
    (List.range (n - 1)).flatMap (fun k =>
      [assign (.reg 0) (fun s => op (s (.reg 0)) (s (rd inPlace (k + 1)))),
       assign (.out (k + 1)) (fun s => s (.reg 0))])

/-- `exclusive_scan`, ExecutionPolicy.hpp 254-264; the parameter `init` is register 0. -/
def seqExclusive {α : Type} (op : α → α → α) (init : α) (inPlace : Bool) (n : Nat) :
    List (Mem α → Mem α) :=
  assign (.reg 0) (fun _ => init) ::
  if n = 0 then [] else
    assign (.out 0) (fun s => s (.reg 0)) ::
    (List.range (n - 1)).flatMap (fun k =>
      [assign (.reg 0) (fun s => op (s (.reg 0)) (s (rd inPlace k))),
       assign (.out (k + 1)) (fun s => s (.reg 0))])

/-- `reduce`, ExecutionPolicy.hpp 265-274. -/
def seqReduce {α : Type} (op : α → α → α) (init : α) (n : Nat) : List (Mem α → Mem α) :=
  assign (.reg 0) (fun _ => init) ::
    ((List.range n).map (fun k => assign (.reg 0) (fun s => op (s (.reg 0)) (s (.src k)))) ++
      [assign (.out 0) (fun s => s (.reg 0))])

end Verif.Scan
