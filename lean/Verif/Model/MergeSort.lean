import Verif.Model.Scan
/-!
Model of the comparison sorts: OpenMP policy (`include/zensim/omp/execution/ExecutionPolicy.hpp`
489-508 `quick_sort_impl`, 509-696 `merge_sort_pair_impl`, 719-871 `merge_sort_impl`, 700-718, 873-887
entry points) and sequential policy (`include/zensim/execution/ExecutionPolicy.hpp` 290-309
`quick_sort_impl`, 310-435 `merge_sort_pair_impl`, 436-456 entry points).

An element of type `α` is a key with its value (a key alone for `merge_sort_impl`); `lt` is `compOp`
on the keys.  Simplifications: key and value live in one cell (the code moves them together by
consecutive statements of one thread); one loop iteration is one action; the private variables
`left`, `right` and the loop control of the insertion sort are registers of the thread; `flipped` and
`switched` do not depend on the data and are computed with the program text; reading a cell that
holds no element gives `default`.
-/
namespace Verif.MergeSort
open Verif.Phase
open Verif.Scan (nwork st ed strides)

/-- Memory locations: `arr false` is `keys`/`vals`, `arr true` is `okeys`/`ovals`. -/
inductive Loc
  | arr (o : Bool) (i : Nat)
  | left (t : Nat)
  | right (t : Nat)
  | go (t : Nat)
deriving DecidableEq

inductive Cell (α : Type)
  | num (n : Nat)
  | elt (x : α)

def Cell.nat {α : Type} : Cell α → Nat
  | .num n => n
  | .elt _ => 0

def Cell.val {α : Type} [Inhabited α] : Cell α → α
  | .num _ => default
  | .elt x => x

abbrev Mem (α : Type) := Loc → Cell α

variable {α : Type} [Inhabited α]

/-- Element `i` of array `o`. -/
def at_ (s : Mem α) (o : Bool) (i : Nat) : α := (s (.arr o i)).val

/-- One iteration of the insertion loop: `if (compOp(keys[k], keys[k-1])) swap; else break;`,
omp ExecutionPolicy.hpp 554-560. -/
def insertStep (lt : α → α → Bool) (t k : Nat) (s : Mem α) : Mem α :=
  if (s (.go t)).nat = 1 then
    if lt (at_ s false k) (at_ s false (k - 1)) then
      upd (upd s (.arr false k) (.elt (at_ s false (k - 1)))) (.arr false (k - 1)) (.elt (at_ s false k))
    else upd s (.go t) (.num 0)
  else s

/-- Insertion of element `i` into `[ll, i)`, omp ExecutionPolicy.hpp 554-561. -/
def insertOne (lt : α → α → Bool) (t ll i : Nat) : List (Mem α → Mem α) :=
  (fun s => upd s (.go t) (.num 1)) :: (List.range (i - ll)).map (fun d => insertStep lt t (i - d))

/-- Insertion sort of `[ll, rr)`, omp ExecutionPolicy.hpp 553-562. -/
def insertion (lt : α → α → Bool) (t ll rr : Nat) : List (Mem α → Mem α) :=
  (List.range' (ll + 1) (rr - (ll + 1))).flatMap (insertOne lt t ll)

/-- Number of iterations of `for (ll = l; ll < r; ll += step)`. -/
def segCount (step l r : Nat) : Nat := (r - l + step - 1) / step

/-- `for (ll = l; ll < r;) { rr = min(ll + 16, r); ...; ll = rr; }`,
omp ExecutionPolicy.hpp 550-564. -/
def insertionAll (lt : α → α → Bool) (t l r : Nat) : List (Mem α → Mem α) :=
  (List.range (segCount 16 l r)).flatMap fun q =>
    insertion lt t (l + q * 16) (min (l + q * 16 + 16) r)

/-- One iteration of the three merge loops from array `b` to array `!b`,
omp ExecutionPolicy.hpp 577-594, 603-620, 644-661, 664-681. -/
def mergeStep (lt : α → α → Bool) (t : Nat) (b : Bool) (mid rr k : Nat) (s : Mem α) : Mem α :=
  if (s (.left t)).nat < mid ∧ (s (.right t)).nat < rr then
    if !lt (at_ s b (s (.right t)).nat) (at_ s b (s (.left t)).nat) then
      upd (upd s (.arr (!b) k) (.elt (at_ s b (s (.left t)).nat))) (.left t)
        (.num ((s (.left t)).nat + 1))
    else
      upd (upd s (.arr (!b) k) (.elt (at_ s b (s (.right t)).nat))) (.right t)
        (.num ((s (.right t)).nat + 1))
  else if (s (.left t)).nat < mid then
    upd (upd s (.arr (!b) k) (.elt (at_ s b (s (.left t)).nat))) (.left t)
      (.num ((s (.left t)).nat + 1))
  else if (s (.right t)).nat < rr then
    upd (upd s (.arr (!b) k) (.elt (at_ s b (s (.right t)).nat))) (.right t)
      (.num ((s (.right t)).nat + 1))
  else s

/-- Merge of `[ll, mid)` and `[mid, rr)` of array `b` into array `!b`; the loops run `rr - ll` times
in total, omp ExecutionPolicy.hpp 573-594. -/
def merge (lt : α → α → Bool) (t : Nat) (b : Bool) (ll mid rr : Nat) : List (Mem α → Mem α) :=
  (fun s => upd s (.left t) (.num ll)) :: (fun s => upd s (.right t) (.num mid)) ::
    (List.range' ll (rr - ll)).map (mergeStep lt t b mid rr)

/-- One round of merges inside `[l, r)`, omp ExecutionPolicy.hpp 571-622. -/
def round (lt : α → α → Bool) (t : Nat) (b : Bool) (hs l r : Nat) : List (Mem α → Mem α) :=
  (List.range (segCount (hs * 2) l r)).flatMap fun q =>
    merge lt t b (l + q * (hs * 2)) (min (l + q * (hs * 2) + hs) r)
      (min (l + q * (hs * 2) + hs * 2) r)

/-- The rounds for a list of values of `halfStride`; `b` is `flipped`,
omp ExecutionPolicy.hpp 565-626. -/
def rounds (lt : α → α → Bool) (t l r : Nat) : List Nat → Bool → List (Mem α → Mem α)
  | [], _ => []
  | hs :: rest, b => round lt t b hs l r ++ rounds lt t l r rest (!b)

/-- `flipped` after a number of rounds. -/
def flipAfter (hss : List Nat) (b : Bool) : Bool := hss.foldl (fun b _ => !b) b

/-- `flipped` of thread `t` after its local sort, omp ExecutionPolicy.hpp 544-626. -/
def localFlip (n T t : Nat) : Bool := flipAfter (strides (ed n T t - st n T t) 16) false

/-- The local sort of `[l, r)`, omp ExecutionPolicy.hpp 544-626; sequential 335-420. -/
def localSort (lt : α → α → Bool) (t l r : Nat) : List (Mem α → Mem α) :=
  insertionAll lt t l r ++ rounds lt t l r (strides (r - l) 16) false

/-- Body of the loop over the thread counts for thread `t`; `fl t` is its `flipped`,
omp ExecutionPolicy.hpp 634-684, 824-861. -/
def crossPhase (lt : α → α → Bool) (n T hs : Nat) (fl : Nat → Bool) (t : Nat) :
    List (Mem α → Mem α) :=
  if t % (hs * 2) = 0 then
    merge lt t (fl t) (st n T t) (min (nwork n T * (t + hs)) n) (min (nwork n T * (t + hs * 2)) n)
  else []

/-- `flipped = !flipped` of the threads that took part, omp ExecutionPolicy.hpp 683, 859. -/
def nextFlip (hs : Nat) (fl : Nat → Bool) (t : Nat) : Bool :=
  if t % (hs * 2) = 0 then !(fl t) else fl t

/-- `if (switched) for (k = l; k < r; ++k) keys[k] = okeys[k];`,
omp ExecutionPolicy.hpp 689-694, 865-866. -/
def copyBack (n T : Nat) (switched : Bool) (t : Nat) : List (Mem α → Mem α) :=
  if switched then
    (List.range' (st n T t) (ed n T t - st n T t)).map (fun k s =>
      upd s (.arr false k) (.elt (at_ s true k)))
  else []

/-- The phases after the local sort, omp ExecutionPolicy.hpp 631-695, 821-867. -/
def crossPhases (lt : α → α → Bool) (n T : Nat) :
    List Nat → (Nat → Bool) → List (Nat → List (Mem α → Mem α))
  | [], fl => [copyBack n T (fl 0)]
  | hs :: rest, fl => crossPhase lt n T hs fl :: crossPhases lt n T rest (nextFlip hs fl)

/-- `merge_sort_pair`, `merge_sort` with `T` threads, omp ExecutionPolicy.hpp 509-696, 719-871 with
`Stable`. -/
def mergeSort (lt : α → α → Bool) (n T : Nat) : List (Nat → List (Mem α → Mem α)) :=
  (fun t => localSort lt t (st n T t) (ed n T t)) ::
    crossPhases lt n T (strides T 1) (localFlip n T)

/-- Sequential `merge_sort_pair`, ExecutionPolicy.hpp 310-435 with `Stable`. -/
def seqMergeSort (lt : α → α → Bool) (n : Nat) : List (Mem α → Mem α) :=
  localSort lt 0 0 n ++
    if flipAfter (strides n 16) false then
      (List.range n).map (fun k s => upd s (.arr false k) (.elt (at_ s true k)))
    else []

/-! ### Quick sort -/

/-- `std::swap(keys[i], keys[j]); std::swap(vals[i], vals[j]);` -/
def swap (f : Nat → α) (i j : Nat) : Nat → α := upd (upd f i (f j)) j (f i)

/-- One iteration of the partition loop; the state is the array and `pi`; `r1` is `r + 1`,
ExecutionPolicy.hpp 297-302, omp 496-501. -/
def partStep (less : α → α → Bool) (r1 : Nat) (p : (Nat → α) × Nat) (j : Nat) : (Nat → α) × Nat :=
  if less (p.1 j) (p.1 (r1 - 1)) then (swap p.1 p.2 j, p.2 + 1) else p

/-- The partition loop and the final swap, ExecutionPolicy.hpp 296-305. -/
def partition (less : α → α → Bool) (f : Nat → α) (l r1 : Nat) : (Nat → α) × Nat :=
  let p := (List.range' l (r1 - 1 - l)).foldl (partStep less r1) (f, l)
  (swap p.1 p.2 (r1 - 1), p.2)

omit [Inhabited α] in
theorem partLoop_bound (less : α → α → Bool) (r1 : Nat) (n l : Nat) (p : (Nat → α) × Nat) :
    p.2 ≤ ((List.range' l n).foldl (partStep less r1) p).2 ∧
      ((List.range' l n).foldl (partStep less r1) p).2 ≤ p.2 + n := by
  induction n generalizing l p with
  | zero => simp
  | succ n ih =>
    rw [List.range'_succ, List.foldl_cons]
    have := ih (l + 1) (partStep less r1 p l)
    have h : p.2 ≤ (partStep less r1 p l).2 ∧ (partStep less r1 p l).2 ≤ p.2 + 1 := by
      unfold partStep; split <;> simp
    omega

omit [Inhabited α] in
theorem partition_bound (less : α → α → Bool) (f : Nat → α) (l r1 : Nat) (h : l + 1 < r1) :
    l ≤ (partition less f l r1).2 ∧ (partition less f l r1).2 < r1 := by
  have := partLoop_bound less r1 (r1 - 1 - l) l (f, l)
  simp only [partition]
  omega

/-- `quick_sort_impl(keys, vals, l, r, compOp)`; `r1` is `r + 1`.  The code compares with `<` and never
calls `compOp`: `less` is `operator<` of the key type, ExecutionPolicy.hpp 290-309, omp 489-508. -/
def quickSort (less : α → α → Bool) (f : Nat → α) (l r1 : Nat) : Nat → α :=
  if h : l + 1 < r1 then
    have := partition_bound less f l r1 h
    quickSort less (quickSort less (partition less f l r1).1 l (partition less f l r1).2)
      ((partition less f l r1).2 + 1) r1
  else f
termination_by r1 - l

/-- Sequential `sort_pair`, ExecutionPolicy.hpp 421-423, 439-447. -/
def seqSortPair (less _comp : α → α → Bool) (n : Nat) (f : Nat → α) : Nat → α :=
  quickSort less f 0 n

/-- The unstable local sort of the OpenMP versions: `quick_sort_impl` (`sort_pair`) or `std::sort`
(`sort`) on the thread's own part `[l, r)`, omp ExecutionPolicy.hpp 627-629, 817-819.
Simplification: it is one action. -/
def localUnstable (srt : (Nat → α) → Nat → Nat → Nat → α) (l r : Nat) : List (Mem α → Mem α) :=
  [fun s x => match x with
    | .arr false i => if l ≤ i ∧ i < r then .elt (srt (at_ s false) l r i) else s x
    | _ => s x]

/-- The unstable sorts with `T` threads, omp ExecutionPolicy.hpp 509-696, 719-871 without `Stable`. -/
def unstableSort (srt : (Nat → α) → Nat → Nat → Nat → α) (comp : α → α → Bool) (n T : Nat) :
    List (Nat → List (Mem α → Mem α)) :=
  (fun t => localUnstable srt (st n T t) (ed n T t)) ::
    crossPhases comp n T (strides T 1) (fun _ => false)

/-- `sort_pair` with `T` threads, omp ExecutionPolicy.hpp 700-709. -/
def sortPair (less comp : α → α → Bool) (n T : Nat) : List (Nat → List (Mem α → Mem α)) :=
  unstableSort (quickSort less) comp n T

end Verif.MergeSort
