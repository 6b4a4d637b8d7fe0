/-!
Model of the dyadic numbers, intervals and the work-list root finders of
`include/zensim/math/Rational.hpp` (continuous collision detection, 347-1005).

`u64` and `u8` fields are natural numbers kept below `2^64` / `2^8` by explicit reduction, so
wrap-around is modelled.  A shift `1 << e` with `e ≥ 64` is undefined in C++ and is the outcome `none`.

Simplifications: the floating point tests on a box (`origin_in_function_bounding_box_vector`, `width`
against the tolerances, `find_next_split`) are oracle functions of the box; all of them evaluate
`NumCCD::denominator()` of all six bounds, whose shift is undefined above 63, and this is kept
(`evaluable`).  The comparison of interval bounds with `t_upper_bound` is exact instead of in
`double`.
-/
namespace Verif.NumCCD

/-- `struct NumCCD`, Rational.hpp 362-364: `k / 2^n`. -/
structure Num where
  k : Nat
  n : Nat
deriving DecidableEq, Repr

/-- `pow2`, Rational.hpp 348, and `denominator`, 407. -/
def pow2 (e : Nat) : Option Nat := if e < 64 then some (2 ^ e) else none

/-- Loop of `reduction`, Rational.hpp 353-356: current `result` and `t`. -/
def redLoop (r t : Nat) : Nat × Nat :=
  if r ≠ 0 ∧ r % 2 = 0 then redLoop (r / 2) (t + 1) else (r, t)
termination_by r
decreasing_by omega

/-- `reduction`, Rational.hpp 350-358 (returns `(result, t)`). -/
def reduction (n : Nat) : Nat × Nat := redLoop n 0

/-- `operator+`, Rational.hpp 414-431. -/
def add (x y : Num) : Option Num :=
  if x.n = y.n then
    let p := reduction ((x.k + y.k) % 2 ^ 64)
    some ⟨p.1, (y.n + 256 - p.2) % 256⟩
  else if y.n > x.n then do
    let s ← pow2 (y.n - x.n)
    return ⟨(x.k * s + y.k) % 2 ^ 64, y.n⟩
  else do
    let s ← pow2 (x.n - y.n)
    return ⟨(x.k + y.k * s) % 2 ^ 64, x.n⟩

/-- `operator<`, Rational.hpp 437-449. -/
def lt (x y : Num) : Option Bool :=
  if x.n < y.n then do
    let s ← pow2 (y.n - x.n)
    return decide (s * x.k % 2 ^ 64 < y.k)
  else if x.n > y.n then do
    let s ← pow2 (x.n - y.n)
    return decide (x.k < s * y.k % 2 ^ 64)
  else some (decide (x.k < y.k))

/-- `operator<=`, Rational.hpp 450-452. -/
def le (x y : Num) : Option Bool := if x = y then some true else lt x y

/-- `operator>=`, Rational.hpp 453. -/
def ge (x y : Num) : Option Bool := (lt x y).map (!·)

/-- `operator>`, Rational.hpp 454. -/
def gt (x y : Num) : Option Bool := (le x y).map (!·)

/-- `is_sum_leq_1`, Rational.hpp 460-467. -/
def isSumLeq1 (x y : Num) : Option Bool :=
  if x.n = y.n then do
    let d ← pow2 x.n
    return decide ((x.k + y.k) % 2 ^ 64 ≤ d)
  else do
    let t ← add x y
    let d ← pow2 t.n
    return decide (t.k ≤ d)

/-- `struct Interval`, Rational.hpp 471-473. -/
structure Iv where
  lo : Num
  up : Num
deriving DecidableEq, Repr

/-- `Interval::bisect`, Rational.hpp 485-491. -/
def bisect (i : Iv) : Option (Iv × Iv) := do
  let m ← add i.up i.lo
  let mid : Num := ⟨m.k, (m.n + 1) % 256⟩
  return (⟨i.lo, mid⟩, ⟨mid, i.up⟩)

/-- `Interval3`, Rational.hpp 498: the `t`, `u`, `v` intervals. -/
abbrev Box := Fin 3 → Iv

/-- `tmp[i] = x`. -/
def Box.set (b : Box) (i : Fin 3) (x : Iv) : Box := fun j => if j = i then x else b j

/-- All denominators of a box can be evaluated (Rational.hpp 568-573, 539-542). -/
def evaluable (b : Box) : Bool :=
  (List.finRange 3).all fun i => decide ((b i).lo.n < 64) && decide ((b i).up.n < 64)

/-- `split_and_push`, Rational.hpp 666-717.  Result: overflow flag and the boxes pushed, in order.
`overlaps` is the test `t_upper_bound == 1 || interval.overlaps(0, t_upper_bound)`. -/
def splitAndPush (overlaps : Iv → Bool) (checkVf : Bool) (b : Box) (i : Fin 3) :
    Option (Bool × List Box) := do
  let (f, s) ← bisect (b i)
  if ← ge f.lo f.up then return (true, [])
  if ← ge s.lo s.up then return (true, [])
  let b2 := b.set i s
  let b1 := b.set i f
  if i = 0 then
    return (false, (if overlaps s then [b2] else []) ++ (if overlaps f then [b1] else []))
  else if !checkVf then
    return (false, [b2, b1])
  else if i = 1 then
    let c2 ← isSumLeq1 s.lo (b 2).lo
    let c1 ← isSumLeq1 f.lo (b 2).lo
    return (false, (if c2 then [b2] else []) ++ (if c1 then [b1] else []))
  else
    let c2 ← isSumLeq1 (b 1).lo s.lo
    let c1 ← isSumLeq1 (b 1).lo f.lo
    return (false, (if c2 then [b2] else []) ++ (if c1 then [b1] else []))

/-- The scan of `popPriority`, Rational.hpp 742-746, 845-849. -/
def scan {α} (cmp : α → α → Option Bool) : List α → Nat → α → Nat → Option (α × Nat)
  | [], _, ret, id => some (ret, id)
  | x :: xs, i, ret, id => do
    if ← cmp x ret then scan cmp xs (i + 1) x i else scan cmp xs (i + 1) ret id

/-- `popPriority`, Rational.hpp 739-750, 842-853: the list holds `istack[0..top)`. -/
def pop {α} (cmp : α → α → Option Bool) : List α → Option (α × List α)
  | [] => none
  | a :: as => do
    let (ret, id) ← scan cmp as 1 a 0
    let top := as.length
    if id ≠ top then return (ret, ((a :: as).set id ((a :: as).getD top a)).take top)
    else return (ret, (a :: as).take top)

/-- The `push` lambdas, Rational.hpp 795-797, 888-890: dropped when the local stack is full. -/
def pushAll {α} (stack : List α) : List α → List α
  | [] => stack
  | b :: bs => pushAll (if stack.length < 256 then stack ++ [b] else stack) bs

/-- `zero_to_one` for all three parameters, Rational.hpp 732-733. -/
def unitBox : Box := fun _ => ⟨⟨0, 0⟩, ⟨1, 0⟩⟩

/-- `cmp_time`, Rational.hpp 728-729. -/
def cmpTime (a b : Box) : Option Bool := ge (a 0).lo (b 0).lo

/-- The work loop of `interval_root_finder_DFS`, Rational.hpp 764-807.  `zeroIn`: the bounding box of
the function values over the box meets the origin box; `done`: `box_in || all_le(widths, tol)`;
`pick`: `find_next_split`.  Result: `(returned Boolean, accepted start time if any)`;
`none`: undefined behaviour or not finished within `fuel` iterations. -/
def dfs (zeroIn done : Box → Bool) (pick : Box → Fin 3) (checkVf : Bool) :
    Nat → List Box → Option (Bool × Option Num)
  | _, [] => some (false, none)
  | 0, _ :: _ => none
  | fuel + 1, a :: as => do
    let (cur, rest) ← pop cmpTime (a :: as)
    if ← ge (cur 0).lo ⟨1, 0⟩ then dfs zeroIn done pick checkVf fuel rest
    else if !evaluable cur then none
    else if !zeroIn cur then dfs zeroIn done pick checkVf fuel rest
    else if done cur then return (true, some (cur 0).lo)
    else
      let (ovf, pushed) ← splitAndPush (fun _ => true) checkVf cur (pick cur)
      let stack := pushAll rest pushed
      if stack.length > 255 then return (true, none)
      else if ovf then return (true, none)
      else dfs zeroIn done pick checkVf fuel stack

/-- `horiz_cmp`, Rational.hpp 827-833. -/
def horizCmp (a b : Box × Int) : Option Bool :=
  if a.2 ≠ b.2 then some (decide (a.2 ≥ b.2)) else gt (a.1 0).lo (b.1 0).lo

/-- Oracles used by the breadth-first root finder: `zeroIn`, `boxIn`, `tolOk` (`tol_condition`),
`widthsOk` (`condition1`), `pick`. -/
structure Oracle where
  zeroIn : Box → Bool
  boxIn : Box → Bool
  tolOk : Box → Bool
  widthsOk : Box → Bool
  pick : Box → Fin 3

/-- Local variables of `interval_root_finder_BFS`, Rational.hpp 840-877. -/
structure BfsSt where
  toiSkip : Num
  useSkip : Bool
  boxInLevel : Int
  lessTol : Bool
  curLevel : Int
  findRoot : Bool
  tempToi : Option Num
  refine : Int

/-- Initial values, Rational.hpp 858-877 (`refine` at 859). -/
def BfsSt.init : BfsSt := ⟨⟨4, 0⟩, false, -2, true, -2, false, none, 0⟩

/-- Per-level reset and iteration count, Rational.hpp 887-892. -/
def BfsSt.enter (st : BfsSt) (level : Int) : BfsSt :=
  { st with
    boxInLevel := level
    lessTol := if st.boxInLevel ≠ level then true else st.lessTol
    refine := st.refine + 1 }

/-- `if (!tol_condition) this_level_less_tol = false;`, Rational.hpp 911-917. -/
def BfsSt.noteTol (st : BfsSt) (tolOk : Bool) : BfsSt :=
  { st with lessTol := if tolOk then st.lessTol else false }

/-- Remembering the first root of a level, Rational.hpp 934-956 (only if `max_itr > 0`). -/
def BfsSt.noteRoot (st : BfsSt) (level : Int) (lo : Num) : BfsSt :=
  let found := if st.curLevel ≠ level then false else st.findRoot
  { st with
    curLevel := level
    tempToi := if found then st.tempToi else some lo
    findRoot := true }

/-- Recording a box that need not be refined, Rational.hpp 970-975. -/
def BfsSt.noteSkip (st : BfsSt) (earlier : Bool) (lo : Num) : BfsSt :=
  { st with toiSkip := if earlier then lo else st.toiSkip, useSkip := true }

/-- The work loop of `interval_root_finder_BFS`, Rational.hpp 878-1003.  Only the returned Boolean and
the reported start time are modelled (not `output_tolerance`). -/
def bfs (o : Oracle) (overlaps : Iv → Bool) (checkVf : Bool) (maxItr : Int) :
    Nat → List (Box × Int) → BfsSt → Option (Bool × Option Num)
  | _, [], st => some (if st.useSkip then (true, some st.toiSkip) else (false, none))
  | 0, _ :: _, _ => none
  | fuel + 1, a :: as, st0 => do
    let ((cur, level), rest) ← pop horizCmp (a :: as)
    if ← ge (cur 0).lo st0.toiSkip then bfs o overlaps checkVf maxItr fuel rest st0
    else
      let st1 := st0.enter level
      if !evaluable cur then none
      else if !o.zeroIn cur then bfs o overlaps checkVf maxItr fuel rest st1
      else
        let cond2 := o.boxIn cur && st1.lessTol
        let st2 := st1.noteTol (o.tolOk cur)
        if o.widthsOk cur || cond2 || st2.lessTol then return (true, some (cur 0).lo)
        else
          let st3 := if maxItr > 0 then st2.noteRoot level (cur 0).lo else st2
          if maxItr > 0 ∧ st3.refine > maxItr then return (true, st3.tempToi)
          else if o.tolOk cur || o.boxIn cur then
            let c ← lt (cur 0).lo st3.toiSkip
            bfs o overlaps checkVf maxItr fuel rest (st3.noteSkip c (cur 0).lo)
          else
            let (ovf, pushed) ← splitAndPush overlaps checkVf cur (o.pick cur)
            let stack := pushAll rest (pushed.map fun b => (b, level + 1))
            if stack.length > 255 then return (true, none)
            else if ovf then return (true, none)
            else bfs o overlaps checkVf maxItr fuel stack st3

end Verif.NumCCD
