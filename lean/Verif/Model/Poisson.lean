import Mathlib.Analysis.Real.Sqrt
import Mathlib.Data.Real.Archimedean

/-!
Model of `include/zensim/container/DenseGrid.hpp` and of sampling in the plane by `include/zensim/geometry/PoissonDisk.hpp`.

Coordinates are real, indices unbounded integers.  Random numbers are arbitrary: the attempt `i` of round `k` around a point is `around k i`, the chosen position in the active list is `pick k`
(smaller than the length of the list).  An access outside a vector is the result `none`.  Sampling in space, which reads a file of points, is not modelled.
-/
namespace Verif.Poisson

/-! ## `DenseGrid` -/

/-- `excl_suffix_prod`, `DenseGrid.hpp` lines 8-13: from the last entry, one, towards the first. -/
def exclSuffixProd : List ℤ → List ℤ
  | [] => []
  | [_] => [1]
  | _ :: b :: t =>
    let r := exclSuffixProd (b :: t)
    (r.headD 0 * b) :: r

structure Grid where
  weights : List ℤ
  dims : List ℤ
  cells : List ℤ

/-- `DenseGrid::offset`, lines 18-22. -/
def Grid.offset (g : Grid) (idx : List ℤ) : ℤ := ((idx.zip g.weights).map fun p => p.1 * p.2).sum

/-- The number of cells that the constructors allocate, lines 24-27. -/
def codeSize (dims : List ℤ) : ℤ := (exclSuffixProd dims).prod

/-- The constructors, lines 24-27; `size` is `codeSize` in the code. -/
def Grid.make (size : List ℤ → ℤ) (dims : List ℤ) (val : ℤ) : Grid := ⟨exclSuffixProd dims, dims, List.replicate (size dims).toNat val⟩

/-- `operator()`, line 29. -/
def Grid.read (g : Grid) (idx : List ℤ) : Option ℤ := if 0 ≤ g.offset idx then g.cells[(g.offset idx).toNat]? else none

/-- An assignment through `operator()`, line 30. -/
def Grid.write (g : Grid) (idx : List ℤ) (v : ℤ) : Option Grid :=
  if 0 ≤ g.offset idx ∧ (g.offset idx).toNat < g.cells.length then some { g with cells := g.cells.set (g.offset idx).toNat v } else none

/-- `domain`, line 32. -/
def Grid.domain (g : Grid) (d : ℕ) : ℤ := g.dims.getD d 0

/-! ## `PoissonDisk<T, 2>` -/

abbrev P := ℝ × ℝ
abbrev C := ℤ × ℤ

structure Cfg where
  minDistance : ℝ
  lo : P
  hi : P
  maxAttempts : ℕ
  periodic : Bool
  feasible : P → Bool

/-- `generateRandomPointAroundAnnulus`, lines 37-45: what it returns for the vector `v` that ends the loop. -/
def aroundPoint (c : Cfg) (v center : P) : P := (v.1 * (c.minDistance * 2) + center.1, v.2 * (c.minDistance * 2) + center.2)

noncomputable def side (c : Cfg) : ℝ := c.minDistance / Real.sqrt 2

/-- `worldToIndexSpace`, lines 46-50. -/
noncomputable def toIndex (c : Cfg) (x : P) (h : ℝ) : C := (⌊(x.1 - c.lo.1) / h⌋, ⌊(x.2 - c.lo.2) / h⌋)

def nsq (x : P) : ℝ := x.1 * x.1 + x.2 * x.2

/-- The values of a loop `for (i = a; i < b; ++i)`. -/
def loop (a b : ℤ) : List ℤ := (List.range (b - a).toNat).map fun (k : ℕ) => a + (k : ℤ)

/-- Index and shift in periodic mode in one dimension, lines 97-109; `%` rounds towards zero. -/
noncomputable def wrap (i n : ℤ) (lo hi : ℝ) : ℤ × ℝ :=
  if i < 0 then (i.tmod n + n, lo - hi) else if i ≥ n then (i.tmod n, hi - lo) else (i, 0)

open Classical in
/-- The loops of lines 79-115; `false` is the early return. -/
noncomputable def search (c : Cfg) (point : P) (g : Grid) (samples : List P) : List C → Option Bool
  | [] => some true
  | j :: js =>
    let a := if c.periodic then wrap j.1 (g.domain 0) c.lo.1 c.hi.1 else (j.1, 0)
    let b := if c.periodic then wrap j.2 (g.domain 1) c.lo.2 c.hi.2 else (j.2, 0)
    match g.read [a.1, b.1] with
    | none => none
    | some v =>
      if v = -1 then search c point g samples js
      else if v < 0 then none
      else
        match samples[v.toNat]? with
        | none => none
        | some s => if nsq (point.1 - (s.1 + a.2), point.2 - (s.2 + b.2)) < c.minDistance * c.minDistance then some false else search c point g samples js

/-- `checkDistance`, lines 56-119. -/
noncomputable def checkDistance (c : Cfg) (point : P) (h : ℝ) (g : Grid) (samples : List P) : Option Bool :=
  let i := toIndex c point h
  if i.1 < 0 ∨ i.1 ≥ g.domain 0 ∨ i.2 < 0 ∨ i.2 ≥ g.domain 1 then some false
  else
    match g.read [i.1, i.2] with
    | none => none
    | some v =>
      if v ≠ -1 then some false
      else
        let l : C := (i.1 - 2, i.2 - 2)
        let u : C := (i.1 + 3, i.2 + 3)
        let l : C := if c.periodic then l else (max 0 l.1, max 0 l.2)
        let u : C := if c.periodic then u else (min (g.domain 0) u.1, min (g.domain 1) u.2)
        search c point g samples ((loop l.1 u.1).flatMap fun x => (loop l.2 u.2).map fun y => (x, y))

structure State where
  samples : List P
  active : List ℕ
  grid : Grid

/-- The shift of a new point, lines 279-285. -/
noncomputable def shiftIn (x lo hi : ℝ) : ℝ := if x < lo then x + (hi - lo) else if x > hi then x - (hi - lo) else x

open Classical in
/-- One attempt, lines 276-297: the new state and whether a point was added. -/
noncomputable def attempt (c : Cfg) (st : State) (x : P) : Option (State × Bool) :=
  let x : P := if c.periodic then (shiftIn x.1 c.lo.1 c.hi.1, shiftIn x.2 c.lo.2 c.hi.2) else x
  if ¬ c.feasible x then some (st, false)
  else
    match checkDistance c x (side c) st.grid st.samples with
    | none => none
    | some false => some (st, false)
    | some true =>
      let i := toIndex c x (side c)
      match st.grid.write [i.1, i.2] st.samples.length with
      | none => none
      | some g => some (⟨st.samples ++ [x], st.active ++ [st.samples.length], g⟩, true)

/-- The attempts of one round, lines 275-298. -/
noncomputable def attempts (c : Cfg) : List P → State → Bool → Option (State × Bool)
  | [], st, found => some (st, found)
  | x :: xs, st, found =>
    match attempt c st x with
    | none => none
    | some (st', b) => attempts c xs st' (found || b)

/-- `iter_swap` of position `k` and the last, line 271. -/
def swapLast (l : List ℕ) (k : ℕ) : List ℕ := (l.set k (l.getLastD 0)).set (l.length - 1) (l.getD k 0)

/-- One round, lines 264-301. -/
noncomputable def round (c : Cfg) (pick : ℕ) (around : ℕ → P → P) (st : State) : Option State :=
  match st.active[pick]? with
  | none => none
  | some a =>
    match st.samples[a]? with
    | none => none
    | some current =>
      let st1 : State := { st with active := swapLast st.active pick }
      match attempts c ((List.range c.maxAttempts).map fun i => around i current) st1 false with
      | none => none
      | some (st2, found) => some (if found then st2 else { st2 with active := st2.active.dropLast })

/-- The loop of lines 263-302, at most `fuel` rounds; the result says how many remain. -/
noncomputable def rounds (c : Cfg) (pick : ℕ → ℕ → ℕ) (around : ℕ → ℕ → P → P) : ℕ → State → Option State
  | 0, st => some st
  | f + 1, st =>
    if st.active = [] then some st
    else
      match round c (pick f st.active.length) (around f) st with
      | none => none
      | some st' => rounds c pick around f st'

/-- The number of cells, lines 238-240. -/
noncomputable def cellNumbers (c : Cfg) : C := (⌈(c.hi.1 - c.lo.1) / side c⌉, ⌈(c.hi.2 - c.lo.2) / side c⌉)

/-- The point in the middle, line 250. -/
noncomputable def middle (c : Cfg) : P := (0.5 * (c.hi.1 + c.lo.1), 0.5 * (c.hi.2 + c.lo.2))

/-- A random point for random numbers `r`, line 254. -/
def between (c : Cfg) (r : P) : P := (c.lo.1 + (c.hi.1 - c.lo.1) * r.1, c.lo.2 + (c.hi.2 - c.lo.2) * r.2)

/-- The state before the loop, lines 242-259; `first` is the first feasible one of the middle and random points, `size` the allocation and `message` whether the message of lines 243-244,
which reads cell `(2, 3)`, is printed. -/
noncomputable def start (c : Cfg) (size : List ℤ → ℤ) (message : Bool) (first : P) : Option State :=
  let g := Grid.make size [(cellNumbers c).1, (cellNumbers c).2] (-1)
  if message ∧ g.read [2, 3] = none then none
  else
    let i := toIndex c first (side c)
    match g.write [i.1, i.2] 0 with
    | none => none
    | some g => some ⟨[first], [0], g⟩

/-- `sample` in the plane, lines 229-304. -/
noncomputable def sample (c : Cfg) (size : List ℤ → ℤ) (message : Bool) (first : P) (pick : ℕ → ℕ → ℕ) (around : ℕ → ℕ → P → P) (fuel : ℕ) : Option State :=
  match start c size message first with
  | none => none
  | some st => rounds c pick around fuel st

end Verif.Poisson
