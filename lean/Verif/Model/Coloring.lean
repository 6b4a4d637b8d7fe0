import Mathlib.Order.Defs.LinearOrder

/-!
Model of `fast_independent_sets` and `maximum_independent_sets` (`include/zensim/graph/Coloring.hpp`).

A parallel loop `policy(range(n), body)` runs its bodies one after the other in an arbitrary order, a
different one for every loop.  (In each of these loops a body writes cells of its own row and flags that
all bodies set to the same value, and it reads other rows only from arrays that the loop does not write,
so bodies that overlap give the same result as bodies that do not.)  The order for the `k`-th loop is
`order k`.  The argument checks of lines 20-24, 104-108 are not modelled, nor is the choice of memory.
Weights are linearly ordered (no NaN); colours do not overflow, `top` is the largest value of their type.
Loops that may not end have a bound on the number of rounds; `none` means that it was exceeded.
-/
namespace Verif.Coloring

variable {W : Type} [LinearOrder W]

/-- The rows of the matrix, as lists of column indices; the weights. -/
structure Graph (W : Type) where
  n : Nat
  adj : Nat → List Nat
  w : Nat → W
  top : Nat

/-- `colors`, `maskOut`, `done[0]` / `expanded[0]`, `done[1]`, and how many parallel loops have run. -/
structure St where
  color : Nat → Nat
  mask : Nat → Nat
  flag : Bool
  flag' : Bool
  tick : Nat

def upd {α : Type} (f : Nat → α) (i : Nat) (x : α) : Nat → α := fun j => if j = i then x else f j

/-- `policy(range(n), body)`. -/
def kernel (order : Nat → List Nat) (body : St → Nat → St) (s : St) : St :=
  let s := (order s.tick).foldl body s
  { s with tick := s.tick + 1 }

/-- The loop of lines 54-62: `colorMax` and `colorMin`. -/
def extrema (g : Graph W) (mask : Nat → Nat) (w : W) : List Nat → Bool × Bool → Bool × Bool
  | [], r => r
  | k :: rest, r =>
    extrema g mask w rest
      (if mask k = 0 then (if w < g.w k then false else r.1, if g.w k < w then false else r.2) else r)

/-- Lines 43-70. -/
def pick (g : Graph W) (c : Nat) (s : St) (row : Nat) : St :=
  if s.mask row ≠ 0 then s
  else
    let r := extrema g s.mask (g.w row) (g.adj row) (true, true)
    if r.1 then { s with color := upd s.color row (c + 1), flag := true }
    else if r.2 then { s with color := upd s.color row (c + 2), flag' := true }
    else s

/-- Lines 79-83. -/
def settle2 (c : Nat) (s : St) (row : Nat) : St :=
  if s.mask row ≠ 0 then s
  else if s.color row = c + 1 ∨ s.color row = c + 2 then { s with mask := upd s.mask row 1 }
  else s

/-- The loop of lines 40-84; the returned colour. -/
def fastLoop (g : Graph W) (order : Nat → List Nat) : Nat → Nat → St → Option (St × Nat)
  | 0, _, _ => none
  | fuel + 1, c, s =>
    let s := kernel order (pick g c) { s with flag := false, flag' := false }
    if s.flag = false then some (s, c)
    else if s.flag' = false then some (s, c + 1)
    else fastLoop g order fuel (c + 2) (kernel order (settle2 c) s)

/-- Lines 31-38, 115-124. -/
def start (g : Graph W) : St :=
  { color := fun _ => g.top, mask := fun _ => 0, flag := false, flag' := false, tick := 0 }

/-- `fast_independent_sets`; lines 10-88. -/
def fast (g : Graph W) (order : Nat → List Nat) (fuel : Nat) : Option (St × Nat) :=
  fastLoop g order fuel 0 (start g)

/-- The loop of lines 139-148, 188-196: `colorMin`, with `break`. -/
def lowest (g : Graph W) (mask : Nat → Nat) (w : W) : List Nat → Bool
  | [] => true
  | k :: rest => if mask k = 0 then (if g.w k < w then false else lowest g mask w rest) else lowest g mask w rest

/-- Lines 129-153 and 178-201. -/
def pickMin (g : Graph W) (c : Nat) (s : St) (row : Nat) : St :=
  if s.mask row ≠ 0 then s
  else if lowest g s.mask (g.w row) (g.adj row) then { s with color := upd s.color row (c + 1), flag := true }
  else s

/-- Lines 156-160 and 203-207. -/
def settle (c : Nat) (s : St) (row : Nat) : St :=
  if s.mask row ≠ 0 then s
  else if s.color row = c + 1 then { s with mask := upd s.mask row 1 }
  else s

/-- The loop of lines 171-175: some neighbour has the colour. -/
def touches (color : Nat → Nat) (c : Nat) : List Nat → Bool
  | [] => false
  | k :: rest => if color k = c + 1 then true else touches color c rest

/-- Lines 166-176. -/
def exclude (g : Graph W) (c : Nat) (s : St) (row : Nat) : St :=
  if s.mask row ≠ 0 then s
  else if touches s.color c (g.adj row) then { s with mask := upd s.mask row 2 }
  else s

/-- Lines 212-214. -/
def release (s : St) (row : Nat) : St :=
  if s.mask row = 2 then { s with mask := upd s.mask row 0 } else s

/-- The loop of lines 163-209. -/
def expand (g : Graph W) (order : Nat → List Nat) (c : Nat) : Nat → St → Option St
  | 0, _ => none
  | fuel + 1, s =>
    let s := kernel order (exclude g c) { s with flag := false }
    let s := kernel order (pickMin g c) s
    let s := kernel order (settle c) s
    if s.flag then expand g order c fuel s else some s

/-- The loop of lines 127-215. -/
def maxLoop (g : Graph W) (order : Nat → List Nat) (inner : Nat) : Nat → Nat → St → Option (St × Nat)
  | 0, _, _ => none
  | fuel + 1, c, s =>
    let s := kernel order (pickMin g c) { s with flag := false }
    if s.flag = false then some (s, c)
    else
      match expand g order c inner (kernel order (settle c) s) with
      | none => none
      | some s => maxLoop g order inner fuel (c + 1) (kernel order release s)

/-- `maximum_independent_sets`; lines 94-219. -/
def maximum (g : Graph W) (order : Nat → List Nat) (fuel : Nat) : Option (St × Nat) :=
  maxLoop g order fuel fuel 0 (start g)

end Verif.Coloring
