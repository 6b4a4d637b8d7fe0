/-!
Model of `union_find` (`include/zensim/graph/ConnectedComponents.hpp`, both overloads): concurrent
connected components.

Every iteration `v` of the second parallel loop is a task with its own program counter; a step is one
access to the shared array `fas`.  Plain reads may be stale: a cell is the list of the values it has
held since the first loop, newest first, and a read returns any of them.  Compare-and-swap sees the
newest.  Access outside the array is the outcome `none`.
-/
namespace Verif.UnionFind

/-- The sparse matrix: number of rows, `_ptrs`, `_inds`, and which entries the predicate skips
(lines 64-116; none for the overload of lines 7-62). -/
structure Graph where
  n : Nat
  ptrs : Nat → Nat
  inds : Nat → Nat
  skip : Nat → Bool

/-- The entries of row `v`. -/
def Graph.row (g : Graph) (v : Nat) : List Nat := List.range' (g.ptrs v) (g.ptrs (v + 1) - g.ptrs v)

/-- The loop of lines 18-19, 77-80: it stops at the first smaller neighbour. -/
def firstLower (g : Graph) (v : Nat) : List Nat → Nat → Nat
  | [], m => m
  | i :: rest, m =>
    if m = v then
      if g.skip i then firstLower g v rest m
      else firstLower g v rest (if m < g.inds i then m else g.inds i)
    else m

/-- Where the task of a vertex stands.  `k` tells whose representative is sought: the vertex itself, or
the neighbour of entry `i`; `vstat` is the local variable of that name. -/
inductive Pc where
  /-- line 27: about to read `nstat[idx]` -/
  | seek (k : Option Nat) (vstat idx : Nat)
  /-- line 30: about to read `nstat[curr]` -/
  | climb (k : Option Nat) (vstat prev curr : Nat)
  /-- line 31: about to write `nstat[prev] = next` -/
  | halve (k : Option Nat) (vstat prev curr next : Nat)
  /-- lines 39-41 -/
  | edge (i vstat : Nat)
  /-- lines 44-58 -/
  | hook (i vstat ostat : Nat)
  | done
  deriving DecidableEq, Repr

/-- Shared array, cell by cell the history of values, and the tasks. -/
structure St where
  mem : Nat → List Nat
  pc : Nat → Pc

def upd {α : Type} (f : Nat → α) (i : Nat) (x : α) : Nat → α := fun j => if j = i then x else f j

/-- The newest value of a cell. -/
def St.fa (s : St) (x : Nat) : Nat := (s.mem x).headD x

/-- A plain read that returns the `c`-th newest value. -/
def St.read (s : St) (x c : Nat) : Nat := ((s.mem x)[c]?).getD (s.fa x)

def St.goto (s : St) (v : Nat) (p : Pc) : St := { s with pc := upd s.pc v p }

def St.write (s : St) (x y : Nat) : St := { s with mem := upd s.mem x (y :: s.mem x) }

/-- `representative` returns; lines 38, 43. -/
def found (g : Graph) (v : Nat) (k : Option Nat) (vstat curr : Nat) : Pc :=
  match k with
  | none => .edge (g.ptrs v) curr
  | some i => .hook i vstat curr

/-- One step of task `v`; `c` selects the value of a plain read.  Lines 24-61, 86-122. -/
def step (g : Graph) (s : St) (v c : Nat) : Option St :=
  match s.pc v with
  | .seek k vstat idx =>
    if g.n ≤ idx then none
    else
      let curr := s.read idx c
      some (if curr ≠ idx then s.goto v (.climb k vstat idx curr) else s.goto v (found g v k vstat curr))
  | .climb k vstat prev curr =>
    if g.n ≤ curr then none
    else
      let next := s.read curr c
      some (if next < curr then s.goto v (.halve k vstat prev curr next) else s.goto v (found g v k vstat curr))
  | .halve k vstat prev curr next =>
    if g.n ≤ prev then none
    else some ((s.write prev next).goto v (.climb k vstat curr next))
  | .edge i vstat =>
    some (
      if i < g.ptrs (v + 1) then
        if g.skip i then s.goto v (.edge (i + 1) vstat)
        else if g.inds i < v then s.goto v (.seek (some i) vstat (g.inds i))
        else s.goto v (.edge (i + 1) vstat)
      else s.goto v .done)
  | .hook i vstat ostat =>
    if vstat = ostat then some (s.goto v (.edge (i + 1) vstat))
    else if vstat < ostat then
      if g.n ≤ ostat then none
      else if s.fa ostat = ostat then some ((s.write ostat vstat).goto v (.edge (i + 1) vstat))
      else some (s.goto v (.hook i vstat (s.fa ostat)))
    else
      if g.n ≤ vstat then none
      else if s.fa vstat = vstat then some ((s.write vstat ostat).goto v (.edge (i + 1) vstat))
      else some (s.goto v (.hook i (s.fa vstat) ostat))
  | .done => some s

/-- An interleaving. -/
def run (g : Graph) (s : St) : List (Nat × Nat) → Option St
  | [] => some s
  | (v, c) :: rest =>
    match step g s v c with
    | none => none
    | some s' => run g s' rest

/-- After the first loop; lines 14-21, 72-82. -/
def start (g : Graph) : St :=
  { mem := fun v => [firstLower g v (g.row v) v]
    pc := fun v => .seek none v v }

end Verif.UnionFind
