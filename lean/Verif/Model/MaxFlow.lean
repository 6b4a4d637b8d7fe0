/-!
Model of `maximum_flow` (`include/zensim/graph/MaximumFlow.hpp`).

The capacity matrix is the CSR matrix `_ptrs`, `_inds`, `_vals`.  Values are unbounded integers (`T` is an
integer type and sums do not overflow), `top` is `std::numeric_limits<T>::max()`.

The breadth-first kernel (lines 22-39) runs one task per row; tasks are interleaved at their accesses to
shared memory.  A read of `potentialFlows[vi]` may be outdated: it returns the value from before the
kernel.  `once` says whether the two occurrences of `potentialFlows[vi]` in lines 34-35 are compiled to one
load or to two.  The compare-and-swap is atomic.  Access outside an array is undefined behaviour: the
outcome `none`.

The hash table of lines 109-119 maps a pair of vertices to the number `j` of the entry; its properties are
those of `Verif.Props.Bht`, here it is a search in the row.  A pair that occurs twice makes `insert` return
-1, which is used as an index (line 88): undefined.  The same holds for `query` of a pair that does not
occur (lines 127-128).  Lines 67 and 113 bind a non-constant reference to a temporary and are not valid C++;
they are read as if `&` was not there.  Device policies are not modelled.
-/
namespace Verif.MaxFlow

/-- Rows, `_ptrs`, `_inds`. -/
structure Net where
  n : Nat
  ptr : Nat → Nat
  ind : Nat → Nat

def upd {α : Type} (f : Nat → α) (i : Nat) (x : α) : Nat → α := fun j => if j = i then x else f j

/-- The entries of a row. -/
def Net.row (g : Net) (u : Nat) : List Nat := List.range' (g.ptr u) (g.ptr (u + 1) - g.ptr u)

/-- `visited`, `frontier`, `parents` (`none` is -1), `potentialFlows`, `isSinkFound`. -/
structure Search where
  visited : Nat → Bool
  front : Nat → Bool
  parent : Nat → Option Nat
  pf : Nat → Int
  found : Bool

/-- Where the task of a row is. `i` is the entry, `x` the value read or computed. -/
inductive Pc where
  | start
  | clear
  | loop (i : Nat)
  | front (i : Nat)
  | par (i : Nat)
  | cmp (i : Nat)
  | sel (i : Nat) (x : Int)
  | put (i : Nat) (x : Int)
  | sink (i : Nat)
  | done

/-- Memory, tasks, and `potentialFlows` from before the kernel. -/
structure K where
  mem : Search
  pc : Nat → Pc
  old : Nat → Int

def K.goto (k : K) (r : Nat) (p : Pc) : K := { k with pc := upd k.pc r p }

/-- Read `potentialFlows[vi]`. -/
def K.read (k : K) (r : Nat) (stale : Bool) : Int := if stale then k.old r else k.mem.pf r

/-- One access to shared memory by the task of row `r`; lines 23-38. -/
def step (g : Net) (once : Bool) (vals : Nat → Int) (t : Nat) (k : K) (r : Nat) (stale : Bool) : Option K :=
  if r ≥ g.n then some k
  else
    match k.pc r with
    | .start => some (k.goto r (if k.mem.front r then .clear else .done))
    | .clear => some ({ k with mem := { k.mem with front := upd k.mem.front r false } }.goto r (.loop (g.ptr r)))
    | .loop i =>
      if i < g.ptr (r + 1) then
        if vals i ≤ 0 then some (k.goto r (.loop (i + 1)))
        else if g.ind i ≥ g.n then none
        else if k.mem.visited (g.ind i) then some (k.goto r (.loop (i + 1)))
        else some ({ k with mem := { k.mem with visited := upd k.mem.visited (g.ind i) true } }.goto r (.front i))
      else some (k.goto r .done)
    | .front i => some ({ k with mem := { k.mem with front := upd k.mem.front (g.ind i) true } }.goto r (.par i))
    | .par i => some ({ k with mem := { k.mem with parent := upd k.mem.parent (g.ind i) (some r) } }.goto r (.cmp i))
    | .cmp i =>
      if vals i < k.read r stale then some (k.goto r (.put i (vals i)))
      else some (k.goto r (.sel i (k.read r stale)))
    | .sel i x => some (k.goto r (.put i (if once then x else k.read r stale)))
    | .put i x => some ({ k with mem := { k.mem with pf := upd k.mem.pf (g.ind i) x } }.goto r (.sink i))
    | .sink i =>
      some ({ k with mem := { k.mem with found := k.mem.found || g.ind i == t } }.goto r (.loop (i + 1)))
    | .done => some k

def run (g : Net) (once : Bool) (vals : Nat → Int) (t : Nat) : List (Nat × Bool) → K → Option K
  | [], k => some k
  | (r, stale) :: rest, k =>
    match step g once vals t k r stale with
    | none => none
    | some k => run g once vals t rest k

/-- Steps that suffice for the task of a row. -/
def block (g : Net) (r : Nat) : List (Nat × Bool) := List.replicate (8 * (g.ptr (r + 1) - g.ptr r) + 3) (r, false)

/-- The rows of a list, one after the other. -/
def serial (g : Net) (order : List Nat) : List (Nat × Bool) := order.flatMap (block g)

/-- `pol(zs::range(capacity.outerSize()), params, kernel_bfs_augmented_path{})`; lines 71-77. The tasks run
as `sched` says; what it leaves over is run in the order of the rows. -/
def kernel (g : Net) (once : Bool) (vals : Nat → Int) (t : Nat) (sched : List (Nat × Bool)) (s : Search) : Option Search :=
  match run g once vals t (sched ++ serial g (List.range g.n))
      { mem := { s with found := false }, pc := fun _ => .start, old := s.pf } with
  | none => none
  | some k => some k.mem

/-- The loop of lines 63-79. -/
def searchLoop (g : Net) (once : Bool) (vals : Nat → Int) (t : Nat) (sched : Nat → List (Nat × Bool)) :
    Nat → Nat → Search → Option Search
  | 0, _, _ => none
  | fuel + 1, c, s =>
    if (List.range g.n).all (fun v => !s.front v) then some s
    else
      match kernel g once vals t (sched c) s with
      | none => none
      | some s => if s.found then some s else searchLoop g once vals t sched fuel (c + 1) s

/-- `find_augmented_path`; lines 41-81. The result is `potentialFlows[sink] > 0`. `parent` is what `parents`
held before. -/
def search (g : Net) (once : Bool) (top : Int) (vals : Nat → Int) (s t : Nat) (sched : Nat → List (Nat × Bool))
    (parent : Nat → Option Nat) : Option Search :=
  searchLoop g once vals t sched (g.n + 2) 0
    { visited := upd (fun _ => false) s true, front := upd (fun _ => false) s true, parent := upd parent s none,
      pf := upd (fun _ => 0) s top, found := false }

/-- `hashBuffer[hash.query({u, v})]`. -/
def lookup (g : Net) (u v : Nat) : Option Nat := (g.row u).find? fun i => g.ind i == v

/-- The loop of lines 125-132. -/
def walk (g : Net) (m : Int) (parent : Nat → Option Nat) : Nat → Nat → (Nat → Int) → Option (Nat → Int)
  | 0, _, _ => none
  | fuel + 1, v, vals =>
    match parent v with
    | none => some vals
    | some p =>
      match lookup g p v, lookup g v p with
      | some e, some e' =>
        let vals := upd vals e (vals e - m)
        let vals := upd vals e' (vals e' + m)
        walk g m parent fuel p vals
      | _, _ => none

/-- The loop of lines 121-133: the matrix and `res`. `sched a` are the schedules of the `a`-th search. -/
def augment (g : Net) (once : Bool) (top : Int) (s t : Nat) (sched : Nat → Nat → List (Nat × Bool)) :
    Nat → Nat → (Nat → Option Nat) → (Nat → Int) → Int → Option ((Nat → Int) × Int)
  | 0, _, _, _, _ => none
  | fuel + 1, a, parent, vals, res =>
    match search g once top vals s t (sched a) parent with
    | none => none
    | some f =>
      if f.pf t > 0 then
        match walk g (f.pf t) f.parent (g.n + 1) t vals with
        | none => none
        | some vals => augment g once top s t sched fuel (a + 1) f.parent vals (res + f.pf t)
      else some (vals, res)

/-- Some pair occurs twice in the matrix. -/
def duplicates (g : Net) : Bool := (List.range g.n).any fun u => !decide ((g.row u).map g.ind).Nodup

/-- `maximum_flow`; lines 93-134. `parent` is the initial content of `parents`. -/
def maximumFlow (g : Net) (once : Bool) (top : Int) (s t : Nat) (sched : Nat → Nat → List (Nat × Bool))
    (parent : Nat → Option Nat) (vals : Nat → Int) (fuel : Nat) : Option ((Nat → Int) × Int) :=
  if duplicates g then none else augment g once top s t sched fuel 0 parent vals 0

end Verif.MaxFlow
