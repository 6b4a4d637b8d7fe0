/-!
Model of `Vector` (`include/zensim/container/Vector.hpp`) with a conventional (non-virtual) allocator
on the host and a trivially copyable element type.

The heap maps block numbers to arrays of cells; a cell that was never written is `none`.  Reading or
writing outside a live block, freeing a block that is not live, and overlapping `memcpy` are undefined
behaviour: the outcome `none`.  `size_t` arithmetic does not overflow.  Allocation never fails and never
returns a block number twice.  A zero-byte allocation yields an empty block (the destructor does not
free it, line 68-69).  The memory resource itself (`ZSPmrAllocator`) is not modelled here.
-/
namespace Verif.Vector

/-- Data members `_base`, `_size`, `_capacity`; lines 418-420. -/
structure Vec where
  base : Nat
  size : Nat
  cap : Nat
deriving DecidableEq, Repr

/-- Heap and the living `Vector` objects. -/
structure St (α : Type) where
  heap : Nat → Option (List (Option α))
  next : Nat
  obj : Nat → Option Vec

variable {α : Type}

/-- Functional update. -/
def upd {β : Type} (f : Nat → β) (i : Nat) (x : β) : Nat → β := fun j => if j = i then x else f j

def init : St α := ⟨fun _ => none, 0, fun _ => none⟩

/-- `allocate(sizeof(T) * n)`; lines 45-54. -/
def alloc (n : Nat) (s : St α) : Nat × St α :=
  (s.next, { s with heap := upd s.heap s.next (some (List.replicate n none)), next := s.next + 1 })

/-- `~Vector()`; lines 67-70. -/
def destroy (v : Vec) (s : St α) : Option (St α) :=
  if v.cap > 0 then (s.heap v.base).map fun _ => { s with heap := upd s.heap v.base none } else some s

/-- `Resource::copy` of `n` elements between host addresses (`memcpy`). -/
def copy (src so dst d n : Nat) (s : St α) : Option (St α) := do
  let a ← s.heap src
  let b ← s.heap dst
  if so + n ≤ a.length ∧ d + n ≤ b.length ∧ (src = dst → so + n ≤ d ∨ d + n ≤ so ∨ n = 0) then
    return { s with heap := upd s.heap dst (some (b.take d ++ (a.drop so).take n ++ b.drop (d + n))) }
  else none

/-- `Resource::memset` of `n` elements; `x` is the value whose bytes are all `ch`. -/
def fill (dst d n : Nat) (x : α) (s : St α) : Option (St α) := do
  let b ← s.heap dst
  if d + n ≤ b.length then
    return { s with
      heap := upd s.heap dst (some (b.take d ++ List.replicate n (some x) ++ b.drop (d + n))) }
  else none

/-- `if (size()) Resource::copy(...)` from the start of one block to the start of another; lines 169-172,
246-248, 278-280, 311-313. -/
def copyFront (src dst n : Nat) (s : St α) : Option (St α) :=
  if n ≠ 0 then copy src 0 dst 0 n s else some s

/-- The `memset` of `resize(newSize, ch)` only; lines 314-315, 321-322. -/
def fillOpt (dst d n : Nat) (ch : Option α) (s : St α) : Option (St α) :=
  match ch with
  | some x => fill dst d n x s
  | none => some s

/-- `_base[i] = x`. -/
def store (b i : Nat) (x : Option α) (s : St α) : Option (St α) := do
  let l ← s.heap b
  if i < l.length then return { s with heap := upd s.heap b (some (l.set i x)) } else none

/-- Reading `_base[i]`; the content of a never written cell is `none`. -/
def load (b i : Nat) (s : St α) : Option (Option α) := do
  let l ← s.heap b
  l[i]?

/-- `geometric_size_growth(newSize, capacity)`; lines 407-413. -/
def growth (newSize capacity : Nat) : Nat :=
  let g := capacity + capacity / 2
  if newSize > g then newSize else g

/-- Rounding of the capacity in `alignedResize`; lines 266-268. -/
def alignUp (n al : Nat) : Nat :=
  let r := n % al
  n + (if r = 0 then 0 else al - r)

/-- `resize(newSize)` (lines 228-256), `alignedResize(newSize, al)` (257-288), `resize(newSize, ch)`
(289-326) of the object `i`; `resize` is the case `al = 1`.  `resizeBuffer` (375-402) also grows to
`geometric_size_growth(newSize)` on the host, so it is the case `al = 1` without filling. -/
def resize (i newSize al : Nat) (ch : Option α) (s : St α) : Option (St α) := do
  let v ← s.obj i
  if newSize < v.size then return { s with obj := upd s.obj i (some { v with size := newSize }) }
  else if newSize > v.size then
    if newSize > v.cap then
      let newCap := alignUp (growth newSize v.cap) al
      let (b, s) := alloc newCap s
      let s ← copyFront v.base b v.size s
      let s ← fillOpt b v.size (newSize - v.size) ch s
      let s := { s with obj := upd s.obj i (some ⟨b, newSize, newCap⟩) }
      destroy v s
    else
      let s ← fillOpt v.base v.size (newSize - v.size) ch s
      return { s with obj := upd s.obj i (some { v with size := newSize }) }
  else return s

/-- `push_back(val)` with `val` outside the vector; lines 328-337. -/
def push (i : Nat) (x : α) (s : St α) : Option (St α) := do
  let v ← s.obj i
  let s ← resize i (v.size + 1) 1 none s
  let v' ← s.obj i
  store v'.base v.size (some x) s

/-- `push_back(vec[k])`: `val` is a reference into the vector's own storage; lines 328-332. -/
def pushOwn (i k : Nat) (s : St α) : Option (St α) := do
  let v ← s.obj i
  let s ← resize i (v.size + 1) 1 none s
  let v' ← s.obj i
  let x ← load v.base k s
  store v'.base v.size x s

/-- The first part of `append`: `resize(oldSize + count)` or `_size += count`; lines 343-347. -/
def makeRoom (i : Nat) (v : Vec) (count : Nat) (s : St α) : Option (St α) :=
  if count > v.cap - v.size then resize i (v.size + count) 1 none s
  else some { s with obj := upd s.obj i (some { v with size := v.size + count }) }

/-- `append(other)`; lines 339-368. -/
def append (i j : Nat) (s : St α) : Option (St α) := do
  let v ← s.obj i
  let o ← s.obj j
  if o.size = 0 then return s
  else
    let s ← makeRoom i v o.size s
    let v' ← s.obj i
    let o' ← s.obj j
    copy o'.base 0 v'.base v.size o.size s

/-- Copy of the vector `o` (copy constructor); lines 164-181. -/
def copyOf (o : Vec) (s : St α) : Option (Vec × St α) := do
  let (b, s) := alloc o.cap s
  let s ← copyFront o.base b o.size s
  return (⟨b, o.size, o.cap⟩, s)

/-- `Vector(const Vector &o)` creating object `i`. -/
def copyCtor (i j : Nat) (s : St α) : Option (St α) :=
  match s.obj i with
  | some _ => none
  | none => do
    let o ← s.obj j
    let (v, s) ← copyOf o s
    return { s with obj := upd s.obj i (some v) }

/-- `operator=(const Vector &)`; lines 182-187. -/
def copyAssign (i j : Nat) (s : St α) : Option (St α) :=
  if i = j then (s.obj i).map fun _ => s
  else do
    let v ← s.obj i
    let o ← s.obj j
    let (t, s) ← copyOf o s
    destroy v { s with obj := upd s.obj i (some t) }

/-- `Vector(Vector &&o)`: the source gets the members of a default vector; lines 202-208. -/
def moveCtor (i j : Nat) (s : St α) : Option (St α) :=
  match s.obj i with
  | some _ => none
  | none => do
    let o ← s.obj j
    let (b, s) := alloc 0 s
    return { s with obj := upd (upd s.obj j (some ⟨b, 0, 0⟩)) i (some o) }

/-- `operator=(Vector &&o)`: move into a temporary, swap, destroy; lines 210-215. -/
def moveAssign (i j : Nat) (s : St α) : Option (St α) :=
  if i = j then (s.obj i).map fun _ => s
  else do
    let v ← s.obj i
    let o ← s.obj j
    let (b, s) := alloc 0 s
    destroy v { s with obj := upd (upd s.obj j (some ⟨b, 0, 0⟩)) i (some o) }

/-- `swap`; lines 216-221. -/
def swap (i j : Nat) (s : St α) : Option (St α) := do
  let v ← s.obj i
  let o ← s.obj j
  return { s with obj := upd (upd s.obj i (some o)) j (some v) }

/-- `Vector(allocator, count)`; lines 57-61. -/
def ctor (i n : Nat) (s : St α) : Option (St α) :=
  match s.obj i with
  | some _ => none
  | none =>
    let (b, s) := alloc n s
    some { s with obj := upd s.obj i (some ⟨b, n, n⟩) }

/-- End of life of object `i`; lines 67-70. -/
def dtor (i : Nat) (s : St α) : Option (St α) := do
  let v ← s.obj i
  destroy v { s with obj := upd s.obj i none }

/-- `clone(allocator)` into a new object `i`; lines 188-194. -/
def clone (i j : Nat) (s : St α) : Option (St α) :=
  match s.obj i with
  | some _ => none
  | none => do
    let o ← s.obj j
    let (b, s) := alloc o.size s
    let s ← copy o.base 0 b 0 o.size s
    return { s with obj := upd s.obj i (some ⟨b, o.size, o.size⟩) }

/-- `(*this)[k] = x`, `setVal`; lines 82-86, 158. -/
def set (i k : Nat) (x : α) (s : St α) : Option (St α) := do
  let v ← s.obj i
  store v.base k (some x) s

/-- `(*this)[k]`, `getVal`; lines 72-77, 158-162. -/
def get (i k : Nat) (s : St α) : Option (Option α) := do
  let v ← s.obj i
  load v.base k s

/-- One iteration of `VectorReorder`, gather; line 625. -/
def gatherStep (vs ordered : Nat) (m : Nat → Nat) (s : St α) (i : Nat) : Option (St α) := do
  let x ← load vs (m i) s
  store ordered i x s

/-- `reorder` by gathering (`newV[i] = v[m i]`); lines 629-649.  The loop is run in order (the
iterations write different cells and read only `vs`). -/
def reorder (i : Nat) (m : Nat → Nat) (s : St α) : Option (St α) := do
  let v ← s.obj i
  let (b, s) := alloc v.cap s
  let s ← (List.range v.size).foldlM (gatherStep v.base b m) s
  let (_, s) := alloc 0 s
  destroy v { s with obj := upd s.obj i (some ⟨b, v.cap, v.cap⟩) }

/-- Calls a client can make. -/
inductive Op (α : Type)
  | ctor (i n : Nat)
  | dtor (i : Nat)
  | copyCtor (i j : Nat)
  | copyAssign (i j : Nat)
  | moveCtor (i j : Nat)
  | moveAssign (i j : Nat)
  | clone (i j : Nat)
  | swap (i j : Nat)
  | resize (i n al : Nat) (ch : Option α)
  | push (i : Nat) (x : α)
  | pushOwn (i k : Nat)
  | append (i j : Nat)
  | set (i k : Nat) (x : α)
  | reorder (i : Nat) (m : Nat → Nat)

def step (s : St α) : Op α → Option (St α)
  | .ctor i n => ctor i n s
  | .dtor i => dtor i s
  | .copyCtor i j => copyCtor i j s
  | .copyAssign i j => copyAssign i j s
  | .moveCtor i j => moveCtor i j s
  | .moveAssign i j => moveAssign i j s
  | .clone i j => clone i j s
  | .swap i j => swap i j s
  | .resize i n al ch => resize i n al ch s
  | .push i x => push i x s
  | .pushOwn i k => pushOwn i k s
  | .append i j => append i j s
  | .set i k x => set i k x s
  | .reorder i m => reorder i m s

end Verif.Vector
