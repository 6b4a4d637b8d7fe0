import Verif.Model.GridReorder

/-!
Model of `AdaptiveGrid::complementTopo`, `include/zensim/geometry/AdaptiveGrid.hpp` lines 370-399 and 1843-1955 (line numbers refer to this
file), with `bht::resize` and concurrent insertion (`Verif.Model.Bht`) and `Vector::resize` (`container/Vector.hpp`, "VE").

* The outcomes of a call are a set, as in `Verif.Model.GridReorder`.
* The result of `insert` is not checked (line 375), neither is the flag of the table; the model carries on likewise.
* `TileVector::resize` enlarges a list of tiles; its capacity does not matter here.
* `childOffset.resize` gives any offsets; the old ones are not read any more, `reorder` writes all of them.
* `memset` to zero gives words without set bits, and the value `zero` in cells.
-/
namespace Verif.Grid

open Verif.BitMask (W)

variable {V α : Type}

/-- The call has returned. -/
def returned : Bht.Pc → Bool
  | .present => true
  | .failed => true
  | .near _ _ => true
  | .ret _ _ => true
  | _ => false

/-- `N` calls of `insert`, in any interleaving. -/
def calls (c : Bht.Cfg Coord) (task : Nat → Bht.Task Coord) (N : Nat) (s : Bht.St Coord) : Run (Bht.St Coord) := fun o =>
  ∃ sched : List (Nat × Bool), (∀ x ∈ sched, x.1 < N) ∧
    match Bht.run c task s sched with
    | none => o = .bad
    | some s' => (∀ t < N, returned (s'.pc t) = true) ∧ o = .ok s'

/-- `table.resize(pol, n)`, `container/Bht.hpp` lines 328-340. -/
def growTable (next2pow : Nat → Nat) (n : Nat) (c : Bht.Cfg Coord) (s : Bht.St Coord) : Run (Bht.Cfg Coord × Bht.St Coord) :=
  let size := Bht.evaluateTableSize next2pow c.B n
  if size ≤ c.size then return (c, s)
  else do
    let c' := { c with nb := size / c.B }
    let indices ← pick fun _ : Nat → Nat => True
    let s' ← calls c' (Bht.resizeTask s.active) s.cnt (c'.empty s.cnt s.active indices)
    return (c', s')

/-- `insert(key t)` for each `t < N`. -/
def insertKeys (c : Bht.Cfg Coord) (key : Nat → Coord) (N : Nat) (s : Bht.St Coord) : Run (Bht.St Coord) :=
  calls c (fun t => { key := key t, given := none, enqueue := true }) N { s with pc := fun _ => .start }

/-- `Vector::resize(n)`, VE 228-256 and 407-413; new elements have any value. -/
def Vec.resize (n : Nat) (v : Vec α) : Run (Vec α) :=
  if n < v.data.length then return ⟨v.data.take n, v.cap⟩
  else do
    let fresh ← pick fun d : List α => d.length = n - v.data.length
    return ⟨v.data ++ fresh, if v.cap < n then max n (v.cap + v.cap / 2) else v.cap⟩

/-- `grid.resize(n * block_size)`: new tiles hold any values. -/
def resizeTiles (n : Nat) (tiles : List (List (List V))) : Run (List (List (List V))) :=
  if n < tiles.length then return tiles.take n
  else do
    let fresh ← pick fun d : List (List (List V)) => d.length = n - tiles.length
    return tiles ++ fresh

/-- `memset` of the elements from number `prev`. -/
def zeroFrom (prev : Nat) (z : α) (xs : List α) : List α := xs.take prev ++ List.replicate (xs.length - prev) z

/-- `bit_mask` of `n` bits, all off. -/
def zeroMask (n : Nat) : List W := List.replicate (BitMask.wordCount n) 0#64

/-- `get_hierarchy_size<I>()` and `get_tile_size<I>()`, lines 105-110 and 125-130. -/
def hierSize (lay : Layout) (dim i : Nat) : Nat := (2 ^ lay.hierBits i) ^ dim
def tileSize (lay : Layout) (dim i : Nat) : Nat := (2 ^ lay.tileBits i) ^ dim

/-- A tile of `chns` channels of level `i`. -/
def zeroTile (lay : Layout) (dim i chns : Nat) (zero : V) : List (List V) := List.replicate chns (List.replicate (tileSize lay dim i) zero)

/-- The loop of lines 391-396, `n` iterations from bit `b` and offset `o` on. -/
def maskLoop (size : Nat) (has : Nat → Bool) : Nat → Nat → Nat → W → W
  | 0, _, _, m => m
  | n + 1, b, o, m => if o < size then maskLoop size has n (b + 1) (o + 1) (if has o then m ||| (1#64 <<< b) else m) else m

/-- `_update_topo_update_childmask`, lines 378-399, for the word `k` of all masks of level `i + 1`. -/
def maskTask (lay : Layout) (dim i : Nat) (lc : Level V) (origin : Nat → Coord) (data : List (List W)) (k : Nat) : Option (List (List W)) :=
  let size := hierSize lay dim (i + 1)
  let words := BitMask.wordCount size
  let bno := k / words
  let w := k % words
  let has := fun o => (lc.find (addCoord (origin bno) (hierCoord lay (i + 1) dim (BitVec.ofNat 32 o)))).isSome
  data[bno]?.bind fun m => if w < m.length then some (data.set bno (m.set w (maskLoop size has 64 0 (w * 64) 0#64))) else none

/-- What the code gets from elsewhere: `next_2pow`, the number of channels, the value with all bytes zero. -/
structure Topo (V : Type) where
  next2pow : Nat → Nat
  chns : Nat
  zero : V

/-- `complementParentTopo(wrapv<i>{})`, lines 1857-1950. -/
def complementLevel (p : Topo V) (g : Grid V) (i : Nat) : Run (Grid V) := do
  let lc ← g.level i
  let lp ← g.level (i + 1)
  let prev := lp.tab.cnt
  let r ← growTable p.next2pow (prev + lc.tab.cnt) lp.cfg lp.tab
  let tab ← insertKeys r.1 (fun t => coordToKey g.lay (i + 1) (lc.tab.active t)) lc.tab.cnt r.2
  let n := tab.cnt
  let valueMask ← lp.valueMask.resize n
  let childMask ← lp.childMask.resize n
  let childOffset ← pick fun d : List Nat => d.length = n + 1
  let tiles ← resizeTiles n lp.tiles
  let childData := zeroFrom prev (zeroMask (hierSize g.lay g.dim (i + 1))) childMask.data
  let childData ← launch (n * BitMask.wordCount (hierSize g.lay g.dim (i + 1))) (maskTask g.lay g.dim i lc tab.active) childData
  return g.setLevel (i + 1)
    { cfg := r.1, tab := tab
      tiles := zeroFrom prev (zeroTile g.lay g.dim (i + 1) p.chns p.zero) tiles
      valueMask := ⟨zeroFrom prev (zeroMask (tileSize g.lay g.dim (i + 1))) valueMask.data, valueMask.cap⟩
      childMask := ⟨childData, childMask.cap⟩
      childOffset := childOffset }

/-- Line 1951: the levels above level 0, above level 1, ..., below level `n`. -/
def complementUp (p : Topo V) (g : Grid V) : Nat → Run (Grid V)
  | 0 => return g
  | n + 1 => do complementLevel p (← complementUp p g n) n

/-- `complementTopo(pol)`, lines 1843-1955. -/
def complementTopo (p : Topo V) (code : Coord → Nat) (g : Grid V) : Run (Grid V) := do
  reorder code (← complementUp p g g.top)

end Verif.Grid
