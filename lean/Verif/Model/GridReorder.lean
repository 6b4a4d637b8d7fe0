import Verif.Model.AdaptiveGrid
import Verif.Model.SparseBuild

/-!
Model of `AdaptiveGrid::reorder`, `include/zensim/geometry/AdaptiveGrid.hpp` lines 541-639 (line numbers refer to this file), and of the
functions that it calls: `bht::reorder` (`container/Bht.hpp`, "BH"), `Vector::reorder` (`container/Vector.hpp`, "VE") and
`TileVector::reorderTiles` (`container/TileVector.hpp`, "TV").

* The outcomes of a call are a set, because of the order of tasks and of the contents of fresh memory.
* The tasks of a kernel run in any order, each at once: their writes go to cells that no other task accesses if the map is a permutation.
* `reorderTiles` copies single cells (TV 648-663); here a tile is copied at once.
* `SortGridData` is true, memory spaces match.
-/
namespace Verif.Grid

open Verif.BitMask (W)

/-- How a call ends: with a result, an exception or undefined behaviour. -/
inductive Out (α : Type) where
  | ok (a : α)
  | throw
  | bad

/-- The possible outcomes of a call. -/
def Run (α : Type) := Out α → Prop

def Run.pure {α : Type} (a : α) : Run α := fun o => o = .ok a

def Run.bind {α β : Type} (m : Run α) (f : α → Run β) : Run β := fun o =>
  (∃ a, m (.ok a) ∧ f a o) ∨ (m .throw ∧ o = .throw) ∨ (m .bad ∧ o = .bad)

instance : Monad Run where
  pure := Run.pure
  bind := Run.bind

/-- Any value with a property. -/
def pick {α : Type} (p : α → Prop) : Run α := fun o => ∃ a, o = .ok a ∧ p a

/-- `none` is undefined behaviour. -/
def ofOption {α : Type} : Option α → Run α
  | some a => Run.pure a
  | none => fun o => o = .bad

/-- `throw std::runtime_error(...)`. -/
def throwing {α : Type} : Run α := fun o => o = .throw

/-- `pol(range(n), task)`: all tasks in some order. -/
def launch {σ : Type} (n : Nat) (task : σ → Nat → Option σ) (s : σ) : Run σ := do
  let order ← pick fun o : List Nat => o.Perm (List.range n)
  ofOption (order.foldlM task s)

/-- Where element `i` of a map comes from and goes to: with `Scatter` from `i` to `map[i]`, else from `map[i]` to `i`; VE 622-625. -/
def route (scatter : Bool) (map : List Nat) (i : Nat) : Option (Nat × Nat) :=
  map[i]?.map fun j => if scatter then (i, j) else (j, i)

variable {V α : Type}

/-- `VectorReorder`, VE 617-628; `TileVectorTileReorder`, TV 641-666. -/
def copyTask (scatter : Bool) (map : List Nat) (src : List α) (out : List α) (i : Nat) : Option (List α) :=
  (route scatter map i).bind fun r => src[r.1]?.bind fun x => if r.2 < out.length then some (out.set r.2 x) else none

/-- `Vector::reorder`, VE 629-649: the new vector has as many elements as the old one has capacity. -/
def Vec.reorder (scatter : Bool) (map : List Nat) (v : Vec α) : Run (Vec α) :=
  if map.length ≠ v.data.length then throwing
  else do
    let fresh ← pick fun d : List α => d.length = v.cap
    let out ← launch map.length (copyTask scatter map v.data) fresh
    return ⟨out, v.cap⟩

/-- `TileVector::reorderTiles`, TV 667-691. -/
def reorderTiles (scatter : Bool) (map : List Nat) (tiles : List (List (List V))) : Run (List (List (List V))) :=
  if map.length ≠ tiles.length then throwing
  else do
    let fresh ← pick fun d : List (List (List V)) => d.length = tiles.length
    launch map.length (copyTask scatter map tiles) fresh

/-- What the tasks of `bht::reorder` write: the new keys, the indices of the slots, the flag. -/
structure Remap where
  keys : Nat → Coord
  indices : Nat → Nat
  success : Bool

/-- `ReorderBht`, BH 342-376; `query(key, false_c)` is the slot. -/
def remapTask (scatter : Bool) (map : List Nat) (c : Bht.Cfg Coord) (s : Bht.St Coord) (r : Remap) (i : Nat) : Option Remap :=
  (route scatter map i).bind fun p =>
    if p.1 < c.size ∧ p.2 < c.size then
      let key := s.active p.1
      match Bht.slotOf c s key with
      | some a => some { r with keys := Bht.upd r.keys p.2 key, indices := Bht.upd r.indices a p.2 }
      | none => some { r with keys := Bht.upd r.keys p.2 key, success := false }
    else none

/-- `bht::reorder`, BH 377-400. -/
def reorderTable (scatter : Bool) (map : List Nat) (c : Bht.Cfg Coord) (s : Bht.St Coord) : Run (Bht.St Coord) :=
  if map.length ≠ s.cnt then throwing
  else do
    let fresh ← pick fun _ : Nat → Coord => True
    let r ← launch s.cnt (remapTask scatter map c s) ⟨fresh, s.indices, s.success⟩
    return { s with active := r.keys, indices := r.indices, success := r.success }

/-- Lines 596-600 and 629-633. -/
def Level.reorder (scatter : Bool) (map : List Nat) (l : Level V) : Run (Level V) := do
  let tab ← reorderTable scatter map l.cfg l.tab
  let tiles ← reorderTiles scatter map l.tiles
  let valueMask ← l.valueMask.reorder scatter map
  let childMask ← l.childMask.reorder scatter map
  return { l with tab := tab, tiles := tiles, valueMask := valueMask, childMask := childMask }

/-- Lines 586-594: the blocks in ascending order of a code of their keys; `radix_sort_pair` as specified. -/
def sortedBlocks (code : Coord → Nat) (l : Level V) : Run (List Nat) :=
  pick fun p => p.Perm (List.range l.tab.cnt) ∧ p.Pairwise fun a b => code (l.tab.active a) ≤ code (l.tab.active b)

/-- Lines 603-606: counts for the masks that there are, other counts keep what the memory held; then the scan, which overwrites the first
`nbs + 1` offsets. -/
def histogram (l : Level V) : Run (Level V) := do
  let counts ← pick fun n : List Nat =>
    n.length = l.tab.cnt + 1 ∧ ∀ b m, b ≤ l.tab.cnt → l.childMask.data[b]? = some m → n[b]? = some (BitMask.countOn m)
  let offsets ← pick (Sparse.ExScan counts)
  if l.childOffset.length < offsets.length then ofOption none
  else return { l with childOffset := offsets ++ l.childOffset.drop offsets.length }

/-- `_reorder_locate_children<I>`, lines 556-567, for the child with the key `c`. -/
def locate (lay : Layout) (i : Nat) (l : Level V) (c : Coord) : Option Nat :=
  (l.find (coordToKey lay i c)).bind fun p => l.childNo p (hierOffset lay i c).toNat

/-- Lines 618-623: each task writes its own element. -/
def locateAll (lay : Layout) (i : Nat) (l lc : Level V) : Run (List Nat) :=
  ofOption ((List.range lc.tab.cnt).mapM fun b => locate lay i l (lc.tab.active b))

/-- `level(wrapv<I>{})`; there is no other level. -/
def Grid.level (g : Grid V) (i : Nat) : Run (Level V) := ofOption g.levels[i]?

def Grid.setLevel (g : Grid V) (i : Nat) (l : Level V) : Grid V := { g with levels := g.levels.set i l }

/-- `reorder(pol, true_c, wrapv<i + 1>{})`, lines 602-638: the part after the sorting of the coarsest level. -/
def reorderBelow (g : Grid V) : Nat → Run (Grid V)
  | 0 => return g
  | i + 1 => do
    let l ← histogram (← g.level (i + 1))
    let lc ← g.level i
    let dsts ← locateAll g.lay (i + 1) l lc
    let lc ← lc.reorder true dsts
    reorderBelow ((g.setLevel (i + 1) l).setLevel i lc) i

/-- `reorder(pol)`, lines 568-639; `code` is the Morton code of lines 544-545. -/
def reorder (code : Coord → Nat) (g : Grid V) : Run (Grid V) := do
  let l ← g.level g.top
  let map ← sortedBlocks code l
  let l ← l.reorder false map
  reorderBelow (g.setLevel g.top l) g.top

end Verif.Grid
