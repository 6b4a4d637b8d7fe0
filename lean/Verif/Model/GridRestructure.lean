import Verif.Model.GridTopo

/-!
Model of `AdaptiveGrid::restructure`, `include/zensim/geometry/AdaptiveGrid.hpp` lines 175-182, 201-211, 422-447, 459-483 and 1726-1834 (line numbers
refer to this file): the active cells of a grid are brought into a grid with another layout.

* The outcomes of a call are a set, as in `Verif.Model.GridReorder`.  The target is another grid with the same type of values; its `dim` is that
  of the source (line 1731).
* Of the tasks that register cells (line 1787) only those for active cells insert a key; these run in any interleaving.
* A task that assigns values (line 1807) is taken as one step: it alone writes its cell, and sets its bit of the mask atomically.
* The background is assigned before `complementTopo`, which does not read it, instead of after it (line 1831).  The transform is not modelled.
-/
namespace Verif.Grid

open Verif.BitMask (W)

variable {V : Type}

/-- `closest_child_level` from level `i` on, lines 422-430. -/
def closestChild (lay : Layout) (bits : Nat) : Nat → Nat
  | 0 => 0
  | i + 1 => if lay.sbit (i + 1) ≤ bits then i + 1 else closestChild lay bits i

def Layout.closest (lay : Layout) (bits : Nat) : Nat := closestChild lay bits (lay.levels - 1)

/-- Lines 438-443: the coordinate of the cell of task `k`, if it is active. -/
def activeCell (lay : Layout) (dim i : Nat) (l : Level V) (k : Nat) : Option (Option Coord) :=
  let bno := k / tileSize lay dim i
  let cno := k % tileSize lay dim i
  l.valueMask.data[bno]?.bind fun m => (BitMask.isOn m cno).map fun on =>
    if on then some (addCoord (l.tab.active bno) (tileCoord lay i dim (BitVec.ofNat 32 cno))) else none

/-- The active cells of a level. -/
def activeCells (lay : Layout) (dim i : Nat) (l : Level V) : Option (List Coord) :=
  ((List.range (l.tab.cnt * tileSize lay dim i)).mapM (activeCell lay dim i l)).map (List.filterMap id)

/-- `estDstNbs`, lines 1771-1779. -/
def estimate (g d : Grid V) (i : Nat) (l ld : Level V) : Nat :=
  ld.tab.cnt + l.tab.cnt * (2 ^ (g.lay.ebit i - d.lay.ebit (d.lay.closest (g.lay.sbit i)))) ^ g.dim

/-- Lines 1768-1780: the table of the target level is enlarged. -/
def reserveLevel (p : Topo V) (g d : Grid V) (i : Nat) : Run (Grid V) := do
  let l ← g.level i
  let ld ← d.level (d.lay.closest (g.lay.sbit i))
  let r ← growTable p.next2pow (estimate g d i l ld) ld.cfg ld.tab
  return d.setLevel (d.lay.closest (g.lay.sbit i)) { ld with cfg := r.1, tab := r.2 }

/-- Lines 1782-1788: the keys of the active cells are inserted. -/
def fillLevel (g d : Grid V) (i : Nat) : Run (Grid V) := do
  let l ← g.level i
  let ld ← d.level (d.lay.closest (g.lay.sbit i))
  let cells ← ofOption (activeCells g.lay g.dim i l)
  let tab ← insertKeys ld.cfg (fun t => coordToKey d.lay (d.lay.closest (g.lay.sbit i)) (cells.getD t [])) cells.length ld.tab
  return d.setLevel (d.lay.closest (g.lay.sbit i)) { ld with tab := tab }

/-- `hashTargetLevel` for the levels below `n`, line 1790. -/
def hashUp (p : Topo V) (g d : Grid V) : Nat → Run (Grid V)
  | 0 => return d
  | n + 1 => do fillLevel g (← reserveLevel p g (← hashUp p g d n) n) n

/-- `refitToPartition` and `defaultInitialize`, lines 201-211. -/
def refitLevel (p : Topo V) (lay : Layout) (dim j : Nat) (l : Level V) : Run (Level V) := do
  let n := l.tab.cnt
  let tiles ← resizeTiles n l.tiles
  let valueMask ← l.valueMask.resize n
  let childMask ← l.childMask.resize n
  let childOffset ← pick fun d : List Nat => d.length = n + 1
  return { l with
    tiles := zeroFrom 0 (zeroTile lay dim j p.chns p.zero) tiles
    valueMask := ⟨zeroFrom 0 (zeroMask (tileSize lay dim j)) valueMask.data, valueMask.cap⟩
    childMask := ⟨zeroFrom 0 (zeroMask (hierSize lay dim j)) childMask.data, childMask.cap⟩
    childOffset := childOffset }

/-- `block(d, cno) = val` for each channel, line 477. -/
def writeCell (cno : Nat) : List (List V) → List V → Option (List (List V))
  | [], [] => some []
  | ch :: t, v :: vs => if cno < ch.length then (writeCell cno t vs).map (ch.set cno v :: ·) else none
  | _, _ => none

/-- `_restructure_assign_values`, lines 459-483, for the cell `k` of level `j`; the accessor has a record for each level (line 930). -/
def assignTask (g : Grid V) (lay : Layout) (chns j : Nat) (origin : Nat → Coord) (s : List (List (List V)) × List (List W)) (k : Nat) :
    Option (List (List (List V)) × List (List W)) :=
  let bno := k / tileSize lay g.dim j
  let cno := k % tileSize lay g.dim j
  let coord := addCoord (origin bno) (tileCoord lay j g.dim (BitVec.ofNat 32 cno))
  (accRun g (emptyCache g.dim g.lay.levels) ((List.range chns).map fun d => (d, coord))).bind fun rs =>
    s.1[bno]?.bind fun t => (writeCell cno t (rs.map (·.2))).bind fun t' =>
      if rs.any (·.1) then s.2[bno]?.bind fun m => (BitMask.setOn m cno).map fun m' => (s.1.set bno t', s.2.set bno m')
      else some (s.1.set bno t', s.2)

/-- `buildTargetLevel`, lines 1801-1810. -/
def assignLevel (p : Topo V) (g : Grid V) (lay : Layout) (j : Nat) (l : Level V) : Run (Level V) := do
  let r ← launch (l.tab.cnt * tileSize lay g.dim j) (assignTask g lay p.chns j l.tab.active) (l.tiles, l.valueMask.data)
  return { l with tiles := r.1, valueMask := ⟨r.2, l.valueMask.cap⟩ }

/-- A step for the levels below `n`. -/
def eachLevel (f : Nat → Level V → Run (Level V)) (d : Grid V) : Nat → Run (Grid V)
  | 0 => return d
  | n + 1 => do
    let d ← eachLevel f d n
    let l ← d.level n
    return d.setLevel n (← f n l)

/-- A level without blocks, lines 1746 and 175-182; the table has no slots. -/
def freshLevel (c : Bht.Cfg Coord) (act : Nat → Coord) (indices : Nat → Nat) : Level V where
  cfg := { c with nb := 0 }
  tab := Bht.Cfg.empty { c with nb := 0 } 0 act indices
  tiles := []
  valueMask := ⟨[], 0⟩
  childMask := ⟨[], 0⟩
  childOffset := [0]

/-- The target with levels without blocks, lines 1743-1749; `cfgs` are the parameters of their tables. -/
def freshGrid (g : Grid V) (lay : Layout) (cfgs : Nat → Bht.Cfg Coord) (act : Nat → Coord) (indices : Nat → Nat) : Grid V where
  lay := lay
  dim := g.dim
  levels := (List.range lay.levels).map fun j => freshLevel (cfgs j) act indices
  background := g.background

/-- Lines 1754-1811: the target before its topology is completed. -/
def transfer (p : Topo V) (g d : Grid V) : Run (Grid V) := do
  let d ← hashUp p g d g.lay.levels
  let d ← eachLevel (refitLevel p d.lay g.dim) d d.lay.levels
  eachLevel (assignLevel p g d.lay) d d.lay.levels

/-- `restructure(pol, agDst)`, lines 1726-1834. -/
def restructure (p : Topo V) (code : Coord → Nat) (g : Grid V) (lay : Layout) (cfgs : Nat → Bht.Cfg Coord) : Run (Grid V) := do
  let act ← pick fun _ : Nat → Coord => True
  let indices ← pick fun _ : Nat → Nat => True
  complementTopo p code (← transfer p g (freshGrid g lay cfgs act indices))

end Verif.Grid
