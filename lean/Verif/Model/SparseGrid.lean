import Verif.Model.AdaptiveGrid

/-!
Model of looking up values in sparse grids, `include/zensim/geometry/SparseGrid.hpp` (line numbers refer to this file), also through an
accessor with one record, `include/zensim/math/curve/InterpolationKernel.hpp` lines 574-704 ("IK").

The hash table is the `bht` of `Verif.Model.Bht`; the storage is as in `Verif.Model.AdaptiveGrid`: tiles, their channels, their cells; an access
outside is the outcome `none` (undefined behaviour).  Only one channel is read (`IsVec` is false).
-/
namespace Verif.SparseGrid

open Verif.Grid

/-- `_table`, `_grid` and `_background`, lines 184-187; the side length is `2 ^ b`. -/
structure SGrid (V : Type) where
  b : Nat
  dim : Nat
  cfg : Bht.Cfg Coord
  tab : Bht.St Coord
  tiles : List (List (List V))
  background : V

variable {V : Type}

/-- `_table.query(c)`; `none` is `sentinel_v`. -/
def SGrid.find (g : SGrid V) (k : Coord) : Option Nat := Bht.query g.cfg g.tab k

/-- `decomposeCoord`, lines 302-309. -/
def decompose (g : SGrid V) (c : Coord) : Option Nat × Nat := (g.find (blockId g.b c), (localOffset g.b (cellId g.b c)).toNat)

/-- `_grid(chn, blockno, cellno)` or `_grid.tile(bno)(chn, cno)`. -/
def SGrid.read (g : SGrid V) (chn bno cno : Nat) : Option V := g.tiles[bno]?.bind fun t => t[chn]?.bind fun ch => ch[cno]?

/-- `valueOr(chn, blockno, cellno, defaultVal)`, lines 340-344. -/
def valueAt (g : SGrid V) (chn : Nat) (bno : Option Nat) (cno : Nat) (default : V) : Option V :=
  match bno with
  | none => some default
  | some b => g.read chn b cno

/-- `valueOr(false_c, chn, indexCoord, defaultVal)`, lines 345-352. -/
def valueOr (g : SGrid V) (chn : Nat) (c : Coord) (default : V) : Option V := valueAt g chn (decompose g c).1 (decompose g c).2 default

/-- `++coord[f]`; the largest number wraps around here. -/
def next (f : Nat) (c : Coord) : Coord := c.modify f (· + 1#32)

/-- `valueOr(true_c, chn, indexCoord, orientation, defaultVal)`, lines 353-364. -/
def valueOrFace (g : SGrid V) (chn : Nat) (c : Coord) (orientation : Nat) (default : V) : Option V :=
  let f := orientation % (g.dim + g.dim)
  valueOr g chn (if g.dim ≤ f then next (f - g.dim) c else c) default

/-- The record of an accessor: the key and the number of a block. -/
abbrev Record := Coord × Option Nat

/-- A new accessor, IK lines 593-601. -/
def emptyRecord (dim : Nat) : Record := (List.replicate dim 0x7fffffff#32, none)

/-- `probeValueAndCache` from line 326 on: the block is looked up (again), then remembered. -/
def readAndCache (g : SGrid V) (chn : Nat) (c : Coord) : Option (Record × Bool × V) :=
  (decompose g c).1.bind fun b => (g.read chn b (decompose g c).2).map fun v => ((keyOf g.b c, some b), true, v)

/-- `probeValueAndCache` with `RequireHash`, lines 310-325. -/
def probeAndCache (g : SGrid V) (chn : Nat) (c : Coord) (r : Record) : Option (Record × Bool × V) :=
  match g.find (keyOf g.b c) with
  | none => some (r, false, g.background)
  | some _ => readAndCache g chn c

/-- `probeValue(chn, coord, val)` of an accessor, IK lines 656-671 and 690-699. -/
def accProbe (g : SGrid V) (chn : Nat) (c : Coord) (r : Record) : Option (Record × Bool × V) :=
  if keyOf g.b c == r.1 then readAndCache g chn c else probeAndCache g chn c r

/-- Several calls on one accessor. -/
def accRun (g : SGrid V) : Record → List (Nat × Coord) → Option (List (Bool × V))
  | _, [] => some []
  | r, q :: qs => (accProbe g q.1 q.2 r).bind fun s => (accRun g s.1 qs).map (s.2 :: ·)

end Verif.SparseGrid
