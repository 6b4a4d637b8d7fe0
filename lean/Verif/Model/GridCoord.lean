/-!
Model of the coordinates of adaptive grids, `AdaptiveGridImpl`, `include/zensim/geometry/AdaptiveGrid.hpp` lines 24-169 and
283-324 (line numbers refer to this file), and of sparse grids, `include/zensim/geometry/SparseGrid.hpp` lines 266-309 and 407-412.

A coordinate is the list of its components, 32 bit integers (lines 26, 138).  The parameter packs `TileBits` and `ScalingBits` are lists.
-/
namespace Verif.Grid

abbrev Coord := List (BitVec 32)

/-- `TileBits`, `ScalingBits`, line 18. -/
structure Layout where
  tile : List Nat
  scaling : List Nat

/-- `num_levels`, line 48. -/
def Layout.levels (L : Layout) : Nat := L.tile.length

/-- `get_tile_bits<I>`, lines 58-64. -/
def Layout.tileBits (L : Layout) (i : Nat) : Nat := L.tile.getD i 0

/-- `get_scaling_bits<I>`, lines 78-84. -/
def Layout.scalingBits (L : Layout) (i : Nat) : Nat := L.scaling.getD i 0

/-- `get_hierarchy_bits<I>`, lines 86-92; a negative number does not pass the assertion of line 101, as zero. -/
def Layout.hierBits (L : Layout) : Nat → Nat
  | 0 => L.tileBits 0
  | i + 1 => L.tileBits (i + 1) - (L.tileBits i - L.scalingBits i)

/-- `get_accum_hierarchy_bits<I>`, lines 94-100; `ebit`, line 167. -/
def Layout.ebit (L : Layout) (i : Nat) : Nat := ((List.range (i + 1)).map L.hierBits).sum

/-- `get_cell_bit_offset<I>`, lines 120-122; `sbit`, line 166. -/
def Layout.sbit (L : Layout) (i : Nat) : Nat := L.ebit i - L.tileBits i

/-- `get_end_bits<I - 1>`, lines 283-288. -/
def Layout.below (L : Layout) : Nat → Nat
  | 0 => 0
  | i + 1 => L.ebit i

/-- The assertions of lines 31-35 and 101-102; furthermore the bits of all levels fit into a coordinate and those of a tile into an
offset. -/
structure Layout.Valid (L : Layout) (dim : Nat) : Prop where
  some : 0 < L.levels
  same : L.scaling.length = L.tile.length
  scaling : ∀ i < L.levels, L.scalingBits i ≤ L.tileBits i
  hier : ∀ i < L.levels, 0 < L.hierBits i
  ebit : ∀ i < L.levels, L.ebit i < 31
  tile : ∀ i < L.levels, dim * L.tileBits i < 32

/-- `cell_mask`, line 168. -/
def cellMask (e : Nat) : BitVec 32 := (1#32 <<< e) - 1#32

/-- `c & Level<I>::origin_mask`, lines 169 and 291. -/
def keyOf (e : Nat) (c : Coord) : Coord := c.map (· &&& ~~~(cellMask e))

/-- `coord_to_key<I>`, lines 289-292. -/
def coordToKey (L : Layout) (i : Nat) (c : Coord) : Coord := keyOf (L.ebit i) c

/-- The loops of lines 295-300 and 304-308. -/
def flatten (e b s : Nat) : Coord → BitVec 32
  | [] => 0
  | x :: c => c.foldl (fun r x => (r <<< b) ||| ((x &&& cellMask e) >>> s)) ((x &&& cellMask e) >>> s)

/-- `coord_to_hierarchy_offset<I>`, lines 293-301. -/
def hierOffset (L : Layout) (i : Nat) (c : Coord) : BitVec 32 := flatten (L.ebit i) (L.hierBits i) (L.below i) c

/-- `coord_to_tile_offset<I>`, lines 302-309. -/
def tileOffset (L : Layout) (i : Nat) (c : Coord) : BitVec 32 := flatten (L.ebit i) (L.tileBits i) (L.sbit i) c

/-- The loops of lines 313-315 and 321-322, from the last component to the first. -/
def spread (b s : Nat) : Nat → BitVec 32 → Coord
  | 0, _ => []
  | d + 1, o => spread b s d (o >>> b) ++ [(o &&& cellMask b) <<< s]

/-- `hierarchy_offset_to_coord<I>`, lines 310-317. -/
def hierCoord (L : Layout) (i dim : Nat) (o : BitVec 32) : Coord := spread (L.hierBits i) (L.below i) dim o

/-- `tile_offset_to_coord<I>`, lines 318-324. -/
def tileCoord (L : Layout) (i dim : Nat) (o : BitVec 32) : Coord := spread (L.tileBits i) (L.sbit i) dim o

/-- Addition of coordinates. -/
def addCoord (a b : Coord) : Coord := List.zipWith (· + ·) a b

/-- `iCoord(bno, tileOffset)`, lines 1229-1233, for a block with the key `k`. -/
def iCoord (L : Layout) (i : Nat) (k : Coord) (o : BitVec 32) : Coord := addCoord k (tileCoord L i k.length o)

/-! ## Sparse grids

`SparseGrid.hpp`; the side length is `2 ^ b` (lines 36-37 there), `b < 31`. -/

/-- `local_offset_to_coord`, lines 266-271: signed division and remainder. -/
def localCoord (b : Nat) : Nat → BitVec 32 → Coord
  | 0, _ => []
  | d + 1, o => localCoord b d (o.sdiv (1#32 <<< b)) ++ [o.srem (1#32 <<< b)]

/-- `local_coord_to_offset`, lines 272-283. -/
def localOffset (b : Nat) : Coord → BitVec 32
  | [] => 0
  | x :: c => c.foldl (fun r x => r * (1#32 <<< b) + x) x

/-- `global_coord_to_local_offset`, lines 284-297: the first component is not masked (the assertion of line 291 fails for every side
length above one, so that the function does not compile then). -/
def globalLocalOffset (b : Nat) : Coord → BitVec 32
  | [] => 0
  | x :: c => c.foldl (fun r x => r * (1#32 <<< b) + (x &&& ((1#32 <<< b) - 1#32))) x

/-- The cell and the block in `decomposeCoord`, lines 302-309: `blockid` is the key that is looked up. -/
def cellId (b : Nat) (c : Coord) : Coord := c.map (· &&& ((1#32 <<< b) - 1#32))
def blockId (b : Nat) (c : Coord) : Coord := List.zipWith (· - ·) c (cellId b c)

end Verif.Grid
