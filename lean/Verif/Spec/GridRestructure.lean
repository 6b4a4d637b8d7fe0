import Verif.Model.GridRestructure
import Verif.Spec.GridCover

/-! What `restructure` is to do: active cells keep their values, and nothing else becomes active. -/
namespace Verif.Grid

variable {V : Type}

/-- Storage of the right size: `chns` channels, a cell and a bit for each offset. -/
def Full (chns : Nat) (g : Grid V) : Prop :=
  ∀ (i : Nat) l, g.levels[i]? = some l →
    (∀ (b : Nat) t, l.tiles[b]? = some t → t.length = chns ∧ ∀ ch ∈ t, ch.length = (2 ^ g.lay.tileBits i) ^ g.dim)
    ∧ ∀ (b : Nat) m, b < l.tab.cnt → l.valueMask.data[b]? = some m → m.length = BitMask.wordCount ((2 ^ g.lay.tileBits i) ^ g.dim)

/-- The source: a consistent grid, ordered, with storage of the right size. -/
structure Source (p : Topo V) (g : Grid V) : Prop where
  consistent : Consistent g
  ordered : Ordered g
  full : Full p.chns g

/-- Level `i` has a block around `c`, in which the cell of `c` is active. -/
def ActiveAt (g : Grid V) (i : Nat) (c : Coord) : Prop :=
  ∃ l b m, BlockAt g i c l b ∧ l.valueMask.data[b]? = some m ∧ BitMask.bit m (tileOffset g.lay i c).toNat = true

/-- Cells of the source fit into blocks of the target. -/
def Layout.Holds (src dst : Layout) : Prop := ∀ i < src.levels, src.sbit i ≤ dst.ebit (dst.closest (src.sbit i))

/-- Blocks of the target below the level of a cell are no larger than the blocks of the source below it. -/
def Layout.Spares (src dst : Layout) : Prop := ∀ i, i + 1 < src.levels → ∀ j < dst.closest (src.sbit (i + 1)), dst.ebit j ≤ src.ebit i

/-- The parameters of the tables of the target. -/
structure Tables (dim : Nat) (lay : Layout) (cfgs : Nat → Bht.Cfg Coord) : Prop where
  B : ∀ j < lay.levels, 2 ≤ (cfgs j).B
  hole : ∀ j < lay.levels, (cfgs j).hole = List.replicate dim 0x3f3f3f3f#32

/-- No flag reports a refused insertion. -/
def Unrefused (g : Grid V) : Prop := ∀ l ∈ g.levels, l.tab.success = true

/-- No insertion into the tables of the target is refused, whatever the schedule. -/
structure Steady (p : Topo V) (g d : Grid V) : Prop where
  reserve : ∀ n < g.lay.levels, ∀ d1 d2, hashUp p g d n (.ok d1) → reserveLevel p g d1 n (.ok d2) → Unrefused d2
  fill : ∀ n ≤ g.lay.levels, ∀ d1, hashUp p g d n (.ok d1) → Unrefused d1

/-- The number of active cells of the levels below `n`. -/
def cellsTo (g : Grid V) (n : Nat) : Nat := ((List.range n).map fun i => (g.levels[i]?.bind (activeCells g.lay g.dim i)).elim 0 List.length).sum

/-- So few active cells that no insertion can be refused. -/
structure FewCells (p : Topo V) (g : Grid V) (lay : Layout) (cfgs : Nat → Bht.Cfg Coord) : Prop where
  B : ∀ j < lay.levels, (cfgs j).B = 16
  width : ∀ j < lay.levels, 32 ≤ (cfgs j).width
  few : cellsTo g g.lay.levels ≤ 12
  size : ∀ (i : Nat) l, g.levels[i]? = some l → ∀ k ≤ 12, Bht.evaluateTableSize p.next2pow 16
    (k + l.tab.cnt * (2 ^ (g.lay.ebit i - lay.ebit (lay.closest (g.lay.sbit i)))) ^ g.dim) < 2 ^ 32
  pow : ∀ n, 0 < n → n < 16 → ∃ j ≤ 4, p.next2pow n = 2 ^ j

/-- The result of `restructure`. -/
structure Moved (p : Topo V) (g : Grid V) (dst : Layout) (g' : Grid V) : Prop where
  lay : g'.lay = dst
  dim : g'.dim = g.dim
  background : g'.background = g.background
  consistent : Consistent g'
  ordered : Ordered g'
  /-- What is inactive stays inactive. -/
  inactive : ∀ ordered, ∀ chn < p.chns, ∀ c : Coord, c.length = g.dim → ∀ v, probeValue g true chn c = some (false, v) →
    ∃ v', probeValue g' ordered chn c = some (false, v')
  /-- Without active cells around, there is no block. -/
  blocks : ∀ j < dst.levels, ∀ c : Coord, c.length = g.dim → (∃ l b, BlockAt g' j c l b) →
    ∃ i < g.lay.levels, ∃ y : Coord, y.length = g.dim ∧ ActiveAt g i y ∧ coordToKey dst j y = coordToKey dst j c

/-- Active cells keep their values. -/
def Keeps (p : Topo V) (g g' : Grid V) : Prop :=
  ∀ ordered, ∀ chn < p.chns, ∀ c : Coord, c.length = g.dim → ∀ v, probeValue g true chn c = some (true, v) →
    probeValue g' ordered chn c = some (true, v)

end Verif.Grid
