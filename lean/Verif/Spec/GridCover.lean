import Verif.Model.GridTopo
import Verif.Spec.GridTopo
import Verif.Spec.BhtTable

/-! Which blocks of an adaptive grid lie in which, and what `complementTopo` is to do with it. -/
namespace Verif.Grid

variable {V : Type}

/-- A level before `complementTopo`: the table is intact, its keys are keys of the level, and there is storage for each block. -/
structure Level.Ready (lay : Layout) (dim i : Nat) (l : Level V) : Prop where
  B : 2 ≤ l.cfg.B
  hole : l.cfg.hole = List.replicate dim 0x3f3f3f3f#32
  sound : Bht.Sound l.cfg l.tab
  room : l.tab.cnt ≤ l.cfg.size
  length : ∀ b < l.tab.cnt, (l.tab.active b).length = dim
  aligned : ∀ b < l.tab.cnt, coordToKey lay i (l.tab.active b) = l.tab.active b
  tiles : l.tiles.length = l.tab.cnt
  values : l.tab.cnt ≤ l.valueMask.data.length
  valuesCap : l.valueMask.data.length ≤ l.valueMask.cap
  childs : l.tab.cnt ≤ l.childMask.data.length
  childsCap : l.childMask.data.length ≤ l.childMask.cap
  words : ∀ (b : Nat) m, b < l.tab.cnt → l.childMask.data[b]? = some m → m.length = BitMask.wordCount ((2 ^ lay.hierBits i) ^ dim)

/-- A grid before `complementTopo`: blocks need not have parents, child masks need not be right. -/
structure Ready (p : Topo V) (g : Grid V) : Prop where
  valid : g.lay.Valid g.dim
  dim : 0 < g.dim
  count : g.levels.length = g.lay.levels
  pow : ∀ n, n ≤ p.next2pow n
  level : ∀ (i : Nat) l, g.levels[i]? = some l → l.Ready g.lay g.dim i
  finest : ∀ l, g.levels[0]? = some l → l.Exact

/-- No insertion above the finest level was refused. -/
def Fits (g : Grid V) : Prop := ∀ j, 0 < j → ∀ l, g.levels[j]? = some l → l.tab.success = true

/-- So few blocks that no insertion can be refused. -/
structure Few (p : Topo V) (g : Grid V) : Prop where
  B : ∀ l ∈ g.levels, l.cfg.B = 16
  width : ∀ l ∈ g.levels, 32 ≤ l.cfg.width
  size : ∀ l ∈ g.levels, l.cfg.size < 2 ^ l.cfg.width
  success : ∀ l ∈ g.levels, l.tab.success = true
  few : (g.levels.map fun l => l.tab.cnt).sum < 16
  pow : ∀ n, 0 < n → n < 16 → ∃ j ≤ 4, p.next2pow n = 2 ^ j

/-- Level `j` has a block around `c`, with number `b`. -/
def BlockAt (g : Grid V) (j : Nat) (c : Coord) (l : Level V) (b : Nat) : Prop :=
  g.levels[j]? = some l ∧ b < l.tab.cnt ∧ l.tab.active b = coordToKey g.lay j c

/-- In the block of level `j` around `c` lies a block of the grid, of level `j` or finer. -/
def Covered (g : Grid V) (j : Nat) (c : Coord) : Prop :=
  ∃ i ≤ j, ∃ l, g.levels[i]? = some l ∧ ∃ b < l.tab.cnt, coordToKey g.lay j (l.tab.active b) = coordToKey g.lay j c

/-- The grid after `complementTopo`. -/
structure Completed (p : Topo V) (g g' : Grid V) : Prop where
  lay : g'.lay = g.lay
  dim : g'.dim = g.dim
  background : g'.background = g.background
  consistent : Consistent g'
  ordered : Ordered g'
  /-- There are the blocks that contain blocks. -/
  blocks : ∀ j < g.lay.levels, ∀ c : Coord, c.length = g.dim → ((∃ l b, BlockAt g' j c l b) ↔ Covered g j c)
  /-- Nothing there: the background. -/
  none : ∀ ordered chn (c : Coord), c.length = g.dim → (∀ j < g.lay.levels, ¬ Covered g j c) →
    probeValue g' ordered chn c = some (false, g.background)
  /-- The finest block was there: its value. -/
  kept : ∀ ordered chn (c : Coord), c.length = g.dim → ∀ j < g.lay.levels, (∀ i < j, ¬ Covered g i c) → ∀ l b, BlockAt g j c l b →
    probeValue g' ordered chn c = l.value chn b (tileOffset g.lay j c).toNat
  /-- The finest block is new: inactive, zero. -/
  made : ∀ ordered chn (c : Coord), c.length = g.dim → chn < p.chns → ∀ j < g.lay.levels, (∀ i < j, ¬ Covered g i c) → Covered g j c →
    (∀ l b, ¬ BlockAt g j c l b) → probeValue g' ordered chn c = some (false, p.zero)

end Verif.Grid
