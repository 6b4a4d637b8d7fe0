import Verif.Model.AdaptiveGrid
import Verif.Proof.BitMask

/-! When the levels of an adaptive grid fit together. -/
namespace Verif.Grid

variable {V : Type}

/-- Level `i` by itself: the table finds exactly the keys that it lists, these are keys of the level, and there is storage for each block. -/
structure LevelOk (lay : Layout) (dim i : Nat) (l : Level V) : Prop where
  hole : l.cfg.hole = List.replicate dim 0x3f3f3f3f#32
  room : l.tab.cnt ≤ l.cfg.size
  find : ∀ k b, k ≠ l.cfg.hole → (l.find k = some b ↔ b < l.tab.cnt ∧ l.tab.active b = k)
  length : ∀ b < l.tab.cnt, (l.tab.active b).length = dim
  aligned : ∀ b < l.tab.cnt, coordToKey lay i (l.tab.active b) = l.tab.active b
  tiles : l.tiles.length = l.tab.cnt
  values : l.tab.cnt ≤ l.valueMask.data.length
  valuesCap : l.valueMask.data.length ≤ l.valueMask.cap
  childs : l.tab.cnt ≤ l.childMask.data.length
  childsCap : l.childMask.data.length ≤ l.childMask.cap

/-- A level and the next finer one, `i`: there are offsets, a mask has a bit for each child, set exactly if the child exists, and no others;
each block of the finer level has its parent. -/
structure LinkOk (lay : Layout) (dim i : Nat) (l lc : Level V) : Prop where
  offsets : l.tab.cnt < l.childOffset.length
  words : ∀ (b : Nat) m, b < l.tab.cnt → l.childMask.data[b]? = some m → m.length = BitMask.wordCount ((2 ^ lay.hierBits (i + 1)) ^ dim)
  clean : ∀ (b : Nat) m, b < l.tab.cnt → l.childMask.data[b]? = some m → ∀ n, (2 ^ lay.hierBits (i + 1)) ^ dim ≤ n → BitMask.bit m n = false
  child : ∀ c : Coord, c.length = dim → ∀ (b : Nat) m, b < l.tab.cnt → l.tab.active b = coordToKey lay (i + 1) c → l.childMask.data[b]? = some m →
    (BitMask.bit m (hierOffset lay (i + 1) c).toNat = true ↔ ∃ b' < lc.tab.cnt, lc.tab.active b' = coordToKey lay i c)
  parent : ∀ b < lc.tab.cnt, ∃ p < l.tab.cnt, l.tab.active p = coordToKey lay (i + 1) (lc.tab.active b)

/-- A grid whose levels fit together. -/
structure Consistent (g : Grid V) : Prop where
  valid : g.lay.Valid g.dim
  dim : 0 < g.dim
  count : g.levels.length = g.lay.levels
  level : ∀ (i : Nat) l, g.levels[i]? = some l → LevelOk g.lay g.dim i l
  link : ∀ (i : Nat) l lc, g.levels[i + 1]? = some l → g.levels[i]? = some lc → LinkOk g.lay g.dim i l lc

/-- No masks besides those of the blocks. -/
def Level.Exact (l : Level V) : Prop := l.valueMask.data.length = l.tab.cnt ∧ l.childMask.data.length = l.tab.cnt

/-- Masks without spare capacity. -/
def Level.Tight (l : Level V) : Prop := l.valueMask.cap = l.tab.cnt ∧ l.childMask.cap = l.tab.cnt

/-- The children of each block are numbered one after the other, in the order of their offsets: the offset of the first one and the number of
children before lead to the child. -/
def Ordered (g : Grid V) : Prop :=
  ∀ (i : Nat) l lc, g.levels[i + 1]? = some l → g.levels[i]? = some lc → ∀ c : Coord, c.length = g.dim → ∀ p b,
    l.find (coordToKey g.lay (i + 1) c) = some p → lc.find (coordToKey g.lay i c) = some b →
    l.childNo p (hierOffset g.lay (i + 1) c).toNat = some b

end Verif.Grid
