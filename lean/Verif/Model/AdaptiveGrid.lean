import Verif.Model.GridCoord
import Verif.Model.Bht
import Verif.Model.BitMask

/-!
Model of looking up values in adaptive grids, `include/zensim/geometry/AdaptiveGrid.hpp` (line numbers refer to this file), and of
accessors that remember blocks, `include/zensim/math/curve/InterpolationKernel.hpp` lines 574-704 ("IK").

* The hash table of a level is the `bht` of `Verif.Model.Bht`, the masks are those of `Verif.Model.BitMask`.
* A level of `TileVector` storage is a list of tiles, each the list of its channels, each the list of its cells; an access outside is the
  outcome `none` (undefined behaviour), as is one outside the other arrays.
* Only one channel is read (`T` is a number, `IsVec` is false).
* Levels are numbered from the finest, 0; block numbers do not overflow.
-/
namespace Verif.Grid

open Verif.BitMask (W)

/-- A `Vector`: its elements and its capacity. -/
structure Vec (α : Type) where
  data : List α
  cap : Nat

/-- `Level<I>`, lines 269-275. -/
structure Level (V : Type) where
  cfg : Bht.Cfg Coord
  tab : Bht.St Coord
  tiles : List (List (List V))
  valueMask : Vec (List W)
  childMask : Vec (List W)
  childOffset : List Nat

variable {V : Type}

/-- `table.query(c)`; `none` is `sentinel_v`. -/
def Level.find (l : Level V) (k : Coord) : Option Nat := Bht.query l.cfg l.tab k

/-- An adaptive grid: `_levels` and `_background`. -/
structure Grid (V : Type) where
  lay : Layout
  dim : Nat
  levels : List (Level V)
  background : V

/-- The coarsest level, `num_levels - 1`. -/
def Grid.top (g : Grid V) : Nat := g.lay.levels - 1

/-- `val = block(chn, n); return lev.valueMask[bno].isOn(n)`, lines 1064-1065, 1081-1085, 1115-1116, 1138-1139. -/
def Level.value (l : Level V) (chn bno n : Nat) : Option (Bool × V) :=
  l.tiles[bno]?.bind fun t => t[chn]?.bind fun ch => ch[n]?.bind fun v =>
    l.valueMask.data[bno]?.bind fun m => (BitMask.isOn m n).map fun b => (b, v)

/-- `lev.childMask[bno].isOn(n)`, lines 1059, 1121. -/
def Level.hasChild (l : Level V) (bno n : Nat) : Option Bool := l.childMask.data[bno]?.bind fun m => BitMask.isOn m n

/-- `lev.childOffset[bno] + lev.childMask[bno].countOffset(n)`, lines 1071, 1127. -/
def Level.childNo (l : Level V) (bno n : Nat) : Option Nat :=
  l.childOffset[bno]?.bind fun o => l.childMask.data[bno]?.bind fun m => (BitMask.countOffset m n).map (o + ·)

/-- Lines 1042-1052: the given block, or the one found in the table. -/
def Level.block (g : Grid V) (l : Level V) (i : Nat) (c : Coord) (bno : Option Nat) : Option Nat :=
  match bno with
  | some b => some b
  | none => l.find (coordToKey g.lay i c)

/-- `probeValue<Ordered>(chn, coord, val, bno)` from level `i`, lines 1034-1087: whether the value is active, and the value. -/
def probe (g : Grid V) (ordered : Bool) (chn : Nat) (c : Coord) : Nat → Option Nat → Option (Bool × V)
  | 0, bno => g.levels[0]?.bind fun l =>
    match l.block g 0 c bno with
    | none => some (false, g.background)
    | some b => l.value chn b (tileOffset g.lay 0 c).toNat
  | i + 1, bno => g.levels[i + 1]?.bind fun l =>
    match l.block g (i + 1) c bno with
    | none => some (false, g.background)
    | some b => (l.hasChild b (hierOffset g.lay (i + 1) c).toNat).bind fun on =>
      if on then
        if ordered then (l.childNo b (hierOffset g.lay (i + 1) c).toNat).bind fun b' => probe g ordered chn c i (some b')
        else probe g ordered chn c i none
      else l.value chn b (tileOffset g.lay (i + 1) c).toNat

/-- `probeValue<Ordered>(chn, coord, val)`. -/
def probeValue (g : Grid V) (ordered : Bool) (chn : Nat) (c : Coord) : Option (Bool × V) := probe g ordered chn c g.top none

/-- `valueOr(false_c, chn, indexCoord, defaultVal)`, lines 1151-1159. -/
def valueOr (g : Grid V) (chn : Nat) (c : Coord) (default : V) : Option V :=
  (probeValue g true chn c).map fun r => if r.1 then r.2 else default

/-- `value(false_c, chn, indexCoord)`, lines 1174-1179. -/
def value (g : Grid V) (chn : Nat) (c : Coord) : Option V := (probeValue g true chn c).map fun r => r.2

/-- `getValueLevel<Ordered>(coord, bno)` from level `i`, lines 968-994. -/
def valueLevel (g : Grid V) (ordered : Bool) (c : Coord) : Nat → Option Nat → Option Nat
  | 0, _ => some 0
  | i + 1, bno => g.levels[i + 1]?.bind fun l =>
    match l.block g (i + 1) c bno with
    | none => some (i + 1)
    | some b => (l.hasChild b (hierOffset g.lay (i + 1) c).toNat).bind fun on =>
      if on then
        if ordered then (l.childNo b (hierOffset g.lay (i + 1) c).toNat).bind fun b' => valueLevel g ordered c i (some b')
        else valueLevel g ordered c i none
      else some (i + 1)

/-! ## Accessors -/

/-- `_cache`: for each depth the key and the number of a block, IK lines 598-603; depth 0 is the coarsest level. -/
abbrev Cache := List (Coord × Option Nat)

/-- A new or cleared accessor with `depths` records, IK lines 593-601, 677-680. -/
def emptyCache (dim depths : Nat) : Cache := List.replicate depths (List.replicate dim 0x7fffffff#32, none)

/-- `acc.insert(coord, bno, wrapv<num_levels - 1 - I>{})`, IK lines 682-689. -/
def remember (g : Grid V) (cache : Cache) (i : Nat) (c : Coord) (bno : Nat) : Cache :=
  if g.top - i < cache.length then cache.set (g.top - i) (coordToKey g.lay i c, some bno) else cache

/-- `isHashed(coord, wrapv<D>{})`, IK lines 690-699. -/
def isHashed (g : Grid V) (cache : Cache) (d : Nat) (c : Coord) : Bool :=
  match cache[d]? with
  | none => false
  | some r => coordToKey g.lay (g.top - d) c == r.1

/-- `probeValueAndCache` with `Ordered`, from block `b` of level `i`, lines 1107-1142. -/
def descend (g : Grid V) (chn : Nat) (c : Coord) : Nat → Nat → Cache → Option (Cache × Bool × V)
  | 0, b, cache => g.levels[0]?.bind fun l =>
    (l.value chn b (tileOffset g.lay 0 c).toNat).map fun r => (remember g cache 0 c b, r)
  | i + 1, b, cache => g.levels[i + 1]?.bind fun l =>
    (l.hasChild b (hierOffset g.lay (i + 1) c).toNat).bind fun on =>
      if on then
        (l.childNo b (hierOffset g.lay (i + 1) c).toNat).bind fun b' => descend g chn c i b' (remember g cache (i + 1) c b)
      else (l.value chn b (tileOffset g.lay (i + 1) c).toNat).map fun r => (cache, r)

/-- The same with `RequireHash`, from the coarsest level, lines 1096-1106. -/
def lookUp (g : Grid V) (chn : Nat) (c : Coord) (cache : Cache) : Option (Cache × Bool × V) :=
  g.levels[g.top]?.bind fun l =>
    match l.find (coordToKey g.lay g.top c) with
    | none => some (cache, false, g.background)
    | some b => descend g chn c g.top b cache

/-- `probeValue(chn, coord, val, wrapv<D>{})` of an accessor, IK lines 656-671; a remembered `sentinel_v` is no block. -/
def accProbe (g : Grid V) (chn : Nat) (c : Coord) (cache : Cache) : Nat → Option (Cache × Bool × V)
  | 0 =>
    if isHashed g cache 0 c then cache[0]?.bind fun r => r.2.bind fun b => descend g chn c g.top b cache
    else lookUp g chn c cache
  | d + 1 =>
    if isHashed g cache (d + 1) c then cache[d + 1]?.bind fun r => r.2.bind fun b => descend g chn c (g.top - (d + 1)) b cache
    else accProbe g chn c cache d

/-- Several calls on one accessor. -/
def accRun (g : Grid V) : Cache → List (Nat × Coord) → Option (List (Bool × V))
  | _, [] => some []
  | cache, q :: qs => (accProbe g q.1 q.2 cache (cache.length - 1)).bind fun r => (accRun g r.1 qs).map (r.2 :: ·)

end Verif.Grid
