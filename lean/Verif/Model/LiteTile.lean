/-!
Views of tiled vectors that are handed to compiled kernels, `/repo/include/zensim/py_interop/TileVectorView.hpp`.

Memory is the list of the cells that `_vector` points to; reading outside of it is `none`, as is reading the arrays of property offsets and
sizes outside of their `_N` entries. Addresses are computed modulo `2 ^ 64` as with `size_type`; `int` channels are converted to it first.
Not modelled: the types `TT` other than the value type, constness of the view, the comparison of `SmallString` (names are of a type with
decidable equality).
-/
namespace Verif.LiteTile

/-- Arithmetic of `size_type`. -/
def wrap (x : Nat) : Nat := x % 2 ^ 64

/-- Conversion of `channel_counter_type` to `size_type`. -/
def conv (c : Int) : Nat := (c % 2 ^ 64).toNat

/-- `TileVectorViewLite`, lines 8-21 and 129-130: cells before `off` are before `_vector`. -/
structure View (α : Type) where
  mem : List α
  off : Nat
  lane : Nat
  nch : Int
  within : Bool

/-- Lines 31-36, 44-49: the cell of `operator()(chn, i)`, relative to `_vector`. -/
def View.at {α} (v : View α) (chn : Int) (i : Nat) : Nat :=
  if v.within then wrap (wrap (conv chn * v.lane) + i)
  else wrap (wrap (wrap (wrap (i / v.lane * conv v.nch) + conv chn) * v.lane) + i % v.lane)

/-- Lines 56-60, 65-68: `operator()(chn, tileNo, localNo)`. -/
def View.at3 {α} (v : View α) (chn : Int) (tileNo localNo : Nat) : Nat :=
  wrap (wrap (wrap (wrap (tileNo * conv v.nch) + conv chn) * v.lane) + localNo)

/-- What is read at a cell. -/
def View.read {α} (v : View α) (a : Nat) : Option α := v.mem[v.off + a]?

/-- Lines 71-79: `tile(tileid)`. -/
def View.tile {α} (v : View α) (tileid : Nat) : View α :=
  { v with off := v.off + wrap (wrap (tileid * v.lane) * conv v.nch), within := true }

/-- Line 97: the loop of `pack`, `n` components to go. -/
def View.packGo {α} (v : View α) : Nat → Nat → Option (List α)
  | 0, _ => some []
  | n + 1, ptr => do
    let x ← v.read ptr
    let xs ← v.packGo n (ptr + v.lane)
    pure (x :: xs)

/-- Lines 86-99: `pack` of `n` components. -/
def View.pack {α} (v : View α) (n : Nat) (chn : Int) (i : Nat) : Option (List α) :=
  v.packGo n (v.at chn i)

/-- Lines 105-119: the cells that `tuple` of `n` components refers to. -/
def View.tuple {α} (v : View α) (n : Nat) (chn : Int) (i : Nat) : List Nat :=
  (List.range n).map fun k =>
    if v.within then wrap (wrap (wrap (conv chn + k) * v.lane) + i)
    else wrap (wrap (wrap (wrap (i / v.lane * conv v.nch) + wrap (conv chn + k)) * v.lane) + i % v.lane)

/-- `TileVectorNamedViewLite`, lines 133-157 and 283-286. -/
structure Named (ν α : Type) where
  base : View α
  names : List ν
  offsets : List Int
  sizes : List Int

/-- Lines 160-165: the loop of `propertyIndex` from entry `i` on. -/
def indexGo {ν} [DecidableEq ν] (p : ν) : List ν → Nat → Nat
  | [], i => i
  | n :: ns, i => if n = p then i else indexGo p ns (i + 1)

/-- Lines 160-165: `propertyIndex`. -/
def Named.index {ν α} [DecidableEq ν] (v : Named ν α) (p : ν) : Nat := indexGo p v.names 0

/-- Lines 166-168: `propertySize`. -/
def Named.size {ν α} [DecidableEq ν] (v : Named ν α) (p : ν) : Option Int := v.sizes[v.index p]?

/-- Lines 169-171: `propertyOffset`. -/
def Named.offset {ν α} [DecidableEq ν] (v : Named ν α) (p : ν) : Option Int := v.offsets[v.index p]?

/-- Lines 172-174: `hasProperty`. -/
def Named.has {ν α} [DecidableEq ν] (v : Named ν α) (p : ν) : Bool := v.index p != v.names.length

/-- Lines 181-198: `operator()(propName, chn, i)`. -/
def Named.at {ν α} [DecidableEq ν] (v : Named ν α) (p : ν) (chn : Int) (i : Nat) : Option Nat := do
  let o ← v.offsets[v.index p]?
  pure (v.base.at (o + chn) i)

/-- Lines 199-216: `operator()(propName, i)`. -/
def Named.at0 {ν α} [DecidableEq ν] (v : Named ν α) (p : ν) (i : Nat) : Option Nat := do
  let o ← v.offsets[v.index p]?
  pure (v.base.at o i)

/-- Lines 218-237: `tile` of a view with names. -/
def Named.tile {ν α} (v : Named ν α) (tileid : Nat) : Named ν α := { v with base := v.base.tile tileid }

/-- Lines 249-259: `pack(dim_c<n>, propName, chn, i)`; lines 239-248 are the case `chn = 0`. -/
def Named.pack {ν α} [DecidableEq ν] (v : Named ν α) (n : Nat) (p : ν) (chn : Int) (i : Nat) : Option (List α) := do
  let o ← v.offsets[v.index p]?
  v.base.pack n (o + chn) i

/-- Lines 271-281: `tuple(dim_c<n>, propName, chn, i)`; lines 261-270 are the case `chn = 0`. -/
def Named.tuple {ν α} [DecidableEq ν] (v : Named ν α) (n : Nat) (p : ν) (chn : Int) (i : Nat) : Option (List Nat) := do
  let o ← v.offsets[v.index p]?
  pure (v.base.tuple n (o + chn) i)

end Verif.LiteTile
