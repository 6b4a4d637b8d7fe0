import Verif.Model.SparseGrid
import Verif.Spec.GridCoord
import Verif.Spec.BhtTable

/-! What a sparse grid holds: cubes of `2 ^ b` cells in each direction, starting at the multiples of `2 ^ b`. -/
namespace Verif.SparseGrid

open Verif.Grid

variable {V : Type}

/-- An intact grid with `chns` channels: no call on its table is running, and there is storage for each of its blocks. -/
structure Ok (chns : Nat) (g : SGrid V) : Prop where
  side : 0 < g.b ∧ g.b < 31
  dim : 0 < g.dim
  bits : g.dim * g.b < 32
  B : 2 ≤ g.cfg.B
  hole : g.cfg.hole = List.replicate g.dim 0x3f3f3f3f#32
  sound : Bht.Sound g.cfg g.tab
  tiles : g.tab.cnt ≤ g.tiles.length
  shape : ∀ t ∈ g.tiles, t.length = chns ∧ ∀ ch ∈ t, ch.length = (2 ^ g.b) ^ g.dim

/-- Block `n` is the cube around `c`. -/
def Block (g : SGrid V) (c : Coord) (n : Nat) : Prop :=
  n < g.tab.cnt ∧ (g.tab.active n).map BitVec.toInt = c.map fun x => origin g.b x.toInt

/-- The number of the cell `c` in its cube. -/
def cell (g : SGrid V) (c : Coord) : Nat := number g.b (c.map fun x => place g.b 0 x.toInt)

/-- What a look-up is to give: whether there is a block, and the value. -/
inductive Look (g : SGrid V) (chn : Nat) (c : Coord) : Bool → V → Prop
  | block {n : Nat} {v : V} : Block g c n → g.read chn n (cell g c) = some v → Look g chn c true v
  | empty : (∀ n, ¬ Block g c n) → Look g chn c false g.background

end Verif.SparseGrid
