import Verif.Model.Kernel
import Verif.Model.SparseGrid

/-!
Model of sampling from grids, `GridArena` in `include/zensim/math/curve/InterpolationKernel.hpp` (line numbers refer to this file), and its
use in `include/zensim/geometry/SparseGrid.hpp` ("SG") and `include/zensim/geometry/AdaptiveGrid.hpp` ("AG").

* Numbers are those of a field, without rounding, see `Verif.Model.Kernel`; values of the grid are such numbers, too.
* Integer coordinates have 32 bits; a sum that overflows is the outcome `none`, as is a conversion of a number that does not fit.  The base nodes
  of local positions, and those of staggered positions, have `w` bits: 32 or 64, depending on the type of numbers.
* World space (`worldToIndex`) is not modelled.
-/
namespace Verif.Sample

open Verif.Grid Verif.Kernel

/-- `kernel_e`. -/
inductive Kind
  | linear | quadratic | cubic | delta2 | delta3 | delta4

/-- `lerp_degree`, lines 324-327. -/
def Kind.degree : Kind → Nat
  | linear | delta2 => 0
  | quadratic | delta3 => 1
  | cubic | delta4 => 2

/-- `width`, lines 284-292. -/
def Kind.width : Kind → Nat
  | linear | delta2 => 2
  | quadratic | delta3 => 3
  | cubic | delta4 => 4

variable {K : Type} [Field K] [LinearOrder K] [FloorRing K]

/-- Row `d` of the pads `weights`, lines 331-342; the kernels `delta` have only the first pad. -/
def pads (sqrt : K → K) (w : Nat) (x : K) : Kind → Option (Pads K)
  | .linear => linear w x
  | .quadratic => quadratic w x
  | .cubic => cubic w x
  | .delta2 => (delta2 w x).map fun r => ⟨r, [], []⟩
  | .delta3 => (delta3 sqrt w x).map fun r => ⟨r, [], []⟩
  | .delta4 => (delta4 sqrt w x).map fun r => ⟨r, [], []⟩

/-- `iCorner`, `iLocalPos` and `weights`, lines 517-519. -/
structure Arena (K : Type) where
  corner : List Int
  local' : List K
  weights : List (Pads K)

/-- `GridArena(false_c, gv, X)`, lines 321-343. -/
def arena (sqrt : K → K) (w : Nat) (kt : Kind) (X : List K) : Option (Arena K) :=
  (X.mapM (baseNode 32 kt.degree)).bind fun corner =>
    let loc := List.zipWith (fun (x : K) (b : Int) => x - (b : K)) X corner
    (loc.mapM fun x => pads sqrt w x kt).map fun ws => ⟨corner, loc, ws⟩

/-- `delta`, lines 352-354, for the axis `d`. -/
def shift (f d : Nat) : K := if d ≠ f then 0 else -1 / 2

/-- The conversion of a base node to a component of `iCorner`, line 355. -/
def narrow (b : Int) : Int := b.bmod (2 ^ 32)

/-- `GridArena(false_c, gv, X, f)`, lines 345-369. -/
def arenaFace (sqrt : K → K) (w : Nat) (kt : Kind) (X : List K) (f : Nat) : Option (Arena K) :=
  let f := f % X.length
  (X.zipIdx.mapM fun p => (baseNode w kt.degree (p.1 - shift f p.2)).map narrow).bind fun corner =>
    let loc := List.zipWith (fun (p : K × Nat) (b : Int) => p.1 - ((b : K) + shift f p.2)) X.zipIdx corner
    (loc.mapM fun x => pads sqrt w x kt).map fun ws => ⟨corner, loc, ws⟩

/-- `ndrange<dim>(width)`. -/
def offsets (width : Nat) : Nat → List (List Nat)
  | 0 => [[]]
  | d + 1 => (List.range width).flatMap fun k => (offsets width d).map (k :: ·)

/-- A component of `iCorner + offset`. -/
def addOffset (b : Int) (o : Nat) : Option (BitVec 32) := if b + o < 2 ^ 31 then some (BitVec.ofInt 32 (b + o)) else none

/-- `iCorner + offset`, lines 389-397. -/
def node (corner : List Int) (off : List Nat) : Option Coord := (corner.zip off).mapM fun p => addOffset p.1 p.2

/-- The coordinates at which `arena(chn, defaultVal)` looks, lines 381-401, in this order. -/
def nodes (width : Nat) (corner : List Int) : Option (List Coord) := (offsets width corner.length).mapM (node corner)

/-- `linear_interop`, `include/zensim/ZpcMathUtils.hpp` lines 1779-1782. -/
def linearInterop (alpha a b : K) : K := a + (b - a) * alpha

/-- `xlerp`, `include/zensim/math/VecInterface.hpp` lines 1042-1049; the values are in row-major order. -/
def xlerp : List K → List K → K
  | [], vals => vals.headD 0
  | x :: xs, vals => linearInterop x (xlerp xs (vals.take (2 ^ xs.length))) (xlerp xs (vals.drop (2 ^ xs.length)))

/-- `weight(offset)`, lines 525-530. -/
def weight (rows : List (List K)) (off : List Nat) : K := (rows.zip off).foldl (fun r p => r * p.1.getD p.2 0) 1

/-- `weightGradient<I>(offset)`, lines 533-540: a product with the derivative in row `i`. -/
def weightGradient (i : Nat) (a : Arena K) (off : List Nat) : K :=
  weight (a.weights.zipIdx.map fun p => if p.2 = i then p.1.dw else p.1.w) off

/-- `isample(chn, defaultVal)`, lines 449-458, of the values `pad`. -/
def isample (kt : Kind) (a : Arena K) (pad : List K) : K :=
  match kt with
  | .linear => xlerp a.local' pad
  | kt => ((offsets kt.width a.corner.length).zip pad).foldl (fun r p => r + weight (a.weights.map (·.w)) p.1 * p.2) 0

/-- `minimum(chn)`, lines 425-431, of the values `pad`; `top` is the largest number. -/
def minimum (top : K) (pad : List K) : K := pad.foldl (fun r v => if v < r then v else r) top

/-- `maximum(chn)`, lines 437-443. -/
def maximum (bottom : K) (pad : List K) : K := pad.foldl (fun r v => if r < v then v else r) bottom

/-! ## Sparse grids -/

/-- `arena(chn, defaultVal)` of a sparse grid, lines 395-397. -/
def sparsePad (g : SparseGrid.SGrid K) (chn : Nat) (default : K) (cs : List Coord) : Option (List K) :=
  cs.mapM fun c => SparseGrid.valueOr g chn c default

/-- The same through an accessor, lines 387-391: the default is ignored. -/
def sparseAccPad (g : SparseGrid.SGrid K) (chn : Nat) (cs : List Coord) : Option (List K) :=
  (SparseGrid.accRun g (SparseGrid.emptyRecord g.dim) (cs.map fun c => (chn, c))).map (List.map (·.2))

/-- `iSample(chn, X, kt, UseAccessor)`, SG lines 457-471. -/
def sparseSample (sqrt : K → K) (w : Nat) (kt : Kind) (accessor : Bool) (g : SparseGrid.SGrid K) (chn : Nat) (X : List K) : Option K :=
  (arena sqrt w kt X).bind fun a => (nodes kt.width a.corner).bind fun cs =>
    (if accessor then sparseAccPad g chn cs else sparsePad g chn g.background cs).map (isample kt a)

/-- `iPack(chnOffset, X)` with `n` components, SG lines 703-711. -/
def sparsePack (sqrt : K → K) (w : Nat) (kt : Kind) (n : Nat) (g : SparseGrid.SGrid K) (chn : Nat) (X : List K) : Option (List K) :=
  (arena sqrt w kt X).bind fun a => (nodes kt.width a.corner).bind fun cs =>
    (List.range n).mapM fun i => (sparsePad g (chn + i) g.background cs).map (isample kt a)

/-- `iStaggeredSample(chn, f, X)`, SG lines 582-588. -/
def staggeredSample (sqrt : K → K) (w : Nat) (kt : Kind) (g : SparseGrid.SGrid K) (chn f : Nat) (X : List K) : Option K :=
  (arenaFace sqrt w kt X f).bind fun a => (nodes kt.width a.corner).bind fun cs =>
    (sparsePad g (chn + f) g.background cs).map (isample kt a)

/-- `--coord[f]`; the smallest number wraps around here. -/
def prev (f : Nat) (c : Coord) : Coord := c.modify f (· - 1#32)

/-- `iStaggeredCellSample(propOffset, d, X, blockno, cellno, f)`, SG lines 547-569, with `blockno`, `cellno` those of `X`. -/
def staggeredCell (g : SparseGrid.SGrid K) (chn d : Nat) (c : Coord) (f : Nat) : Option K :=
  let look := fun c => SparseGrid.valueOr g (chn + d) c g.background
  if d = f then look c
  else (look c).bind fun a => (look (SparseGrid.next d c)).bind fun b => (look (prev f c)).bind fun e =>
    (look (SparseGrid.next d (prev f c))).map fun h => (a + b + e + h) * (1 / 4)

/-- `iStaggeredCellSample(prop, chn, X, f)`, SG lines 570-580: orientations from `dim` on are those of the next cell. -/
def staggeredCellFace (g : SparseGrid.SGrid K) (chn d : Nat) (c : Coord) (f : Nat) : Option K :=
  if g.dim ≤ f then staggeredCell g chn d (SparseGrid.next (f - g.dim) c) (f - g.dim) else staggeredCell g chn d c f

/-- `iArena(X).minimum(chn)`. -/
def sparseMinimum (sqrt : K → K) (w : Nat) (kt : Kind) (top : K) (accessor : Bool) (g : SparseGrid.SGrid K) (chn : Nat) (X : List K) : Option K :=
  (arena sqrt w kt X).bind fun a => (nodes kt.width a.corner).bind fun cs =>
    (if accessor then sparseAccPad g chn cs else sparsePad g chn top cs).map (minimum top)

/-- `iArena(X).maximum(chn)`. -/
def sparseMaximum (sqrt : K → K) (w : Nat) (kt : Kind) (bottom : K) (accessor : Bool) (g : SparseGrid.SGrid K) (chn : Nat) (X : List K) : Option K :=
  (arena sqrt w kt X).bind fun a => (nodes kt.width a.corner).bind fun cs =>
    (if accessor then sparseAccPad g chn cs else sparsePad g chn bottom cs).map (maximum bottom)

/-! ## Adaptive grids -/

/-- `arena(chn, defaultVal)` of an adaptive grid, lines 392-394: the default is ignored. -/
def adaptivePad (g : Grid K) (chn : Nat) (cs : List Coord) : Option (List K) := cs.mapM (Grid.value g chn)

/-- The same through an accessor with `depths` records, lines 387-391. -/
def adaptiveAccPad (g : Grid K) (depths chn : Nat) (cs : List Coord) : Option (List K) :=
  (Grid.accRun g (emptyCache g.dim depths) (cs.map fun c => (chn, c))).map (List.map (·.2))

/-- `iSample(chn, X, kt, UseAccessor)`, AG lines 1286-1307. -/
def adaptiveSample (sqrt : K → K) (w : Nat) (kt : Kind) (accessor : Option Nat) (g : Grid K) (chn : Nat) (X : List K) : Option K :=
  (arena sqrt w kt X).bind fun a => (nodes kt.width a.corner).bind fun cs =>
    (match accessor with
      | some depths => adaptiveAccPad g depths chn cs
      | none => adaptivePad g chn cs).map (isample kt a)

end Verif.Sample
