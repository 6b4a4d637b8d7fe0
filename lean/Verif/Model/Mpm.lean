import Mathlib.Data.Real.Archimedean
import Mathlib.Data.Fin.VecNotation
import Mathlib.Data.Fintype.Pi
import Mathlib.Algebra.BigOperators.Group.Finset.Defs

/-!
Model of the transfers between particles and grid: `include/zensim/simulation/transfer/P2G.hpp`, `G2P.hpp`, the arena of `include/zensim/simulation/Utils.hpp` and the grid
operations of `include/zensim/simulation/grid/GridOp.hpp`, in three dimensions with the collocated grid and the quadratic kernel, which is what the transfers use.

Numbers are real, indices unbounded.  The grid is addressed by node coordinates: how a coordinate is found in the blocks of the hash table is not repeated here.  Atomic additions are additions,
in the order of a list of particles.  The singular value decomposition is an argument.
-/
namespace Verif.Mpm

abbrev V3 := Fin 3 → ℝ
abbrev V9 := Fin 9 → ℝ
abbrev I3 := Fin 3 → ℤ
abbrev Loc := Fin 3 → Fin 3

/-! ## `LocalArena`, `Utils.hpp` -/

/-- `base_node<1>`, `InterpolationKernel.hpp` lines 46-55. -/
noncomputable def base (x : ℝ) : ℤ := ⌊x - 0.5⌋

/-- `corner` of `init`, lines 57-61. -/
noncomputable def corner (dx : ℝ) (pos : V3) : I3 := fun d => base (pos d / dx)

/-- `localPos` before line 69. -/
noncomputable def localPos (dx : ℝ) (pos : V3) : V3 := fun d => pos d / dx - corner dx pos d

/-- Row `x` of `quadratic_bspline_weights`, `InterpolationKernel.hpp` lines 107-113. -/
noncomputable def weights1 (x : ℝ) : Fin 3 → ℝ :=
  let d0 := x - base x
  let d1 := d0 - 1
  let zz := 0.5 + d1
  ![0.5 * (1.5 - d0) * (1.5 - d0), 0.75 - d1 * d1, 0.5 * zz * zz]

/-- `weight`, lines 99-105. -/
noncomputable def weight (dx : ℝ) (pos : V3) (l : Loc) : ℝ :=
  1 * weights1 (localPos dx pos 0) (l 0) * weights1 (localPos dx pos 1) (l 1) * weights1 (localPos dx pos 2) (l 2)

/-- `diff`, lines 166-168; `localPos` is multiplied by `dx` in line 69. -/
noncomputable def diff (dx : ℝ) (pos : V3) (l : Loc) : V3 := fun d => ((l d : ℕ) : ℝ) * dx - localPos dx pos d * dx

/-- `coord`, lines 172-174. -/
noncomputable def coord (dx : ℝ) (pos : V3) (l : Loc) : I3 := fun d => ((l d : ℕ) : ℤ) + corner dx pos d

/-- `range`, line 72: the last index runs fastest. -/
def range : List Loc := (List.finRange 3).flatMap fun i => (List.finRange 3).flatMap fun j => (List.finRange 3).map fun k => ![i, j, k]

/-! ## Matrices in nine numbers, `MatrixUtils.h` -/

/-- `matrixMatrixMultiplication3d`, lines 136-146. -/
def mul9 (a b : V9) : V9 :=
  ![a 0 * b 0 + a 3 * b 1 + a 6 * b 2, a 1 * b 0 + a 4 * b 1 + a 7 * b 2, a 2 * b 0 + a 5 * b 1 + a 8 * b 2,
    a 0 * b 3 + a 3 * b 4 + a 6 * b 5, a 1 * b 3 + a 4 * b 4 + a 7 * b 5, a 2 * b 3 + a 5 * b 4 + a 8 * b 5,
    a 0 * b 6 + a 3 * b 7 + a 6 * b 8, a 1 * b 6 + a 4 * b 7 + a 7 * b 8, a 2 * b 6 + a 5 * b 7 + a 8 * b 8]

/-- `C[d] * x[0] + C[3 + d] * x[1] + C[6 + d] * x[2]`. -/
def apply9 (c : V9) (x : V3) : V3 := fun d => c (d.castLE (by decide)) * x 0 + c ⟨3 + d, by omega⟩ * x 1 + c ⟨6 + d, by omega⟩ * x 2

/-! ## Particles and grid -/

structure Particle where
  mass : ℝ
  pos : V3
  vel : V3
  C : V9
  J : ℝ
  F : V9

/-- Channels 0, 1-3 and 4-6 of a node. -/
structure Node where
  mass : ℝ
  mv : V3
  rhs : V3

abbrev Grid := I3 → Node

/-- A cleared grid, `CleanGridBlocks`, `GridOp.hpp` lines 59-66. -/
def zero : Grid := fun _ => ⟨0, 0, 0⟩

/-! ## Stress -/

/-- Parameters of `EquationOfStateConfig`. -/
structure Eos where
  volume : ℝ
  bulk : ℝ
  viscosity : ℝ

/-- `P2G.hpp` lines 60-80. -/
noncomputable def eosStress (m : Eos) (p : Particle) : V9 :=
  let c := p.C
  let vol := m.volume * p.J
  let j2 := p.J * p.J
  let j4 := j2 * j2
  let pressure := m.bulk * (1 / (p.J * j2 * j4) - 1)
  ![((c 0 + c 0) * m.viscosity - pressure) * vol, (c 1 + c 3) * m.viscosity * vol, (c 2 + c 6) * m.viscosity * vol,
    (c 3 + c 1) * m.viscosity * vol, ((c 4 + c 4) * m.viscosity - pressure) * vol, (c 5 + c 7) * m.viscosity * vol,
    (c 6 + c 2) * m.viscosity * vol, (c 7 + c 5) * m.viscosity * vol, ((c 8 + c 8) * m.viscosity - pressure) * vol]

/-- `P_hat` of `compute_stress_fixedcorotated`, `ConstitutiveModel_Vol_dP.hpp` lines 17-23. -/
def pHat (mu lambda : ℝ) (s : V3) : V3 :=
  let j := s 0 * s 1 * s 2
  let m := 2 * mu
  let l := lambda * (j - 1)
  ![m * (s 0 - 1) + l * (s 1 * s 2), m * (s 1 - 1) + l * (s 0 * s 2), m * (s 2 - 1) + l * (s 0 * s 1)]

/-- `P` of `compute_stress_fixedcorotated`, lines 25-34. -/
def pk1 (p : V3) (u v : V9) : V9 :=
  ![p 0 * u 0 * v 0 + p 1 * u 3 * v 3 + p 2 * u 6 * v 6, p 0 * u 1 * v 0 + p 1 * u 4 * v 3 + p 2 * u 7 * v 6, p 0 * u 2 * v 0 + p 1 * u 5 * v 3 + p 2 * u 8 * v 6,
    p 0 * u 0 * v 1 + p 1 * u 3 * v 4 + p 2 * u 6 * v 7, p 0 * u 1 * v 1 + p 1 * u 4 * v 4 + p 2 * u 7 * v 7, p 0 * u 2 * v 1 + p 1 * u 5 * v 4 + p 2 * u 8 * v 7,
    p 0 * u 0 * v 2 + p 1 * u 3 * v 5 + p 2 * u 6 * v 8, p 0 * u 1 * v 2 + p 1 * u 4 * v 5 + p 2 * u 7 * v 8, p 0 * u 2 * v 2 + p 1 * u 5 * v 5 + p 2 * u 8 * v 8]

/-- `compute_stress_fixedcorotated`, lines 11-46, for the result `u`, `s`, `v` of the decomposition. -/
def corotatedStress (volume mu lambda : ℝ) (u : V9) (s : V3) (v : V9) (f : V9) : V9 :=
  let p := pk1 (pHat mu lambda s) u v
  ![(p 0 * f 0 + p 3 * f 3 + p 6 * f 6) * volume, (p 1 * f 0 + p 4 * f 3 + p 7 * f 6) * volume, (p 2 * f 0 + p 5 * f 3 + p 8 * f 6) * volume,
    (p 0 * f 1 + p 3 * f 4 + p 6 * f 7) * volume, (p 1 * f 1 + p 4 * f 4 + p 7 * f 7) * volume, (p 2 * f 1 + p 5 * f 4 + p 8 * f 7) * volume,
    (p 0 * f 2 + p 3 * f 5 + p 6 * f 8) * volume, (p 1 * f 2 + p 4 * f 5 + p 7 * f 8) * volume, (p 2 * f 2 + p 5 * f 5 + p 8 * f 8) * volume]

/-! ## `P2GTransfer` -/

/-- `D_inv`, `P2G.hpp` line 49. -/
noncomputable def dInv (dx : ℝ) : ℝ := 4 * (1 / dx) * (1 / dx)

/-- What a particle with the stress `s` adds to the node of `l`, `P2G.hpp` lines 104 and 111-124. -/
noncomputable def p2gAdd (dx dt : ℝ) (s : V9) (p : Particle) (l : Loc) : Node :=
  let w := weight dx p.pos l
  let x := diff dx p.pos l
  ⟨p.mass * w, fun d => w * p.mass * (p.vel d + apply9 p.C x d), fun d => apply9 (fun k => s k * -dt * dInv dx) x d * w⟩

/-- `atomic_add` on the channels of a node. -/
def Grid.add (g : Grid) (i : I3) (n : Node) : Grid :=
  fun k => if k = i then ⟨(g k).mass + n.mass, (g k).mv + n.mv, (g k).rhs + n.rhs⟩ else g k

/-- `P2GTransfer::operator()`, `P2G.hpp` lines 45-127, for a particle with the stress `s`. -/
noncomputable def p2g1 (dx dt : ℝ) (s : V9) (p : Particle) (g : Grid) : Grid :=
  range.foldl (fun g l => g.add (coord dx p.pos l) (p2gAdd dx dt s p l)) g

/-- All particles; `stress` is the stress of the constitutive model. -/
noncomputable def p2g (dx dt : ℝ) (stress : Particle → V9) (ps : List Particle) (g : Grid) : Grid :=
  ps.foldl (fun g p => p2g1 dx dt (stress p) p g) g

/-! ## Grid operations -/

open Classical in
/-- `ComputeGridBlockVelocity`, `GridOp.hpp` lines 90-104: the new node. -/
noncomputable def nodeVelocity (dt : ℝ) (extf : V3) (n : Node) : Node :=
  if n.mass ≠ 0 then { n with mv := fun d => n.mv d * (1 / n.mass) + extf d * dt } else n

open Classical in
/-- `ComputeGridBlockVelocity`: the maximum of the squares, lines 100-102. -/
noncomputable def nodeMax (dt : ℝ) (extf : V3) (m : ℝ) (n : Node) : ℝ :=
  let v := (nodeVelocity dt extf n).mv
  if n.mass ≠ 0 then max m (v 0 * v 0 + v 1 * v 1 + v 2 * v 2) else m

noncomputable def velocity (dt : ℝ) (extf : V3) (g : Grid) : Grid := fun i => nodeVelocity dt extf (g i)

noncomputable def maxVelocity (dt : ℝ) (extf : V3) (g : Grid) (nodes : List I3) (m : ℝ) : ℝ := nodes.foldl (fun m i => nodeMax dt extf m (g i)) m

def cross (a b : V3) : V3 := ![a 1 * b 2 - a 2 * b 1, a 2 * b 0 - a 0 * b 2, a 0 * b 1 - a 1 * b 0]

/-- The position of a node, lines 239-241. -/
def nodePos (dx : ℝ) (i : I3) : V3 := fun d => (i d : ℝ) * dx

open Classical in
/-- `GridAngularMomentum`, lines 233-253: angular and linear momentum added up over the nodes of a grid with momenta. -/
noncomputable def momenta (dx : ℝ) (g : Grid) (nodes : List I3) : V3 × V3 :=
  nodes.foldl (fun s i => if (g i).mass ≠ 0 then (s.1 + cross (nodePos dx i) (g i).mv, s.2 + (g i).mv) else s) (0, 0)

/-! ## `G2PTransfer` -/

/-- The velocity of line 64. -/
noncomputable def gather (dx : ℝ) (g : Grid) (pos : V3) : V3 := range.foldl (fun v l => v + fun d => (g (coord dx pos l)).mv d * weight dx pos l) 0

/-- `C`, line 65. -/
noncomputable def gatherC (dx : ℝ) (g : Grid) (pos : V3) : V9 :=
  range.foldl (fun c l => c + fun k : Fin 9 => weight dx pos l * (g (coord dx pos l)).mv ⟨k % 3, by omega⟩ * diff dx pos l ⟨k / 3, by omega⟩ * dInv dx) 0

/-- `tmp`, line 76: `d & 3` is zero for 0, 4 and 8. -/
def identityPlus (dt : ℝ) (c : V9) : V9 := fun k => c k * dt + if (k : ℕ) &&& 3 ≠ 0 then 0 else 1

/-- `G2PTransfer::operator()`, `G2P.hpp` lines 43-84; a model uses either `J` or `F`, both are kept here. -/
noncomputable def g2p (dx dt : ℝ) (g : Grid) (p : Particle) : Particle :=
  let v := gather dx g p.pos
  let c := gatherC dx g p.pos
  { mass := p.mass, pos := fun d => p.pos d + v d * dt, vel := v, C := c, J := (1 + (c 0 + c 4 + c 8) * dt) * p.J, F := mul9 (identityPlus dt c) p.F }

/-- Transfer to a cleared grid, velocities, transfer back. -/
noncomputable def step (dx dt : ℝ) (extf : V3) (stress : Particle → V9) (ps : List Particle) : List Particle :=
  ps.map (g2p dx dt (velocity dt extf (p2g dx dt stress ps zero)))

end Verif.Mpm
