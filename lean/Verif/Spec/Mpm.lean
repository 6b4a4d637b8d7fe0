import Verif.Model.Mpm
import Mathlib.Data.Matrix.Mul

/-! Totals of particles and grids. -/
namespace Verif.Mpm

/-- Nine numbers as a matrix, column by column. -/
def mat (x : V9) : Matrix (Fin 3) (Fin 3) ℝ := fun i j => x ⟨3 * j + i, by omega⟩

/-- The stress is a symmetric matrix. -/
def Symmetric (s : V9) : Prop := (mat s).transpose = mat s

/-- The nodes of a set include those that the particles touch. -/
def Covers (dx : ℝ) (ps : List Particle) (nodes : Finset I3) : Prop := ∀ p ∈ ps, ∀ l, coord dx p.pos l ∈ nodes

/-- Twice the axial vector of the antisymmetric part. -/
def axial (c : V9) : V3 := ![mat c 2 1 - mat c 1 2, mat c 0 2 - mat c 2 0, mat c 1 0 - mat c 0 1]

def totalMass (ps : List Particle) : ℝ := (ps.map fun p => p.mass).sum

def totalMomentum (ps : List Particle) (d : Fin 3) : ℝ := (ps.map fun p => p.mass * p.vel d).sum

/-- Angular momentum of particles with an affine velocity field each. -/
noncomputable def totalAngular (dx : ℝ) (ps : List Particle) (d : Fin 3) : ℝ := (ps.map fun p => p.mass * (cross p.pos p.vel d + dx ^ 2 / 4 * axial p.C d)).sum

/-- Twice the kinetic energy of particles with an affine velocity field each. -/
noncomputable def totalEnergy (dx : ℝ) (ps : List Particle) : ℝ := (ps.map fun p => p.mass * (∑ d, p.vel d ^ 2 + dx ^ 2 / 4 * ∑ k, p.C k ^ 2)).sum

end Verif.Mpm
