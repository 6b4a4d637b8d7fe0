import Verif.Model.Poisson

/-! What a grid and a sampling of the plane have to satisfy. -/
namespace Verif.Poisson

/-- All indices are within their dimensions. -/
def InRange : List ℤ → List ℤ → Prop := List.Forall₂ fun i n => 0 ≤ i ∧ i < n

/-- Two points are at least `r` apart. -/
def Sep (r : ℝ) (x y : P) : Prop := r * r ≤ nsq (y.1 - x.1, y.2 - x.2)

/-- A point is at least `r` apart from another one repeated with the periods `l`. -/
def SepPeriodic (r : ℝ) (l : P) (x y : P) : Prop := ∀ k m : ℤ, r * r ≤ nsq (y.1 - (x.1 + k * l.1), y.2 - (x.2 + m * l.2))

/-- The separation that the mode asks for. -/
def Cfg.Sep (c : Cfg) (x y : P) : Prop :=
  if c.periodic then SepPeriodic c.minDistance (c.hi.1 - c.lo.1, c.hi.2 - c.lo.2) x y else Poisson.Sep c.minDistance x y

/-- In the box, without its upper sides. -/
def InBox (c : Cfg) (x : P) : Prop := (c.lo.1 ≤ x.1 ∧ x.1 < c.hi.1) ∧ c.lo.2 ≤ x.2 ∧ x.2 < c.hi.2

/-- In a cell of the background grid. -/
def InGrid (c : Cfg) (x : P) : Prop :=
  (0 ≤ (toIndex c x (side c)).1 ∧ (toIndex c x (side c)).1 < (cellNumbers c).1) ∧ 0 ≤ (toIndex c x (side c)).2 ∧ (toIndex c x (side c)).2 < (cellNumbers c).2

/-- A box, and in periodic mode one of a whole number of cells, at least three, in each direction. -/
structure Good (c : Cfg) : Prop where
  dist : 0 < c.minDistance
  box : c.lo.1 < c.hi.1 ∧ c.lo.2 < c.hi.2
  whole : c.periodic → c.hi.1 - c.lo.1 = (cellNumbers c).1 * side c ∧ c.hi.2 - c.lo.2 = (cellNumbers c).2 * side c
  wide : c.periodic → 3 ≤ (cellNumbers c).1 ∧ 3 ≤ (cellNumbers c).2

/-- The candidate after the shift of periodic mode. -/
noncomputable def bring (c : Cfg) (x : P) : P := if c.periodic then (shiftIn x.1 c.lo.1 c.hi.1, shiftIn x.2 c.lo.2 c.hi.2) else x

/-- No reason to accept the candidate: it is not allowed, outside the grid or too close to a sample. -/
def Blocked (c : Cfg) (samples : List P) (x : P) : Prop :=
  c.feasible (bring c x) = false ∨ ¬ InGrid c (bring c x) ∨ ∃ s ∈ samples, ¬ c.Sep s (bring c x)

/-- One cell for every index. -/
def fullSize (dims : List ℤ) : ℤ := dims.prod

end Verif.Poisson
