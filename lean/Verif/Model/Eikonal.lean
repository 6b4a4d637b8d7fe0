import Mathlib.Analysis.Real.Sqrt

/-!
Model of the steps of `flood_fill_levelset`: `MarkInteriorTag` and `ComputeTaggedSDF`, `include/zensim/geometry/LevelSetUtils.hpp`.

Exact real arithmetic.  The search for the block of a neighbour is left out: a neighbour is a coordinate, and the step of a cell sees the distances of the neighbours that have a tag.
-/
namespace Verif.Eikonal

variable {d : Nat}

/-- Lines 197-206: the first position with a greater distance, from which the others move back by one; the last is lost. -/
noncomputable def ins (p : ℝ × ℝ) : List (ℝ × ℝ) → List (ℝ × ℝ)
  | [] => []
  | q :: l => if p.1 < q.1 then p :: (q :: l).dropLast else q :: ins p l

open Classical in
/-- Lines 173-207: the distances and signs; `big` is the greatest number. -/
noncomputable def collect (dim : Nat) (big : ℝ) (values : List ℝ) : List (ℝ × ℝ) :=
  values.foldl (fun l v => if v ≠ 0 then ins (|v|, v / |v|) l else l) (List.replicate dim (big, 0))

/-- Lines 177-195: the values of the neighbours with a tag, in the order of the loops. -/
def known (dim : Nat) (nb : Int → Nat → Option ℝ) : List ℝ := [-1, 1].flatMap fun i => (List.range dim).filterMap (nb i)

open Classical in
/-- Lines 210-227; the part for three dimensions is inside the part for two. -/
noncomputable def distance (dim : Nat) (dx : ℝ) (dis : List (ℝ × ℝ)) : ℝ :=
  let a := (dis.getD 0 (0, 0)).1
  let b := (dis.getD 1 (0, 0)).1
  let d := a + dx
  if dim = 2 then (if d > b then 0.5 * (a + b + Real.sqrt (2 * dx * dx - (b - a) * (b - a))) else d) else d

/-- Lines 229-231. -/
noncomputable def update (dim : Nat) (big dx : ℝ) (nb : Int → Nat → Option ℝ) : ℝ :=
  let dis := collect dim big (known dim nb)
  (dis.getD 0 (0, 0)).2 * distance dim dx dis

/-- Lines 113-116: the neighbours of a cell. -/
def around (c : Fin d → Int) : List (Fin d → Int) := [-1, 1].flatMap fun i => (List.finRange d).map fun j => fun a => if a = j then c a + i else c a

/-- Lines 107-138 over all cells: the seeds.  `LevelSetUtils.tpp`, line 486, makes room for as many seeds as cells; more are written outside. -/
def markInterior (cells : List (Fin d → Int)) (interior masked : (Fin d → Int) → Bool) : Option (List (Fin d → Int)) :=
  let seeds := cells.flatMap fun c => if interior c then (around c).filter fun c' => !masked c' else []
  if seeds.length ≤ cells.length then some seeds else none

end Verif.Eikonal
