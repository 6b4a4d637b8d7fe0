import Verif.Model.Rotation

/-!
Model of `include/zensim/geometry/Mesh.cpp`: normals at the vertices of a triangle mesh.

Numbers are real.  The triangles run in parallel; the atomic additions to the components may come in any order.  Where vertex normals are given, several
triangles may write the same values to the same place; that this is a race is not modelled.  `none` is an access outside the normals or a division of zero
by zero.
-/
namespace Verif.MeshNormal

open Verif.Rotation (V cross nsq3 unit3)

/-- The corners of a triangle. -/
abbrev Tri := Fin 3 → Nat

/-- The normal of a triangle, lines 50-55 and 115-120. -/
def triNormal (pos : Nat → V 3) (t : Tri) : V 3 := cross (pos (t 1) - pos (t 0)) (pos (t 2) - pos (t 0))

/-- A store or an atomic addition to a component of the normal of a vertex. -/
structure Op where
  vert : Nat
  comp : Fin 3
  val : ℝ

/-- The operations of a triangle with values `f`, lines 38-45, 57-60 and 122-125. -/
def opsOf (f : Nat → V 3) (t : Tri) : List Op :=
  (List.finRange 3).flatMap fun j => (List.finRange 3).map fun d => { vert := t j, comp := d, val := f (t j) d }

/-- An atomic addition. -/
noncomputable def add (m : Nat → V 3) (o : Op) : Nat → V 3 := fun v d => if v = o.vert ∧ d = o.comp then m v d + o.val else m v d

/-- A store. -/
noncomputable def store (m : Nat → V 3) (o : Op) : Nat → V 3 := fun v d => if v = o.vert ∧ d = o.comp then o.val else m v d

/-- All additions of the triangles, lines 49-61. -/
def addOps (pos : Nat → V 3) (tris : List Tri) : List Op := tris.flatMap fun t => opsOf (fun _ => triNormal pos t) t

/-- All stores of the triangles, lines 37-47. -/
def storeOps (norms : Nat → V 3) (tris : List Tri) : List Op := tris.flatMap fun t => opsOf norms t

/-- Operations on `size` normals, which are zero at first (line 25), in the given order. -/
noncomputable def run (step : (Nat → V 3) → Op → Nat → V 3) (size : Nat) (ops : List Op) : Option (Nat → V 3) :=
  if ∀ o ∈ ops, o.vert < size then some (ops.foldl step fun _ _ => 0) else none

/-- `normalized() * scale`, lines 92-97 and 128-133. -/
noncomputable def finish (scale : ℝ) (n : V 3) : Option (V 3) :=
  if Real.sqrt (nsq3 n) = 0 then none else some fun d => unit3 n d * scale

/-- `compute_mesh_normal_impl`, lines 11-98: the normal of each of `size` vertices, where `ops` are the operations in the order they happen. -/
noncomputable def normals (step : (Nat → V 3) → Op → Nat → V 3) (scale : ℝ) (size : Nat) (ops : List Op) : Option (Nat → Option (V 3)) :=
  (run step size ops).map fun m v => finish scale (m v)

/-- Without vertex normals, lines 48-62. -/
noncomputable def meshNormals (scale : ℝ) (size : Nat) (ops : List Op) : Option (Nat → Option (V 3)) := normals add scale size ops

/-- With as many vertex normals as vertices, lines 36-47. -/
noncomputable def givenNormals (scale : ℝ) (size : Nat) (ops : List Op) : Option (Nat → Option (V 3)) := normals store scale size ops

/-- `compute_mesh_normal` for `triNum` triangles from `triOffset` and `nodeNum` vertices, lines 100-134; `nodeOffset` is not used. The operations are
those of `addOps pos (part tris triOffset triNum)`. -/
noncomputable def partNormals (nodeNum : Nat) (ops : List Op) : Option (Nat → Option (V 3)) := normals add 1 nodeNum ops

/-- The triangles of the part, line 113. -/
def part (tris : List Tri) (triOffset triNum : Nat) : List Tri := (tris.drop triOffset).take triNum

end Verif.MeshNormal
