import Mathlib.Data.List.FinRange

/-!
Specification for the normals of meshes.
-/
namespace Verif.MeshNormal

/-- The number of corners of a triangle at a vertex: one or zero unless the triangle is degenerate. -/
def corners (t : Fin 3 → Nat) (v : Nat) : Nat := (List.finRange 3).countP fun j => t j = v

end Verif.MeshNormal
