import Verif.Model.MeshIO

/-!
Specification for files of meshes.
-/
namespace Verif.MeshIO

/-- A way to print coordinates as words that read back as `rd` of the coordinate, and that do not look like the words of the format. -/
structure Num.Ok {α : Type} (N : Num α) (rd : α → α) : Prop where
  nonempty : ∀ x, N.print x ≠ []
  noBlank : ∀ x, ∀ c ∈ N.print x, isWs c = false
  noWord : ∀ x, (N.print x).head? ≠ some 'P' ∧ (N.print x).head? ≠ some 'C'
  parse : ∀ x, N.parse (N.print x) = some (rd x)

/-- Coordinates that are natural numbers, printed in decimal. -/
def natNum : Num Nat := ⟨printNat, fun w => (readNat w).map Prod.fst⟩

/-- The first word of a line. -/
def word (s : Text) : Text := (s.dropWhile isWs).takeWhile fun c => !isWs c

/-- What follows the first word. -/
def rest (s : Text) : Text := (s.dropWhile isWs).dropWhile fun c => !isWs c

/-- The statements of the OBJ format that are used here: a vertex, a face with indices that start with one, or an empty line. -/
def objStep {α : Type} (N : Num α) (m : List (Pt α) × List (Nat × Nat × Nat)) (l : Text) : Option (List (Pt α) × List (Nat × Nat × Nat)) :=
  if word l = ['v'] then (readPt N (rest l)).map fun x => (m.1 ++ [x], m.2)
  else if word l = ['f'] then
    (readNat (rest l)).bind fun a => (readNat a.2).bind fun b => (readNat b.2).bind fun c =>
      if 1 ≤ a.1 ∧ 1 ≤ b.1 ∧ 1 ≤ c.1 then some (m.1, m.2 ++ [(a.1 - 1, b.1 - 1, c.1 - 1)]) else none
  else if word l = [] then some m
  else none

/-- The mesh that an OBJ file describes. -/
def objMesh {α : Type} (N : Num α) (text : Text) : Option (List (Pt α) × List (Nat × Nat × Nat)) :=
  (getlines text).foldlM (objStep N) ([], [])

end Verif.MeshIO
