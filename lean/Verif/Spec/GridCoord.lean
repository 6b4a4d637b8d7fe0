/-!
What the coordinates of adaptive grids mean, in terms of integers: the integer axis is cut into blocks of `2 ^ e` cells, starting at the
multiples of `2 ^ e`.
-/
namespace Verif.Grid

/-- The first coordinate of the block of `2 ^ e` that contains `x`. -/
def origin (e : Nat) (x : Int) : Int := 2 ^ e * (x / 2 ^ e)

/-- The place of `x` in its block of `2 ^ e`, counted in cells of `2 ^ s`. -/
def place (e s : Nat) (x : Int) : Nat := ((x - origin e x) / 2 ^ s).toNat

/-- Row-major number of a cell in a block with `2 ^ b` cells in each direction. -/
def number (b : Nat) (l : List Nat) : Nat := l.foldl (fun r x => r * 2 ^ b + x) 0

end Verif.Grid
