import Verif.Model.LiteTile

/-!
The layout of tiled vectors, independent of the arithmetic of the views: tile after tile, in each tile channel after channel, in each
channel element after element.
-/
namespace Verif.LiteTile

/-- The pairs (channel, element) in the order of the cells. -/
def layout (tiles nch lane : Nat) : List (Nat × Nat) :=
  (List.range tiles).flatMap fun t => (List.range nch).flatMap fun c => (List.range lane).map fun l => (c, t * lane + l)

/-- A view of the whole of a tiled vector that holds the value `f c i` in channel `c` of element `i`, and fits into memory. -/
structure Holds {α} (v : View α) (tiles nch lane : Nat) (f : Nat → Nat → α) : Prop where
  mem : v.mem = (layout tiles nch lane).map fun q => f q.1 q.2
  off : v.off = 0
  lane_eq : v.lane = lane
  nch_eq : v.nch = nch
  within : v.within = false
  fits : tiles * (nch * lane) < 2 ^ 64

/-- The properties follow one another, from channel `o` on. -/
def Consecutive : Nat → List Int → List Int → Prop
  | _, [], [] => True
  | o, a :: as, s :: ss => a = o ∧ 0 ≤ s ∧ Consecutive (o + s.toNat) as ss
  | _, _, _ => False

end Verif.LiteTile
