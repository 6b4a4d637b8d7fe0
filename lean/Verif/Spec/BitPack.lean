import Verif.Model.BitPack

/-!
The places of the bits of a mask.
-/
namespace Verif.BitPack

/-- The places of the bits of the mask, from the lowest on. -/
def places (mask : W) : List Nat := (List.range 64).filter fun i => mask.getLsbD i

/-- How many bits of the mask are below a place. -/
def rank (mask : W) (p : Nat) : Nat := ((List.range p).filter fun i => mask.getLsbD i).length

/-- A bit of a number with sign, extended without end. -/
def bit (data : BitVec 32) (i : Nat) : Bool := data.getLsbD (min i 31)

end Verif.BitPack
