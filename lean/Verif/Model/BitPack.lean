/-!
Gathering and scattering of bits by a mask on devices, `/repo/include/zensim/cuda/DeviceUtils.cuh`.

`__brevll` is the reversal of 64 bits and `__clzll` the number of leading zeros, 64 for zero. A shift by 64 or more is undefined: `none`.
Loops have fuel; it is never used up (`Props/BitPack.lean` has results for all masks).
-/
namespace Verif.BitPack

abbrev W := BitVec 64

/-- `__clzll`. -/
def clz (x : W) : Nat := ((List.range 64).find? fun i => x.getMsbD i).getD 64

/-- A shift to the left by a number of bits. -/
def shl (x : W) (n : Nat) : Option W := if n < 64 then some (x <<< n) else none

/-- A shift to the right of an unsigned number. -/
def shr (x : W) (n : Nat) : Option W := if n < 64 then some (x >>> n) else none

/-- The loop of `bit_pack_cuda`, lines 57-65: the collected bits and their number. -/
def packGo : Nat → W → W → W → Nat → Option (W × Nat)
  | 0, _, _, _, _ => none
  | n + 1, rmask, data, ul, count =>
    if rmask = 0 then some (ul, count)
    else do
      let lz := clz rmask
      let data ← shr data lz
      let ul := (ul <<< 1) ||| (data &&& 1)
      let rmask ← shl rmask (lz + 1)
      packGo n rmask (data >>> 1) ul (count + 1)

/-- `bit_pack_cuda`, lines 46-69; the result is cut to an `int`. -/
def pack (mask data : W) : Option (BitVec 32) := do
  let (ul, count) ← packGo 65 mask.reverse data 0 0
  let ul ← shl ul (64 - count)
  pure (ul.reverse.setWidth 32)

/-- The loop of `bit_spread_cuda`, lines 38-42. -/
def spreadGo : Nat → W → W → BitVec 32 → Option W
  | 0, _, _, _ => none
  | n + 1, rmask, result, data =>
    if rmask = 0 then some result
    else do
      let lz := clz rmask + 1
      let result ← shl result lz
      let rmask ← shl rmask lz
      spreadGo n rmask (result ||| (data &&& 1).setWidth 64) (data.sshiftRight 1)

/-- `bit_spread_cuda`, lines 34-45. -/
def spread (mask : W) (data : BitVec 32) : Option W := do
  let result ← spreadGo 65 mask.reverse 0 data
  shr result.reverse (clz mask)

end Verif.BitPack
