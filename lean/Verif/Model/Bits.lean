/-
Model of `include/zensim/math/bit/Bits.h`.
Floating point pre-scaling of the Morton functions (`(u32)(x * 1024.f)`) is not modelled: the
model starts from the integer coordinates.
-/
namespace Verif.Bits

/-- `expand_bits_32`; Bits.h lines 84-90. -/
def expandBits32 (v : BitVec 32) : BitVec 32 :=
  let v := (v * 0x00010001#32) &&& 0xFF0000FF#32
  let v := (v * 0x00000101#32) &&& 0x0F00F00F#32
  let v := (v * 0x00000011#32) &&& 0xC30C30C3#32
  (v * 0x00000005#32) &&& 0x49249249#32

/-- `expand_bits_64`; Bits.h lines 91-101. -/
def expandBits64 (v : BitVec 32) : BitVec 64 :=
  let x := (v &&& 0x1fffff#32).zeroExtend 64
  let x := (x ||| x <<< 32) &&& 0x1f00000000ffff#64
  let x := (x ||| x <<< 16) &&& 0x1f0000ff0000ff#64
  let x := (x ||| x <<< 8) &&& 0x100f00f00f00f00f#64
  let x := (x ||| x <<< 4) &&& 0x10c30c30c30c30c3#64
  (x ||| x <<< 2) &&& 0x1249249249249249#64

/-- `compact_bits_32`; Bits.h lines 102-110. -/
def compactBits32 (v : BitVec 32) : BitVec 32 :=
  let v := v &&& 0x9249249#32
  let v := (v ^^^ (v >>> 2)) &&& 0x30c30c3#32
  let v := (v ^^^ (v >>> 4)) &&& 0x0300f00f#32
  let v := (v ^^^ (v >>> 8)) &&& 0x30000ff#32
  (v ^^^ (v >>> 16)) &&& 0x000003ff#32

/-- `compact_bits_64`; Bits.h lines 111-121. -/
def compactBits64 (v : BitVec 64) : BitVec 32 :=
  let v := v &&& 0x1249249249249249#64
  let v := (v ^^^ (v >>> 2)) &&& 0x10c30c30c30c30c3#64
  let v := (v ^^^ (v >>> 4)) &&& 0x100f00f00f00f00f#64
  let v := (v ^^^ (v >>> 8)) &&& 0x1f0000ff0000ff#64
  let v := (v ^^^ (v >>> 16)) &&& 0x1f00000000ffff#64
  let v := (v ^^^ (v >>> 32)) &&& 0x1fffff#64
  v.truncate 32

/-- `morton_3d_32` on integer coordinates; Bits.h lines 122-125. -/
def morton32 (x y z : BitVec 32) : BitVec 32 :=
  (expandBits32 x <<< 2) ||| (expandBits32 y <<< 1) ||| expandBits32 z

/-- `morton_3d_64` on integer coordinates; Bits.h lines 126-129. -/
def morton64 (x y z : BitVec 32) : BitVec 64 :=
  (expandBits64 x <<< 2) ||| (expandBits64 y <<< 1) ||| expandBits64 z

/-- `round_down`; Bits.h lines 147-149 (unsigned `Tn` of width `w`). -/
def roundDown {w} (n alignment : BitVec w) : BitVec w := n &&& ~~~(alignment - 1#w)

/-- `round_up`; Bits.h lines 150-152 (unsigned `Tn` of width `w`). -/
def roundUp {w} (n alignment : BitVec w) : BitVec w :=
  (n + alignment - 1#w) &&& ~~~(alignment - 1#w)

/-- `interleaved_bit_mask`; Bits.h lines 155-160.  The loop `for (curBit = 0; curBit < w;
curBit += dim)`; `fuel` bounds the number of iterations (`w` suffices for `dim ≥ 1`). -/
def interleavedBitMaskLoop {w} (dim : Nat) : Nat → Nat → BitVec w → BitVec w
  | 0, _, mask => mask
  | fuel + 1, curBit, mask =>
    if curBit < w then interleavedBitMaskLoop dim fuel (curBit + dim) (mask ||| (1#w <<< curBit))
    else mask

def interleavedBitMask (w dim : Nat) : BitVec w := interleavedBitMaskLoop dim w 0 0#w

/-- `bit_length`; Bits.h lines 166-171 (unsigned, value level). -/
def bitLength (n : Nat) : Nat := if n > 0 then bitLength (n / 2) + 1 else 0
termination_by n

/-- `bit_count`; Bits.h lines 177-182 (unsigned, value level). -/
def bitCount (n : Nat) : Nat := if n > 0 then bitLength (n - 1) else 0

/-- `next_2pow`; Bits.h line 184: `(Tn)1 << bit_count(n)` in a type of width `w`.  A shift by
`w` or more is undefined behaviour in C++ (`none`). -/
def next2pow (w : Nat) (n : BitVec w) : Option (BitVec w) :=
  let s := bitCount n.toNat
  if s < w then some (1#w <<< s) else none

/-- `next_power_of_two`; Bits.h lines 190-198. -/
def nextPowerOfTwo (i : BitVec 32) : BitVec 32 :=
  let i := i - 1#32
  let i := i ||| i >>> 1
  let i := i ||| i >>> 2
  let i := i ||| i >>> 4
  let i := i ||| i >>> 8
  let i := i ||| i >>> 16
  i + 1#32

/-- `binary_reverse(data, loc)`; Bits.h lines 200-204, unsigned `Integer` of width `w`.
The recursion strips one bit per level. -/
def binaryReverseAux {w} (data : BitVec w) (loc : Nat) : BitVec w :=
  if h : data = 0#w then 0#w
  else
    have : (data >>> 1).toNat < data.toNat := by
      have h0 : data.toNat ≠ 0 := fun h0 => h (BitVec.eq_of_toNat_eq (by simpa using h0))
      rw [BitVec.toNat_ushiftRight, Nat.shiftRight_eq_div_pow]
      omega
    ((data &&& 1#w) <<< loc) ||| binaryReverseAux (data >>> 1) (loc - 1)
termination_by data.toNat

def binaryReverse {w} (data : BitVec w) : BitVec w := binaryReverseAux data (w - 1)

/-- the loop `while ((data & 1) == 0) res++, data >>= 1;` of `count_leading_zeros`, with fuel. -/
def clzLoop {w} : Nat → BitVec w → Nat → Nat
  | 0, _, res => res
  | fuel + 1, data, res =>
    if data.getLsbD 0 = false then clzLoop fuel (data >>> 1) (res + 1) else res

/-- `count_leading_zeros`; Bits.h lines 206-212. -/
def countLeadingZeros {w} (data : BitVec w) : Nat :=
  let data := binaryReverse data
  if data = 0#w then w else clzLoop w data 0

/-- `num_bits_on`; Bits.h lines 264-268. -/
def numBitsOn (v : BitVec 64) : BitVec 8 :=
  let v := v - ((v >>> 1) &&& 0x5555555555555555#64)
  let v := (v &&& 0x3333333333333333#64) + ((v >>> 2) &&& 0x3333333333333333#64)
  ((((v + (v >>> 4)) &&& 0xF0F0F0F0F0F0F0F#64) * 0x101010101010101#64) >>> 56).truncate 8

/-- `is_bit_on`; Bits.h line 270. -/
def isBitOn (mask : BitVec 64) (b : Nat) : Bool :=
  (mask &&& (1#64 <<< (b &&& 63))) != 0#64

end Verif.Bits
