import Verif.Model.Bits
import Verif.Model.TileVector

/-!
Model of iterators over tiled memory: `include/zensim/py_interop/GenericIterator.hpp` ("G"), `AccessorAoSoA` of
`include/zensim/cuda/simulation/wrangler/Wrangler.hpp` ("W") and the iterators of `TileVector` (`include/zensim/container/TileVector.hpp`, "T") over
values smaller than the elements.

Pointers are numbers: of elements in G, of bytes in W and T.  `u32` and `size_t` are bit vectors; pointer arithmetic does not wrap.
-/
namespace Verif.TileIter

/-! ## aosoa_iterator -/

/-- `aosoa_iterator`, G lines 108-109; the conversion to and from the port (lines 35-49) copies the members. -/
structure Iter where
  base : Nat
  idx : BitVec 32
  bits : BitVec 32
  mask : BitVec 32
  nch : BitVec 32

/-- The constructor for arrays of structures with `extent` components, G lines 71-72. -/
def aos (extent : BitVec 32) (ptr : Nat) (id : BitVec 32) : Iter := { base := ptr, idx := id, bits := 0, mask := 0, nch := extent }

/-- `bit_count` of an `u32`. -/
def bitCount32 (n : BitVec 32) : BitVec 32 := BitVec.ofNat 32 (Bits.bitCount n.toNat)

/-- The constructor for tiles, G lines 76-82. -/
def aosoa (ptr : Nat) (id tileSize chn nch : BitVec 32) : Iter :=
  { base := ptr + (chn * tileSize).toNat, idx := id, bits := bitCount32 tileSize, mask := tileSize - 1#32, nch := nch }

/-- The offset of the first component, G lines 88-89 and 93-94. -/
def Iter.offset (it : Iter) : BitVec 32 := (((it.idx >>> it.bits.toNat) * it.nch) <<< it.bits.toNat) ||| (it.idx &&& it.mask)

/-- `dereference`, G lines 84-98: the places of the components. -/
def Iter.deref (extent : Nat) (it : Iter) : List Nat := (List.range extent).map fun d => it.base + it.offset.toNat + d * (it.mask + 1#32).toNat

/-- `advance`, G line 102. -/
def Iter.advance (it : Iter) (offset : BitVec 32) : Iter := { it with idx := it.idx + offset }

/-- `distance_to`, G lines 103-105. -/
def Iter.distance (it o : Iter) : BitVec 32 := o.idx - it.idx

/-- `equal_to`, G lines 99-101. -/
def Iter.equal (it o : Iter) : Bool := o.base == it.base && o.idx == it.idx

/-! ## AccessorAoSoA -/

/-- `AccessorAoSoA`, W lines 75-76. -/
structure Acc where
  base : Nat
  bits : Nat
  mask : BitVec 64
  chnCnt : BitVec 64
  unitBits : Nat

/-- The constructor for arrays of structures with a channel, W lines 24-32. The product does not overflow. -/
def accAos (ptr bytes chnCnt chnNo : Nat) : Acc :=
  { base := ptr + chnNo * bytes, bits := 0, mask := 0, chnCnt := BitVec.ofNat 64 chnCnt, unitBits := Bits.bitCount bytes }

/-- The constructor for tiles, W lines 48-58. The product does not overflow. -/
def accAosoa (ptr bytes tileSize chnCnt chnNo : Nat) : Acc :=
  { base := ptr + chnNo * tileSize * bytes, bits := Bits.bitCount tileSize, mask := BitVec.ofNat 64 (tileSize - 1), chnCnt := BitVec.ofNat 64 chnCnt
    unitBits := Bits.bitCount bytes }

/-- `operator()`, W lines 69-73. -/
def Acc.at (a : Acc) (i : BitVec 64) : Nat :=
  a.base + (((((i >>> a.bits) * a.chnCnt) <<< a.bits) ||| (i &&& a.mask)) <<< a.unitBits).toNat

/-! ## Iterators of TileVector over smaller values -/

/-- `iterator_impl`, T lines 204-263: elements of `S` bytes in tiles of `L`, values of `t` bytes. -/
structure Small where
  base : Nat
  idx : Nat
  segOffset : Nat
  chn : Nat
  nch : Nat
deriving DecidableEq

/-- `num_segments`, T lines 221-222. -/
def numSegments (S L t : Nat) : Nat := S * L / t

/-- The constructor, T lines 224-229; `none` is the exception. -/
def small (S L t base idx segNo chn nch : Nat) : Option Small :=
  if segNo ≥ numSegments S L t then none else some { base := base, idx := idx, segOffset := segNo * L, chn := chn, nch := nch }

/-- `dereference`, T lines 231-250: the first bytes of the values. -/
def Small.deref (S L t extent : Nat) (it : Small) : List Nat :=
  (List.range extent).map fun d =>
    it.base + (it.idx / L * it.nch + it.chn) * L * S + t * (it.segOffset + it.idx % L + d * (L * numSegments S L t))

end Verif.TileIter
