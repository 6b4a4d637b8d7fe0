/-
Model of `include/zensim/math/Hash.hpp` and of the address mixing functions of
`include/zensim/execution/ConcurrencyPrimitive.cpp`.
-/
namespace Verif.Hash

/-- `hash<u32>`; Hash.hpp lines 41-44. -/
def hash32 (x : BitVec 32) : BitVec 32 :=
  let x := ((x >>> 16) ^^^ x) * 0x45d9f3b#32
  let x := ((x >>> 16) ^^^ x) * 0x45d9f3b#32
  (x >>> 16) ^^^ x

/-- `unhash<u32>`; Hash.hpp lines 53-56. -/
def unhash32 (x : BitVec 32) : BitVec 32 :=
  let x := ((x >>> 16) ^^^ x) * 0x119de1f3#32
  let x := ((x >>> 16) ^^^ x) * 0x119de1f3#32
  (x >>> 16) ^^^ x

/-- `hash<u64>`; Hash.hpp lines 45-48. -/
def hash64 (x : BitVec 64) : BitVec 64 :=
  let x := (x ^^^ (x >>> 30)) * 0xbf58476d1ce4e5b9#64
  let x := (x ^^^ (x >>> 27)) * 0x94d049bb133111eb#64
  x ^^^ (x >>> 31)

/-- `unhash<u64>`; Hash.hpp lines 57-60. -/
def unhash64 (x : BitVec 64) : BitVec 64 :=
  let x := (x ^^^ (x >>> 31) ^^^ (x >>> 62)) * 0x319642b2d24d8ec3#64
  let x := (x ^^^ (x >>> 27) ^^^ (x >>> 54)) * 0x96de1b173f119089#64
  x ^^^ (x >>> 30) ^^^ (x >>> 60)

/-- `hash<i64>`: the same template (Hash.hpp lines 45-48) instantiated with a signed type.
Every `>>` is an arithmetic shift (gcc/clang; mandated since C++20), the product is computed in
`uint64_t` and converted back to `i64` on assignment. -/
def hashI64 (x : BitVec 64) : BitVec 64 :=
  let x := (x ^^^ (x.sshiftRight 30)) * 0xbf58476d1ce4e5b9#64
  let x := (x ^^^ (x.sshiftRight 27)) * 0x94d049bb133111eb#64
  x ^^^ (x.sshiftRight 31)

/-- `twang_mix64`; ConcurrencyPrimitive.cpp lines 32-41. -/
def twangMix64 (key : BitVec 64) : BitVec 64 :=
  let key := (~~~key) + (key <<< 21)
  let key := key ^^^ (key >>> 24)
  let key := key + (key <<< 3) + (key <<< 8)
  let key := key ^^^ (key >>> 14)
  let key := key + (key <<< 2) + (key <<< 4)
  let key := key ^^^ (key >>> 28)
  key + (key <<< 31)

/-- `twang_unmix64`; ConcurrencyPrimitive.cpp lines 42-51. -/
def twangUnmix64 (key : BitVec 64) : BitVec 64 :=
  let key := key * 4611686016279904257#64
  let key := key ^^^ ((key >>> 28) ^^^ (key >>> 56))
  let key := key * 14933078535860113213#64
  let key := key ^^^ ((key >>> 14) ^^^ (key >>> 28) ^^^ (key >>> 42) ^^^ (key >>> 56))
  let key := key * 15244667743933553977#64
  let key := key ^^^ ((key >>> 24) ^^^ (key >>> 48))
  (key + 1#64) * 9223367638806167551#64

/-- `hash_combine` for a 4-byte seed; Hash.hpp lines 17-24. -/
def hashCombine32 (seed val : BitVec 32) : BitVec 32 :=
  seed ^^^ (val + 0x9e3779b9#32 + (seed <<< 6) + (seed >>> 2))

/-- `hash_combine` for an 8-byte seed; Hash.hpp lines 17-26. -/
def hashCombine64 (seed val : BitVec 64) : BitVec 64 :=
  seed ^^^ (val + 0x9e3779b97f4a7c15#64 + (seed <<< 12) + (seed >>> 4))

end Verif.Hash
