/-!
Model of the generator of random numbers, `include/zensim/math/probability/Random.hpp`.
-/
namespace Verif.Pcg

/-- Line 26 and line 34. -/
def step (inc s : BitVec 64) : BitVec 64 := s * 6364136223846793005#64 + (inc ||| 1#64)

/-- Lines 27-29 and lines 35-37; the state is that of before. -/
def output (oldstate : BitVec 64) : BitVec 32 :=
  let xorshifted : BitVec 32 := (((oldstate >>> 18) ^^^ oldstate) >>> 27).setWidth 32
  let rot : BitVec 32 := (oldstate >>> 59).setWidth 32
  (xorshifted >>> rot.toNat) ||| (xorshifted <<< ((-rot) &&& 31#32).toNat)

/-- `pcg32_random_r`, lines 24-38: the number and the next state. -/
def next (inc s : BitVec 64) : BitVec 32 × BitVec 64 := (output s, step inc s)

/-- `seed`, lines 7-14; the characters of the time, of which the last is zero. -/
def seed (time : List (BitVec 8)) : BitVec 64 := time.foldl (fun shifted c => (shifted <<< 8) ||| c.setWidth 64) 0#64

/-- `call_random`, lines 44-51: the generator starts at zero. -/
def callRandom (time : List (BitVec 8)) (i : Int) : BitVec 32 := (next (seed time) ((List.range i.toNat).foldl (fun s _ => (next (seed time) s).2) 0#64)).1

end Verif.Pcg
