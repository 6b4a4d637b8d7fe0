/-
Model of `include/zensim/container/RingBuffer.hpp`.

C++ `int` indices are `Int` (overflow is discussed in the properties file); the `vec<T, Size>`
storage is a partial map from indices to values, `none` = never written.
-/
namespace Verif.RingBuffer

/-- `RingBuffer<T, Size>` data members; RingBuffer.hpp lines 57-58. -/
structure RB (α : Type) where
  buf : Int → Option α
  head : Int
  tail : Int
  size : Int

/-- `RingBuffer()`; line 7. -/
def init {α} : RB α := ⟨fun _ => none, 1, 0, 0⟩

/-- `incTail`; lines 42-45. -/
def incTail {α} (n : Int) (r : RB α) : RB α :=
  let t := r.tail + 1
  { r with tail := if t = n then 0 else t, size := r.size + 1 }

/-- `decTail`; lines 46-50. -/
def decTail {α} (n : Int) (r : RB α) : RB α :=
  if r.size = 0 then r
  else
    let t := r.tail - 1
    { r with tail := if t < 0 then n - 1 else t, size := r.size - 1 }

/-- `incHead`; lines 51-55. -/
def incHead {α} (n : Int) (r : RB α) : RB α :=
  if r.size = 0 then r
  else
    let h := r.head + 1
    { r with head := if h = n then 0 else h, size := r.size - 1 }

/-- `push_back(element)`; lines 14-23. -/
def push {α} (n : Int) (x : α) (r : RB α) : RB α :=
  let r := incTail n r
  let r := if r.size > n then incHead n r else r
  { r with buf := fun i => if i = r.tail then some x else r.buf i }

/-- `push_back()`: the new back element keeps whatever the slot held; lines 10-13. -/
def pushSlot {α} (n : Int) (r : RB α) : RB α :=
  let r := incTail n r
  if r.size > n then incHead n r else r

/-- `pop()`; line 24. -/
def pop {α} (n : Int) (r : RB α) : RB α := decTail n r

/-- `back()`; lines 27-28. -/
def back {α} (r : RB α) : Option α := r.buf r.tail

/-- `operator[](index)`; lines 29-38.  `%` is C++ remainder (truncated). -/
def get {α} (n : Int) (r : RB α) (i : Int) : Option α := r.buf ((i + r.head).tmod n)

/-- Calls a client can make. -/
inductive Op (α : Type) where
  | push (x : α)
  | pop

def step {α} (n : Int) (r : RB α) : Op α → RB α
  | .push x => push n x r
  | .pop => pop n r

def run {α} (n : Int) (ops : List (Op α)) : RB α := ops.foldl (step n) init

end Verif.RingBuffer
