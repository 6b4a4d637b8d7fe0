import Verif.Model.RingBuffer
/-! Specification for C01: a bounded deque. -/
namespace Verif.RingBuffer

/-- A bounded deque of capacity `n`, oldest element first: a push on a full deque drops the oldest
element, a pop removes the newest (if any). -/
def specStep {α} (n : Nat) (l : List α) : Op α → List α
  | .push x => if l.length = n then (l ++ [x]).tail else l ++ [x]
  | .pop => l.dropLast

def specRun {α} (n : Nat) (ops : List (Op α)) : List α := ops.foldl (specStep n) []

end Verif.RingBuffer
