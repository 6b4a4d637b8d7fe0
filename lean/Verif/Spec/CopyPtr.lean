import Verif.Model.CopyPtr

/-!
Specification of `copyable_ptr`: a variable is a value that may be absent.
-/
namespace Verif.CopyPtr

variable {α : Type}

/-- The effect of an operation on values; `none` where a value is needed and absent. -/
def specStep (m : Nat → Option α) : Op α → Option (Nat → Option α)
  | .make v x => some fun w => if w = v then some x else m w
  | .copy dst src => if m src = none then none else some fun w => if w = dst then m src else m w
  | .move dst src => some fun w => if w = dst then m src else if w = src then none else m w
  | .reset v => some fun w => if w = v then none else m w
  | .release v => some fun w => if w = v then none else m w
  | .swap v w => some fun u => if u = w then m v else if u = v then m w else m u
  | .write v x => if m v = none then none else some fun w => if w = v then some x else m w

/-- The effect of a program. -/
def specRun : List (Op α) → (Nat → Option α) → Option (Nat → Option α)
  | [], m => some m
  | o :: os, m => (specStep m o).bind (specRun os)

end Verif.CopyPtr
