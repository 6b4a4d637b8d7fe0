import Verif.Model.Atomics
/-! Sequential meaning of the read-modify-write helpers. -/
namespace Verif.Atomics

variable {α : Type} [DecidableEq α]

/-- Value after the call, executed alone. -/
def Call.apply (A : Arith α) : Call α → α → α
  | .add v, x => A.add x v
  | .fetchAdd v, x => A.add x v
  | .max v, x => if A.lt x v then v else x
  | .min v, x => if A.lt v x then v else x
  | .exch v, _ => v
  | .cas e d, x => if x = e then d else x
  | .bits f, x => f x

/-- A sequence of calls with results, executed one after the other from `x`, ends in `y`. -/
def Legal (A : Arith α) (x : α) : List (Nat × Call α × α) → α → Prop
  | [], y => y = x
  | (_, c, r) :: l, y => r = x ∧ Legal A (c.apply A x) l y

/-- The calls a thread has finished. -/
def finished (s : St α) (t : Nat) : List (Call α) := (s.done.filter (·.1 == t)).map (·.2.1)

/-- A set of values on which `!=` recognises a failed compare-exchange: it tells a value smaller (or
larger) than the argument from every other, and not from itself. -/
structure Distinguishes (A : Arith α) (D : α → Prop) : Prop where
  refl : ∀ a v, D a → A.lt a v = true ∨ A.lt v a = true → A.ne a a = false
  differ : ∀ a b v, D a → D b → A.lt b v = true ∨ A.lt v b = true → a ≠ b → A.ne a b = true

/-- All values a call can store lie in `D` if those it finds do. -/
def Call.Stays (A : Arith α) (D : α → Prop) (c : Call α) : Prop := ∀ x, D x → D (c.apply A x)

/-- `int`. -/
def i32 : Arith (BitVec 32) := ⟨(· + ·), fun a b => a.slt b, fun a b => decide (a ≠ b)⟩

end Verif.Atomics
