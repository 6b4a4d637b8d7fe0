import Verif.Model.Function
/-!
Specification of `function`: every living object is empty or holds a value with a flag telling whether it
can be copied.  Assignment replaces the held callable, whatever the value category of the right-hand
side; a throwing assignment has no effect.
-/
namespace Verif.Function

/-- Abstract state. -/
abbrev Abs := Nat → Option (Option (Nat × Bool))

/-- Abstract copy into object `i`. -/
def specCopy (a : Abs) (i : Nat) : Option (Nat × Bool) → Abs × Bool
  | some (_, false) => (a, true)
  | o => (upd a i (some o), false)

/-- Abstract effect of a call and whether it throws; outer `none`: outside the documented domain. -/
def specStep (a : Abs) : Op → Option (Abs × Bool)
  | .ctor i => if a i = none then some (upd a i (some none), false) else none
  | .dtor i => (a i).map fun _ => (upd a i none, false)
  | .ctorFrom i v cp th =>
    if a i = none then some (if th then (a, true) else (upd a i (some (some (v, cp))), false)) else none
  | .assign i v cp th =>
    (a i).map fun _ => if th then (a, true) else (upd a i (some (some (v, cp))), false)
  | .copyCtor i j => if a i = none then (a j).map fun o => specCopy a i o else none
  | .copyAssign i j | .lvalAssign i j =>
    (a i).bind fun _ => (a j).map fun o => if i = j then (a, false) else specCopy a i o
  | .moveCtor i j => if a i = none then (a j).map fun o => (upd (upd a j (some none)) i (some o), false) else none
  | .moveAssign i j =>
    (a i).bind fun _ => (a j).map fun o =>
      if i = j then (a, false) else (upd (upd a j (some none)) i (some o), false)

/-- A client sees the abstract state: which objects are alive, which are empty, what a call returns. -/
def Shows (s : St) (a : Abs) : Prop :=
  ∀ i, match a i with
    | none => s.obj i = none
    | some none => test i s = some false ∧ call i s = some none
    | some (some (v, _)) => test i s = some true ∧ call i s = some (some v)

/-- Calls that the code handles as far as behaviour is concerned: all but an assignment that throws while
a callable is held, and `f = g` with non-const `g` when `g` is `f`, is empty, or cannot be copied. -/
def Handled (a : Abs) : Op → Prop
  | .assign i _ _ th => th = true → a i = some none
  | .lvalAssign i j => i ≠ j ∧ ∃ v, a j = some (some (v, true))
  | _ => True

/-- Calls that lose no callable: copy and move assignment only to empty objects (or to itself). -/
def Frugal (a : Abs) : Op → Prop
  | .copyAssign i j | .moveAssign i j => i = j ∨ a i = some none
  | _ => True

/-- States after a history of calls within the documented domain that satisfy `P`. -/
inductive Reach (P : Abs → Op → Prop) : St → Abs → Prop
  | init : Reach P init (fun _ => none)
  | call (op : Op) (s s' : St) (a a' : Abs) (th : Bool) : Reach P s a → P a op →
      specStep a op = some (a', th) → step s op = some (s', th) → Reach P s' a'

/-- The callable objects inside the living `function` objects. -/
def Held (s : St) (id : Nat) : Prop := ∃ i c, s.obj i = some (some c) ∧ id ∈ c.ids

end Verif.Function
